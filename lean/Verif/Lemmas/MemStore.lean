import Verif.Model.MemStore
import Verif.Lemmas.Identifier
import Verif.Spec.Store
/-!
# Lemmas about ordered maps and `MemStore`
-/

namespace CB
open Spec

namespace OMap
variable {ν : Type}

theorem lookup_insertList (k k' : Str) (v : ν) (l : List (Str × ν)) (hl : AscKeys l) :
    lookup k' (insertList k v l) = if k' = k then some v else lookup k' l := by
  induction l with
  | nil =>
    simp only [insertList, lookup]
    by_cases h : k' = k
    · subst h; simp
    · rw [if_neg (fun h' => h h'.symm), if_neg h]
  | cons a es ih =>
    obtain ⟨k2, v2⟩ := a
    unfold AscKeys at hl
    rw [List.pairwise_cons] at hl
    simp only [insertList]
    split
    · rename_i hlt
      simp only [lookup]
      by_cases h : k' = k
      · subst h; simp
      · rw [if_neg (fun h' => h h'.symm), if_neg h]
    · rename_i heq
      have := (cmpBytes_eq_iff k k2).1 heq
      subst this
      simp only [lookup]
      by_cases h : k' = k
      · subst h; simp
      · rw [if_neg (fun h' => h h'.symm), if_neg h, if_neg (fun h' => h h'.symm)]
    · rename_i hgt
      simp only [lookup]
      by_cases h2 : k2 = k'
      · subst h2
        have : k2 ≠ k := by
          rintro rfl
          rw [cmpBytes_refl] at hgt; cases hgt
        simp [this]
      · rw [if_neg h2, if_neg h2, ih hl.2]

theorem get_insert (m : OMap ν) (k k' : Str) (v : ν) : (m.insert k v).get k' = if k' = k then some v else m.get k' :=
  lookup_insertList k k' v m.entries m.sorted

@[simp] theorem get_empty (k : Str) : (empty : OMap ν).get k = none := rfl

theorem mem_list_iff {l : List (Str × ν)} (hl : AscKeys l) (k : Str) (v : ν) : (k, v) ∈ l ↔ lookup k l = some v := by
  induction l with
  | nil => simp [lookup]
  | cons a es ih =>
    obtain ⟨k2, v2⟩ := a
    unfold AscKeys at hl
    rw [List.pairwise_cons] at hl
    simp only [lookup, List.mem_cons, Prod.mk.injEq]
    by_cases h : k2 = k
    · subst h
      rw [if_pos rfl, Option.some.injEq]
      constructor
      · rintro (⟨_, h⟩ | h)
        · exact h.symm
        · have := hl.1 _ h
          rw [cmpBytes_refl] at this; cases this
      · rintro rfl; exact .inl ⟨rfl, rfl⟩
    · rw [if_neg h, ← ih hl.2]
      constructor
      · rintro (⟨h', _⟩ | h')
        · exact absurd h'.symm h
        · exact h'
      · exact .inr

theorem mem_entries_iff (m : OMap ν) (k : Str) (v : ν) : (k, v) ∈ m.entries ↔ m.get k = some v := mem_list_iff m.sorted k v

/-- Two strictly ascending lists with the same elements are equal. -/
theorem asc_ext {l l' : List (Str × ν)} (hl : AscKeys l) (hl' : AscKeys l') (h : ∀ e, e ∈ l ↔ e ∈ l') : l = l' := by
  induction l generalizing l' with
  | nil =>
    cases l' with
    | nil => rfl
    | cons a _ => exact absurd ((h a).2 (by simp)) (by simp)
  | cons a es ih =>
    cases l' with
    | nil => exact absurd ((h a).1 (by simp)) (by simp)
    | cons b es' =>
      unfold AscKeys at hl hl'
      rw [List.pairwise_cons] at hl hl'
      have hab : a = b := by
        rcases List.mem_cons.1 ((h a).1 (by simp)) with h1 | h1
        · exact h1
        · rcases List.mem_cons.1 ((h b).2 (by simp)) with h2 | h2
          · exact h2.symm
          · have x := hl.1 _ h2
            have y := hl'.1 _ h1
            have := cmpBytes_lt_trans x y
            rw [cmpBytes_refl] at this; cases this
      subst hab
      congr 1
      refine ih hl.2 hl'.2 fun e => ?_
      constructor
      · intro he
        rcases List.mem_cons.1 ((h e).1 (by simp [he])) with h1 | h1
        · subst h1
          have := hl.1 _ he
          rw [cmpBytes_refl] at this; cases this
        · exact h1
      · intro he
        rcases List.mem_cons.1 ((h e).2 (by simp [he])) with h1 | h1
        · subst h1
          have := hl'.1 _ he
          rw [cmpBytes_refl] at this; cases this
        · exact h1

theorem ext {m m' : OMap ν} (h : ∀ k, m.get k = m'.get k) : m = m' := by
  have : m.entries = m'.entries :=
    asc_ext m.sorted m'.sorted fun ⟨k, v⟩ => by rw [mem_entries_iff, mem_entries_iff, h k]
  obtain ⟨l, hl⟩ := m
  obtain ⟨l', hl'⟩ := m'
  simp only at this
  subst this
  rfl

end OMap

namespace MemStore

/-- Every entry is filed under the text of its transaction's id (an invariant of `set`). -/
def WF (m : MemStore) : Prop := ∀ e ∈ m.inner.entries, e.1 = e.2.id.toString

theorem wf_empty : empty.WF := by intro e he; cases he

theorem wf_set {m : MemStore} (h : m.WF) (t : SignedTx) : (m.set t).WF := by
  intro e he
  rcases OMap.mem_insertList he with rfl | h'
  · rfl
  · exact h e h'

theorem wf_foldl {m : MemStore} (h : m.WF) (txs : List SignedTx) : (txs.foldl set m).WF := by
  induction txs generalizing m with
  | nil => exact h
  | cons t ts ih => exact ih (wf_set h t)

theorem wf_ofList (txs : List SignedTx) : (ofList txs).WF := wf_foldl wf_empty txs

theorem get_set (m : MemStore) (t : SignedTx) (id : Identifier) :
    (m.set t).getTransaction id = if id = t.id then some t else m.getTransaction id := by
  unfold getTransaction set
  rw [OMap.get_insert]
  simp only [Identifier.toString_inj]

@[simp] theorem get_set_self (m : MemStore) (t : SignedTx) : (m.set t).getTransaction t.id = some t := by
  simp [get_set]

@[simp] theorem get_empty (id : Identifier) : empty.getTransaction id = none := rfl

theorem get_id {m : MemStore} (h : m.WF) {id : Identifier} {t : SignedTx} (ht : m.getTransaction id = some t) : t.id = id := by
  have := h _ ((OMap.mem_entries_iff m.inner _ _).2 ht)
  exact (Identifier.toString_injective this).symm

theorem mem_iff {m : MemStore} (h : m.WF) (e : Str × SignedTx) :
    e ∈ m.inner.entries ↔ e.1 = e.2.id.toString ∧ m.getTransaction e.2.id = some e.2 := by
  constructor
  · intro he
    have h1 := h e he
    refine ⟨h1, ?_⟩
    unfold getTransaction
    rw [← h1, ← OMap.mem_entries_iff]; exact he
  · rintro ⟨h1, h2⟩
    unfold getTransaction at h2
    rw [← h1, ← OMap.mem_entries_iff] at h2
    exact h2

theorem ext {m m' : MemStore} (hm : m.WF) (hm' : m'.WF) (h : ∀ id, m.getTransaction id = m'.getTransaction id) : m = m' := by
  have : m.inner.entries = m'.inner.entries :=
    OMap.asc_ext m.inner.sorted m'.inner.sorted fun e => by rw [mem_iff hm, mem_iff hm', h]
  obtain ⟨⟨l, hl⟩⟩ := m
  obtain ⟨⟨l', hl'⟩⟩ := m'
  simp only at this
  subst this
  rfl

theorem idLe_iff (a b : Identifier) : cmpBytes a.toString b.toString ≠ .gt ↔ IdLe a b := by
  unfold IdLe
  rw [← Identifier.cmp_eq_cmpText, ← Identifier.cmp_eq_iff]
  cases a.cmp b <;> simp

theorem range_eq_ok_iff {m : MemStore} {a b : Identifier} {l : List SignedTx} :
    m.range a b = .ok l ↔ IdLe a b ∧
      l = (m.inner.entries.filter fun e => cmpBytes a.toString e.1 != .gt && cmpBytes e.1 b.toString != .gt).map Prod.snd := by
  unfold range OMap.range
  rw [← idLe_iff]
  split <;> simp_all [eq_comm]

theorem range_spec {m : MemStore} (h : m.WF) {a b : Identifier} (hab : IdLe a b) :
    ∃ l, m.range a b = .ok l ∧ (∀ t, t ∈ l ↔ m.getTransaction t.id = some t ∧ IdLe a t.id ∧ IdLe t.id b) ∧ l.Pairwise IdLt := by
  refine ⟨_, range_eq_ok_iff.2 ⟨hab, rfl⟩, fun t => ?_, ?_⟩
  · simp only [List.mem_map, List.mem_filter, Bool.and_eq_true, bne_iff_ne]
    constructor
    · rintro ⟨e, ⟨he, h1, h2⟩, rfl⟩
      obtain ⟨hk, hg⟩ := (mem_iff h e).1 he
      rw [hk] at h1 h2
      exact ⟨hg, (idLe_iff _ _).1 h1, (idLe_iff _ _).1 h2⟩
    · rintro ⟨hg, h1, h2⟩
      exact ⟨(t.id.toString, t), ⟨(mem_iff h _).2 ⟨rfl, hg⟩, (idLe_iff _ _).2 h1, (idLe_iff _ _).2 h2⟩, rfl⟩
  · rw [List.pairwise_map]
    have hp := List.Pairwise.filter (fun e => cmpBytes a.toString e.1 != .gt && cmpBytes e.1 b.toString != .gt) m.inner.sorted
    refine List.Pairwise.imp_of_mem ?_ hp
    intro e f he hf hlt
    rw [List.mem_filter] at he hf
    rw [h _ he.1, h _ hf.1, ← Identifier.cmp_eq_cmpText] at hlt
    exact hlt

theorem range_panic {m : MemStore} {a b : Identifier} : (∃ p, m.range a b = .panic p) ↔ b.cmp a = .lt := by
  unfold range OMap.range
  rw [← Identifier.cmp_eq_cmpText, Identifier.cmp_eq_cmpBytes, Identifier.cmp_eq_cmpBytes, ← cmpBytes_gt_iff]
  split <;> simp_all

end MemStore

namespace Identifier

theorem start_none {ε : Type} (e : Identifier) (t : TxType) :
    (start e t none : Res ε Identifier) = .ok ⟨e.electionId, t, BArr.fill 16 0⟩ := rfl

theorem end_none {ε : Type} (e : Identifier) (t : TxType) :
    (Identifier.end e t none : Res ε Identifier) = .ok ⟨e.electionId, t, BArr.fill 16 255⟩ := rfl

theorem cmpBytes_zeros (n : Nat) (b : Bytes) (h : b.length = n) : cmpBytes (List.replicate n 0) b ≠ .gt := by
  induction n generalizing b with
  | zero => simp at h; subst h; simp [cmpBytes]
  | succ n ih =>
    cases b with
    | nil => simp at h
    | cons x xs =>
      simp only [List.replicate_succ, cmpBytes]
      by_cases h1 : (0 : UInt8) < x
      · simp [h1]
      · have : ¬ x < 0 := by simp
        simp only [h1, this, if_false]
        exact ih xs (by simpa using h)

theorem cmpBytes_ones (n : Nat) (b : Bytes) (h : b.length = n) : cmpBytes b (List.replicate n 255) ≠ .gt := by
  induction n generalizing b with
  | zero => simp at h; subst h; simp [cmpBytes]
  | succ n ih =>
    cases b with
    | nil => simp at h
    | cons x xs =>
      simp only [List.replicate_succ, cmpBytes]
      by_cases h1 : x < 255
      · simp [h1]
      · have : ¬ (255 : UInt8) < x := by
          intro h2
          have := x.toNat_lt
          rw [UInt8.lt_iff_toNat_lt] at h2
          simp at h2; omega
        simp only [h1, this, if_false]
        exact ih xs (by simpa using h)

theorem idLe_self (a : Identifier) : IdLe a a := .inr rfl

/-- The scan bounds enclose exactly the ids with that election and type. -/
theorem between_iff (e : BArr 15) (t : TxType) (i : Identifier) :
    (IdLe ⟨e, t, BArr.fill 16 0⟩ i ∧ IdLe i ⟨e, t, BArr.fill 16 255⟩) ↔ i.electionId = e ∧ i.txType = t := by
  have conv : ∀ a b : Identifier, IdLe a b ↔ cmpBytes a.toArray b.toArray ≠ .gt := by
    intro a b
    unfold IdLe
    rw [← cmp_eq_iff, cmp_eq_cmpBytes]
    cases cmpBytes a.toArray b.toArray <;> simp
  rw [conv, conv]
  simp only [toArray]
  rw [cmpBytes_append (e.val ++ [t.toU8]) (i.electionId.val ++ [i.txType.toU8]) _ _ (by simp [e.property, i.electionId.property]),
    cmpBytes_append (i.electionId.val ++ [i.txType.toU8]) (e.val ++ [t.toU8]) _ _ (by simp [e.property, i.electionId.property])]
  have hz := cmpBytes_zeros 16 i.uniqueInfo.val i.uniqueInfo.property
  have ho := cmpBytes_ones 16 i.uniqueInfo.val i.uniqueInfo.property
  have hEq : (i.electionId = e ∧ i.txType = t) ↔ cmpBytes (e.val ++ [t.toU8]) (i.electionId.val ++ [i.txType.toU8]) = .eq := by
    rw [cmpBytes_eq_iff]
    constructor
    · rintro ⟨rfl, rfl⟩; rfl
    · intro h
      obtain ⟨h1, h2⟩ := List.append_inj h (by rw [e.property, i.electionId.property])
      simp only [List.cons.injEq, and_true] at h2
      exact ⟨Subtype.ext h1.symm, (TxType.toU8_injective h2).symm⟩
  rw [hEq, cmpBytes_swap (e.val ++ [t.toU8])]
  simp only [BArr.fill]
  cases hc : cmpBytes (e.val ++ [t.toU8]) (i.electionId.val ++ [i.txType.toU8]) with
  | lt => simp
  | gt => simp
  | eq => simpa using ⟨hz, ho⟩

theorem start_le_end (e : BArr 15) (t : TxType) : IdLe ⟨e, t, BArr.fill 16 0⟩ ⟨e, t, BArr.fill 16 255⟩ :=
  ((between_iff e t ⟨e, t, BArr.fill 16 255⟩).2 ⟨rfl, rfl⟩).1

end Identifier

namespace MemStore

theorem getMultiple_spec {m : MemStore} (h : m.WF) (e : Identifier) (ty : TxType) :
    ∃ l, m.toStore.getMultiple e ty = .ok l ∧
      (∀ t, t ∈ l ↔ m.getTransaction t.id = some t ∧ t.id.electionId = e.electionId ∧ t.id.txType = ty) ∧ l.Pairwise IdLt := by
  obtain ⟨l, h1, h2, h3⟩ := range_spec h (Identifier.start_le_end e.electionId ty)
  refine ⟨l, ?_, fun t => ?_, h3⟩
  · simp only [Store.getMultiple, Identifier.start_none, Identifier.end_none]
    exact h1
  · rw [h2, Identifier.between_iff]

/-- Two lists of transactions ascending in id with the same elements are equal. -/
theorem idLt_ext {l l' : List SignedTx} (hl : l.Pairwise IdLt) (hl' : l'.Pairwise IdLt) (h : ∀ e, e ∈ l ↔ e ∈ l') : l = l' := by
  have key : ∀ l : List SignedTx, l.Pairwise IdLt → AscKeys (l.map fun t => (t.id.toString, t)) := by
    intro l hl
    unfold AscKeys
    rw [List.pairwise_map]
    refine hl.imp fun {a b} hab => ?_
    rw [← Identifier.cmp_eq_cmpText]; exact hab
  have := OMap.asc_ext (key l hl) (key l' hl') fun e => by simp only [List.mem_map, h]
  have := congrArg (List.map Prod.snd) this
  simpa [List.map_map, Function.comp_def] using this

theorem get_foldl (txs : List SignedTx) (m : MemStore) (id : Identifier) :
    (txs.foldl set m).getTransaction id = ((txs.filter fun t => t.id = id).getLast?).or (m.getTransaction id) := by
  induction txs generalizing m with
  | nil => simp
  | cons t ts ih =>
    rw [List.foldl_cons, ih, get_set]
    by_cases h : id = t.id
    · subst h
      simp only [if_pos, decide_true, List.filter_cons_of_pos, List.getLast?_cons]
      cases (List.filter (fun u => decide (u.id = t.id)) ts).getLast? <;> simp
    · rw [if_neg h, List.filter_cons_of_neg (by simpa using fun h' => h h'.symm)]

theorem stored_iff (txs : List SignedTx) (t : SignedTx) :
    (ofList txs).getTransaction t.id = some t ↔ Stored txs t := by
  unfold ofList
  rw [get_foldl]
  simp only [get_empty, Option.or_none]
  induction txs with
  | nil =>
    constructor
    · intro h; simp at h
    · rintro ⟨b, a, h, _⟩; cases b <;> simp at h
  | cons u us ih =>
    by_cases hu : u.id = t.id
    · rw [List.filter_cons_of_pos (by simpa using hu), List.getLast?_cons]
      cases hl : (List.filter (fun v => decide (v.id = t.id)) us).getLast? with
      | none =>
        simp only [Option.getD_none, Option.some.injEq]
        rw [List.getLast?_eq_none_iff, List.filter_eq_nil_iff] at hl
        constructor
        · rintro rfl
          exact ⟨[], us, rfl, fun v hv => by simpa using hl v hv⟩
        · rintro ⟨b, a, h, hn⟩
          cases b with
          | nil => simp at h; exact h.1
          | cons x xs =>
            simp only [List.cons_append, List.cons.injEq] at h
            exact absurd (decide_eq_true rfl) (hl t (by rw [h.2]; simp))
      | some w =>
        rw [hl] at ih
        simp only [Option.getD_some]
        rw [ih]
        constructor
        · rintro ⟨b, a, h, hn⟩
          exact ⟨u :: b, a, by simp [h], hn⟩
        · rintro ⟨b, a, h, hn⟩
          cases b with
          | nil =>
            simp only [List.nil_append, List.cons.injEq] at h
            obtain ⟨rfl, rfl⟩ := h
            have := List.mem_of_getLast? hl
            rw [List.mem_filter] at this
            exact absurd (by simpa using this.2) (hn w this.1)
          | cons x xs =>
            simp only [List.cons_append, List.cons.injEq] at h
            exact ⟨xs, a, h.2, hn⟩
    · rw [List.filter_cons_of_neg (by simpa using hu), ih]
      constructor
      · rintro ⟨b, a, h, hn⟩
        exact ⟨u :: b, a, by simp [h], hn⟩
      · rintro ⟨b, a, h, hn⟩
        cases b with
        | nil =>
          simp only [List.nil_append, List.cons.injEq] at h
          exact absurd (by rw [h.1]) hu
        | cons x xs =>
          simp only [List.cons_append, List.cons.injEq] at h
          exact ⟨xs, a, h.2, hn⟩

end MemStore
end CB
