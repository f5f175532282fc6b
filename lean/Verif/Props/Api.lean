import Verif.Model.Api
import Verif.Props.Exonum
/-!
# C39: the read API
-/

namespace CB
open Spec
namespace Api

theorem prefix_between {p a x : Bytes} (h1 : cmpBytes p a ≠ .gt) (h2 : cmpBytes a (p ++ x) ≠ .gt) : p <+: a := by
  induction p generalizing a with
  | nil => exact List.nil_prefix
  | cons c p ih =>
    cases a with
    | nil => simp [cmpBytes] at h1
    | cons d a =>
      simp only [cmpBytes, List.cons_append] at h1 h2
      by_cases hcd : c < d
      · have : ¬ d < c := fun h => by rw [UInt8.lt_iff_toNat_lt] at *; omega
        simp [this, hcd] at h2
      · by_cases hdc : d < c
        · simp [hcd, hdc] at h1
        · have : c = d := by
            rw [UInt8.lt_iff_toNat_lt] at hcd hdc
            exact UInt8.toNat_inj.1 (by omega)
          subst this
          simp only [hcd, if_false] at h1 h2
          exact List.cons_prefix_cons.2 ⟨rfl, ih h1 h2⟩

theorem cmp_self_append (p x : Bytes) : cmpBytes p (p ++ x) ≠ .gt := by
  have := cmpBytes_append_left p [] x
  rw [List.append_nil] at this
  rw [this]
  cases x <;> simp [cmpBytes]

theorem fill_le (c : UInt8) : ∀ (n : Nat) (b : Bytes), b.length = n → (∀ x ∈ b, c ≤ x) → cmpBytes (List.replicate n c) b ≠ .gt := by
  intro n
  induction n with
  | zero => intro b h _; simp at h; subst h; simp [cmpBytes]
  | succ n ih =>
    intro b h hb
    cases b with
    | nil => simp at h
    | cons x xs =>
      simp only [List.replicate_succ, cmpBytes]
      have hx := hb x (by simp)
      by_cases h1 : c < x
      · simp [h1]
      · have : ¬ x < c := by rw [UInt8.lt_iff_toNat_lt]; rw [UInt8.le_iff_toNat_le] at hx; omega
        simp only [h1, this, if_false]
        exact ih xs (by simpa using h) fun y hy => hb y (by simp [hy])

theorem hexChar_bounds {c : UInt8} (h : LowerHexChar c) : 0x30 ≤ c ∧ c < 0x80 := by
  unfold LowerHexChar at h
  revert h c
  decide +kernel

theorem charCount_ascii {p : Str} (h : ∀ c ∈ p, c < 0x80) : charCount p = p.length := by
  unfold charCount
  rw [List.filter_eq_self.2]
  intro c hc
  have := h c hc
  rw [UInt8.lt_iff_toNat_lt] at this
  simp only [Bool.not_eq_true', Bool.and_eq_false_iff, decide_eq_false_iff_not]
  left
  rw [UInt8.le_iff_toNat_le]
  omega

/-- The padded prefix comes before every id text with that prefix. -/
theorem padded_le {p : Str} {i : Identifier} (h : p <+: i.toString) : cmpBytes (padded p) i.toString ≠ .gt := by
  obtain ⟨r, hr⟩ := h
  obtain ⟨_, hl, hc, _⟩ := C01_identifier_text_roundtrip i
  rw [← hr] at hl hc ⊢
  unfold padded
  rw [cmpBytes_append_left, charCount_ascii fun c hc' => (hexChar_bounds (hc c (by simp [hc']))).2]
  refine fill_le _ _ _ ?_ fun x hx => (hexChar_bounds (hc x (by simp [hx]))).1
  rw [List.length_append] at hl
  omega

theorem entries_eq {s : Exonum.Schema} (h : Exonum.WF s) (p : Str) :
    ((s.iterFrom (padded p)).takeWhile fun e => p.isPrefixOf e.1) = s.entries.filter fun e => p.isPrefixOf e.1 := by
  rw [takeWhile_eq_filter (r := fun x y => cmpBytes x.1 y.1 = .lt), OMap.iterFrom, List.filter_filter]
  · apply List.filter_congr
    rintro ⟨k, e⟩ he
    obtain ⟨t, _, rfl⟩ := h k e ((OMap.mem_entries_iff _ _ _).1 he)
    simp only [Bool.and_eq_left_iff_imp, List.isPrefixOf_iff_prefix, bne_iff_ne]
    exact padded_le
  · rintro ⟨k, e⟩ he ⟨k', e'⟩ _ hlt hp
    simp only [List.isPrefixOf_iff_prefix] at hp ⊢
    rw [OMap.iterFrom, List.mem_filter, bne_iff_ne] at he
    obtain ⟨x, rfl⟩ := hp
    refine prefix_between (x := x) ?_ (by simp only at hlt; rw [hlt]; decide)
    exact cmpBytes_ne_gt_trans (cmp_self_append p _) he.2
  · exact List.Pairwise.filter _ s.sorted

theorem mapM_decoded {es : List (Str × Exonum.Envelope)} (h : ∀ e ∈ es, ∃ t, SignedTx.fromBytes e.2.data = .ok t) :
    Res.mapM' (fun e : Str × Exonum.Envelope => Res.mapErr (fun _ => Error.internal) e.2.toTx) es = .ok (es.filterMap fun e => e.2.decoded) := by
  rw [Res.mapM'_eq_ok]
  induction es with
  | nil => rfl
  | cons e es ih =>
    obtain ⟨t, ht⟩ := h e (by simp)
    rw [List.filterMap_cons_some (f := fun e : Str × Exonum.Envelope => e.2.decoded) (b := t) (Exonum.decoded_eq_some.2 ht), List.map_cons, List.map_cons,
      ih fun x hx => h x (by simp [hx])]
    simp only [Exonum.Envelope.toTx, ht, Res.mapErr]

theorem listing {s : Exonum.Schema} (h : Exonum.WF s) (q : Str → Bool) :
    ∃ l, Res.mapM' (fun e : Str × Exonum.Envelope => Res.mapErr (fun _ => Error.internal) e.2.toTx) (s.entries.filter fun e => q e.1) = .ok l ∧
      (∀ t, t ∈ l ↔ Exonum.getTransaction s t.id = some t ∧ q t.id.toString = true) ∧ l.Pairwise IdLt := by
  refine ⟨_, mapM_decoded ?_, fun t => ?_, ?_⟩
  · rintro ⟨k, e⟩ he
    rw [List.mem_filter, OMap.mem_entries_iff] at he
    obtain ⟨t, ht, _⟩ := h _ _ he.1
    exact ⟨t, ht⟩
  · simp only [List.mem_filterMap, List.mem_filter, Exonum.decoded_eq_some]
    constructor
    · rintro ⟨⟨k, e⟩, ⟨hm, hq⟩, hd⟩
      rw [OMap.mem_entries_iff] at hm
      obtain ⟨t', ht', hk⟩ := h _ _ hm
      simp only at hd hq
      rw [hd] at ht'
      cases ht'
      subst hk
      exact ⟨Exonum.getTransaction_eq_some.2 ⟨e, hm, hd⟩, hq⟩
    · rintro ⟨hg, hq⟩
      obtain ⟨e, he, hd⟩ := Exonum.getTransaction_eq_some.1 hg
      exact ⟨(t.id.toString, e), ⟨(OMap.mem_entries_iff _ _ _).2 he, hq⟩, hd⟩
  · rw [List.pairwise_filterMap]
    refine List.Pairwise.imp_of_mem ?_ (List.Pairwise.filter _ s.sorted)
    rintro ⟨k, e⟩ ⟨k', e'⟩ he he' hlt t ht t' ht'
    rw [List.mem_filter, OMap.mem_entries_iff] at he he'
    obtain ⟨u, hu, hk⟩ := h _ _ he.1
    obtain ⟨u', hu', hk'⟩ := h _ _ he'.1
    simp only [Exonum.decoded_eq_some] at ht ht'
    rw [ht] at hu
    rw [ht'] at hu'
    cases hu
    cases hu'
    simp only at hlt
    rw [hk, hk', ← Identifier.cmp_eq_cmpText] at hlt
    exact hlt

/-- **C39 (partial)** After any history of labelled submissions, for every prefix text the endpoint lists exactly the stored transactions whose id text starts with it,
ascending, each once; without a prefix it lists everything; and looking up an id text finds exactly what is stored under that id, and answers
"not found" exactly when nothing is. -/
theorem C39_prefix_query_exact_partial (E : Env) (subs : List Exonum.Envelope) (hl : ∀ e ∈ subs, Labelled e) :
    let s := Exonum.deliverAll E OMap.empty subs
    (∀ p : Str, ∃ l, getAll s (some p) = .ok l ∧ (∀ t, t ∈ l ↔ Exonum.getTransaction s t.id = some t ∧ p <+: t.id.toString) ∧ l.Pairwise IdLt) ∧
    (∃ l, getAll s none = .ok l ∧ (∀ t, t ∈ l ↔ Exonum.getTransaction s t.id = some t) ∧ l.Pairwise IdLt) ∧
    (∀ id t, getTx s id.toString = .ok t ↔ Exonum.getTransaction s id = some t) ∧
    (∀ id, getTx s id.toString = .err .notFound ↔ Exonum.getTransaction s id = none) := by
  intro s
  have hw : Exonum.WF s := Exonum.wf_deliverAll hl
  refine ⟨fun p => ?_, ?_, fun id t => ?_, fun id => ?_⟩
  · obtain ⟨l, h1, h2, h3⟩ := listing hw fun k => p.isPrefixOf k
    refine ⟨l, ?_, fun t => by rw [h2, List.isPrefixOf_iff_prefix], h3⟩
    unfold getAll
    simp only [entries_eq hw]
    exact h1
  · obtain ⟨l, h1, h2, h3⟩ := listing hw fun _ => true
    refine ⟨l, ?_, fun t => by rw [h2]; simp, h3⟩
    unfold getAll
    rw [List.filter_eq_self.2 (by simp)] at h1
    exact h1
  · rw [Exonum.getTransaction_eq_some]
    unfold getTx
    cases s.get id.toString with
    | none => simp
    | some e => simp [Exonum.Envelope.toTx]
  · unfold getTx
    cases hg : s.get id.toString with
    | none => simp [Exonum.getTransaction, hg]
    | some e =>
      obtain ⟨t, ht, _⟩ := hw _ _ hg
      simp [Exonum.getTransaction, hg, ht, Exonum.Envelope.toTx, Res.mapErr, Exonum.Envelope.decoded]

/-- the sample election, asked for its first 15 hexadecimal digits (as `e2e` does) and for another prefix -/
example : (match getAll (Exonum.deliverAll Toy.env OMap.empty (Toy.complete.map Exonum.Envelope.ofTx)) (some (str "070707070707070")) with
    | .ok l => l.length | _ => 0) = 19 ∧
    (match getAll (Exonum.deliverAll Toy.env OMap.empty (Toy.complete.map Exonum.Envelope.ofTx)) (some (str "070707070707070707070707070707" ++ str "06")) with
    | .ok l => l.map SignedTx.id | _ => []) = Toy.ids := by decide +kernel

/-- **C39 is false of the code** for ledgers with mislabelled entries: a stored entry whose key starts with the prefix can be missing from the answer, because the
search starts at the prefix padded with zeros to 64 characters. -/
theorem C39_prefix_query_exact_false : ¬ ∀ (E : Env) (subs : List Exonum.Envelope) (p : Str) (k : Str) (e : Exonum.Envelope) (t : SignedTx) (l : List SignedTx),
    (Exonum.deliverAll E OMap.empty subs).get k = some e → SignedTx.fromBytes e.data = .ok t → p <+: k →
    getAll (Exonum.deliverAll E OMap.empty subs) (some p) = .ok l → ∃ u ∈ l, u.id = t.id := by
  intro h
  have h1 : ((Exonum.deliverAll Toy.env OMap.empty [{ Exonum.Envelope.ofTx Toy.electionTx with id := str "07" }]).get (str "07")).isSome = true := by
    decide +kernel
  obtain ⟨e, he⟩ := Option.isSome_iff_exists.1 h1
  obtain ⟨_, t, _, _, ht, _⟩ := Exonum.C36_stored_was_validated _ _ _ _ he
  have h2 : (match getAll (Exonum.deliverAll Toy.env OMap.empty [{ Exonum.Envelope.ofTx Toy.electionTx with id := str "07" }]) (some (str "07")) with
    | .ok l => l.isEmpty | _ => false) = true := by decide +kernel
  split at h2
  · rename_i l hl
    obtain ⟨u, hu, _⟩ := h _ _ _ _ e t l he ht (List.prefix_refl _) hl
    rw [List.isEmpty_iff.1 h2] at hu
    cases hu
  · cases h2

end Api
end CB
