import Verif.Model.Exonum
import Verif.Lemmas.Ledger
/-!
# Lemmas about the Exonum ledger
-/

namespace CB
open Spec

/-- On a sorted list, taking while a downward closed condition holds is filtering by it. -/
theorem takeWhile_eq_filter {α : Type} {r : α → α → Prop} {p : α → Bool} {l : List α}
    (hp : ∀ a ∈ l, ∀ b ∈ l, r a b → p b = true → p a = true) (hl : l.Pairwise r) : l.takeWhile p = l.filter p := by
  induction l with
  | nil => rfl
  | cons a l ih =>
    rw [List.pairwise_cons] at hl
    rw [List.takeWhile_cons, List.filter_cons]
    split
    · rw [ih (fun a ha b hb => hp a (List.mem_cons_of_mem _ ha) b (List.mem_cons_of_mem _ hb)) hl.2]
    · rename_i ha
      symm
      rw [List.filter_eq_nil_iff]
      intro b hb hpb
      exact ha (hp a List.mem_cons_self b (List.mem_cons_of_mem _ hb) (hl.1 b hb) hpb)

namespace Exonum

theorem window_eq (s : Schema) (a b : Str) : ((s.iterFrom a).takeWhile fun e => cmpBytes e.1 b != .gt) =
    s.entries.filter fun e => cmpBytes a e.1 != .gt && cmpBytes e.1 b != .gt := by
  rw [takeWhile_eq_filter (r := fun x y => cmpBytes x.1 y.1 = .lt), OMap.iterFrom, List.filter_filter]
  · congr 1; funext e; exact Bool.and_comm _ _
  · intro x _ y _ hxy hy
    rw [bne_iff_ne] at hy ⊢
    exact cmpBytes_ne_gt_trans (by rw [hxy]; decide) hy
  · exact List.Pairwise.filter _ s.sorted

theorem decoded_eq_some {e : Envelope} {t : SignedTx} : e.decoded = some t ↔ SignedTx.fromBytes e.data = .ok t := by
  unfold Envelope.decoded
  split <;> simp_all

theorem getTransaction_eq_some {s : Schema} {id : Identifier} {t : SignedTx} :
    getTransaction s id = some t ↔ ∃ e, s.get id.toString = some e ∧ SignedTx.fromBytes e.data = .ok t := by
  unfold getTransaction
  split <;> simp_all [decoded_eq_some]

theorem verifyAndStore_ok {E : Env} {s s' : Schema} {e : Envelope} :
    verifyAndStore E s e = .ok s' ↔ s.get e.id = none ∧ ∃ t, SignedTx.fromBytes e.data = .ok t ∧ t.validate E (toStore s) = .ok () ∧ s' = s.insert e.id e := by
  unfold verifyAndStore
  cases h : s.get e.id with
  | some _ => simp
  | none =>
    simp only [Option.isSome_none, Bool.false_eq_true, if_false, Res.bind_eq_ok, Res.mapErr_eq_ok, true_and, Res.ok.injEq, Res.exists_unit]
    constructor
    · rintro ⟨t, h1, h2, h3⟩; exact ⟨t, h1, h2, h3.symm⟩
    · rintro ⟨t, h1, h2, h3⟩; exact ⟨t, h1, h2, h3.symm⟩

theorem deliver_cases (E : Env) (s : Schema) (e : Envelope) :
    deliver E s e = s ∨ (s.get e.id = none ∧ ∃ t, SignedTx.fromBytes e.data = .ok t ∧ t.validate E (toStore s) = .ok () ∧ deliver E s e = s.insert e.id e) := by
  unfold deliver
  split
  · rename_i s' h
    obtain ⟨h1, t, h2, h3, rfl⟩ := verifyAndStore_ok.1 h
    exact .inr ⟨h1, t, h2, h3, rfl⟩
  · exact .inl rfl

theorem deliverAll_append (E : Env) (s : Schema) (l l' : List Envelope) : deliverAll E s (l ++ l') = deliverAll E (deliverAll E s l) l' := by
  unfold deliverAll; rw [List.foldl_append]

theorem deliverAll_snoc (E : Env) (s : Schema) (l : List Envelope) (e : Envelope) : deliverAll E s (l ++ [e]) = deliver E (deliverAll E s l) e := by
  rw [deliverAll_append]; rfl

theorem get_deliver {E : Env} {s : Schema} {e x : Envelope} {k : Str} (h : (deliver E s e).get k = some x) :
    s.get k = some x ∨ (s.get k = none ∧ k = e.id ∧ x = e ∧ ∃ t, SignedTx.fromBytes e.data = .ok t ∧ t.validate E (toStore s) = .ok ()) := by
  rcases deliver_cases E s e with h' | ⟨hn, t, h1, h2, h'⟩
  · rw [h'] at h; exact .inl h
  · rw [h', OMap.get_insert] at h
    split at h
    · rename_i hk
      cases h
      exact .inr ⟨hk ▸ hn, hk, rfl, t, h1, h2⟩
    · exact .inl h

theorem deliver_keeps {E : Env} {s : Schema} {e x : Envelope} {k : Str} (h : s.get k = some x) : (deliver E s e).get k = some x := by
  rcases deliver_cases E s e with h' | ⟨hn, t, h1, h2, h'⟩
  · rw [h']; exact h
  · rw [h', OMap.get_insert]
    split
    · rename_i hk
      subst hk
      rw [hn] at h; cases h
    · exact h

theorem deliverAll_keeps {E : Env} {l : List Envelope} {s : Schema} {x : Envelope} {k : Str} (h : s.get k = some x) :
    (deliverAll E s l).get k = some x := by
  induction l generalizing s with
  | nil => exact h
  | cons e l ih => exact ih (deliver_keeps h)

/-- Every entry is filed under the text of the id of the transaction in it. -/
def WF (s : Schema) : Prop := ∀ k e, s.get k = some e → ∃ t, SignedTx.fromBytes e.data = .ok t ∧ k = t.id.toString

theorem lawful {s : Schema} (h : WF s) : Lawful (toStore s) where
  keyed id t ht := by
    obtain ⟨e, he, hd⟩ := getTransaction_eq_some.1 ht
    obtain ⟨t', ht', hk⟩ := h _ _ he
    rw [hd] at ht'
    cases ht'
    exact (Identifier.toString_injective hk).symm
  range_ok a b _ := by
    refine ⟨range s a b, rfl, fun t => ?_, ?_⟩
    · unfold range
      rw [window_eq]
      simp only [List.mem_filterMap, List.mem_filter, Bool.and_eq_true, bne_iff_ne, decoded_eq_some]
      constructor
      · rintro ⟨⟨k, e⟩, ⟨hm, h1, h2⟩, hd⟩
        rw [OMap.mem_entries_iff] at hm
        obtain ⟨t', ht', hk⟩ := h _ _ hm
        simp only at hd h1 h2
        rw [hd] at ht'
        cases ht'
        subst hk
        exact ⟨getTransaction_eq_some.2 ⟨e, hm, hd⟩, (MemStore.idLe_iff _ _).1 h1, (MemStore.idLe_iff _ _).1 h2⟩
      · rintro ⟨hg, h1, h2⟩
        obtain ⟨e, he, hd⟩ := getTransaction_eq_some.1 hg
        exact ⟨(t.id.toString, e), ⟨(OMap.mem_entries_iff _ _ _).2 he, (MemStore.idLe_iff _ _).2 h1, (MemStore.idLe_iff _ _).2 h2⟩, hd⟩
    · unfold range
      rw [window_eq]
      have hp := List.Pairwise.filter (fun e : Str × Envelope => cmpBytes a.toString e.1 != .gt && cmpBytes e.1 b.toString != .gt) s.sorted
      rw [List.pairwise_filterMap]
      refine List.Pairwise.imp_of_mem ?_ hp
      rintro ⟨k, e⟩ ⟨k', e'⟩ he he' hlt t ht t' ht'
      rw [List.mem_filter, OMap.mem_entries_iff] at he he'
      obtain ⟨u, hu, hk⟩ := h _ _ he.1
      obtain ⟨u', hu', hk'⟩ := h _ _ he'.1
      simp only [decoded_eq_some] at ht ht'
      rw [ht] at hu
      rw [ht'] at hu'
      cases hu
      cases hu'
      simp only at hlt
      rw [hk, hk', ← Identifier.cmp_eq_cmpText] at hlt
      exact hlt

end Exonum
end CB
