import Verif.Lemmas.MemStore
/-!
# C04–C06: `MemStore`
-/

namespace CB
open Spec

/-- **C06** After any sequence of `set` calls, `get_transaction` returns what was set last under the id, or nothing if nothing was; and
for distinct ids the order of the calls is irrelevant. -/
theorem C06_memstore_is_map (txs : List SignedTx) :
    (∀ id t, (MemStore.ofList txs).getTransaction id = some t ↔ t.id = id ∧ Stored txs t) ∧
    (∀ id, (MemStore.ofList txs).getTransaction id = none ↔ ∀ t ∈ txs, t.id ≠ id) ∧
    (∀ t, MemStore.ofList (txs ++ [t]) = (MemStore.ofList txs).set t) ∧
    (∀ txs' : List SignedTx, txs.Perm txs' → (txs.map SignedTx.id).Nodup → MemStore.ofList txs = MemStore.ofList txs') := by
  have hsome : ∀ (txs : List SignedTx) id t, (MemStore.ofList txs).getTransaction id = some t ↔ t.id = id ∧ Stored txs t := by
    intro txs id t
    constructor
    · intro h
      have hid := MemStore.get_id (MemStore.wf_ofList txs) h
      subst hid
      exact ⟨rfl, (MemStore.stored_iff txs t).1 h⟩
    · rintro ⟨rfl, h⟩
      exact (MemStore.stored_iff txs t).2 h
  refine ⟨hsome txs, fun id => ?_, fun t => ?_, fun txs' hp hn => ?_⟩
  · unfold MemStore.ofList
    rw [MemStore.get_foldl]
    simp only [MemStore.get_empty, Option.or_none, List.getLast?_eq_none_iff, List.filter_eq_nil_iff]
    simp
  · simp [MemStore.ofList]
  · refine MemStore.ext (MemStore.wf_ofList _) (MemStore.wf_ofList _) fun id => ?_
    have stored_nodup : ∀ (l : List SignedTx), (l.map SignedTx.id).Nodup → ∀ t, Stored l t ↔ t ∈ l := by
      intro l hl t
      constructor
      · rintro ⟨b, a, rfl, _⟩; simp
      · intro ht
        obtain ⟨b, a, rfl⟩ := List.append_of_mem ht
        refine ⟨b, a, rfl, fun u hu heq => ?_⟩
        rw [List.map_append, List.map_cons, List.nodup_append] at hl
        have := (List.nodup_cons.1 hl.2.1).1
        exact this (List.mem_map.2 ⟨u, hu, heq⟩)
    have hn' : (txs'.map SignedTx.id).Nodup := (List.Perm.nodup_iff (hp.map _)).1 hn
    apply Option.ext
    intro t
    rw [hsome, hsome, stored_nodup _ hn, stored_nodup _ hn', hp.mem_iff]

/-- **C05** A range scan returns exactly the stored transactions with ids between the bounds (inclusive), ascending and each once; it panics exactly
when the bounds are inverted. -/
theorem C05_range_exact (txs : List SignedTx) (a b : Identifier) :
    (IdLe a b → ∃ l, (MemStore.ofList txs).range a b = .ok l ∧
      (∀ t, t ∈ l ↔ Stored txs t ∧ IdLe a t.id ∧ IdLe t.id b) ∧ l.Pairwise IdLt) ∧
    ((∃ p, (MemStore.ofList txs).range a b = .panic p) ↔ b.cmp a = .lt) := by
  refine ⟨fun hab => ?_, MemStore.range_panic⟩
  obtain ⟨l, h1, h2, h3⟩ := MemStore.range_spec (MemStore.wf_ofList txs) hab
  exact ⟨l, h1, fun t => by rw [h2, MemStore.stored_iff], h3⟩

/-- **C04** `get_multiple` returns exactly the stored transactions whose id has the election and the type, ascending and each once, and
never fails. -/
theorem C04_type_scan_exact (txs : List SignedTx) (election : Identifier) (ty : TxType) :
    ∃ l, (MemStore.ofList txs).toStore.getMultiple election ty = .ok l ∧
      (∀ t, t ∈ l ↔ Stored txs t ∧ t.id.electionId = election.electionId ∧ t.id.txType = ty) ∧ l.Pairwise IdLt := by
  obtain ⟨l, h1, h2, h3⟩ := MemStore.getMultiple_spec (MemStore.wf_ofList txs) election ty
  exact ⟨l, h1, fun t => by rw [h2, MemStore.stored_iff], h3⟩

/-! Non-vacuity: a store with a boundary id (all-255 unique info), a plain one and an overwritten one. -/
section Example

def exElectionId : Identifier := ⟨BArr.fill 15 7, .election, BArr.fill 16 0⟩

/-- a voting-end transaction with the given unique info -/
def exEnd (u : UInt8) (key : UInt8) : SignedTx :=
  .votingEnd ⟨{ id := ⟨BArr.fill 15 7, .votingEnd, BArr.fill 16 u⟩, election := exElectionId, authorityPublicKey := BArr.fill 32 key }, BArr.fill 64 0⟩

example : Stored [exEnd 255 1, exEnd 0 1, exEnd 255 2] (exEnd 255 2) := ⟨[exEnd 255 1, exEnd 0 1], [], rfl, by simp⟩
example : ((MemStore.ofList [exEnd 255 1, exEnd 0 1, exEnd 255 2]).inner.entries.map fun e => e.2.id) = [(exEnd 0 1).id, (exEnd 255 2).id] := by
  decide +kernel
example : IdLe (exEnd 0 1).id (exEnd 255 2).id := .inl (by decide +kernel)
example : ((exEnd 0 1).id).cmp (exEnd 255 1).id = .lt := by decide +kernel

end Example
end CB
