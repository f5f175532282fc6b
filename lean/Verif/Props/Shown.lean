import Verif.Model.Report
import Verif.Props.E2eHonest
import Verif.Props.Stores
import Verif.Props.Sawtooth
/-!
# C116: the order in which a node shows an election
-/

namespace CB
open Spec

namespace E2e

theorem stored_iff_mem {txs : List SignedTx} (h : ∀ t ∈ txs, ∀ u ∈ txs, t.id = u.id → t = u) (t : SignedTx) : Stored txs t ↔ t ∈ txs := by
  constructor
  · rintro ⟨b, a, rfl, _⟩; simp
  · intro ht
    refine ((C06_memstore_is_map txs).1 t.id t |>.1 ?_).2
    cases hg : (MemStore.ofList txs).getTransaction t.id with
    | none => exact absurd rfl ((((C06_memstore_is_map txs).2.1 t.id).1 hg) t ht)
    | some u =>
      obtain ⟨hu, b, a, hba, _⟩ := ((C06_memstore_is_map txs).1 t.id u).1 hg
      rw [h u (by rw [hba]; simp) t ht hu]

theorem ofList_same {txs txs' : List SignedTx} (h : ∀ t ∈ txs, ∀ u ∈ txs, t.id = u.id → t = u) (hs : ∀ t, t ∈ txs ↔ t ∈ txs') :
    MemStore.ofList txs = MemStore.ofList txs' := by
  have h' : ∀ t ∈ txs', ∀ u ∈ txs', t.id = u.id → t = u := fun t ht u hu => h t ((hs t).2 ht) u ((hs u).2 hu)
  refine MemStore.ext (MemStore.wf_ofList _) (MemStore.wf_ofList _) fun id => Option.ext fun t => ?_
  rw [(C06_memstore_is_map txs).1 id t, (C06_memstore_is_map txs').1 id t, stored_iff_mem h, stored_iff_mem h', hs t]

theorem verify_of_decide {E : Env} {txs : List SignedTx} (h : (match verify E txs with | .ok _ => true | _ => false) = true) : verify E txs = .ok (MemStore.ofList txs) := by
  cases hv : verify E txs with
  | err _ => rw [hv] at h; cases h
  | panic _ => rw [hv] at h; cases h
  | ok m => rw [((C40_e2e_replays E txs m).1 hv).2.1]

/-- **C116** A node that shows the same transactions in another order, or some of them several times, cannot change what is printed about the election, whatever is asked for: if both lists verify, the
stores are the same, and lists that begin with the announcement of the same election give the same report. (No two of the transactions shown that differ may have the same id.) -/
theorem C116_order_shown_is_irrelevant_partial (E : Env) (txs txs' : List SignedTx) (h : ∀ t ∈ txs, ∀ u ∈ txs, t.id = u.id → t = u) (hs : ∀ t, t ∈ txs ↔ t ∈ txs') (m m' : MemStore)
    (hv : verify E txs = .ok m) (hv' : verify E txs' = .ok m') :
    m = m' ∧ (txs.head?.map SignedTx.id = txs'.head?.map SignedTx.id → ∀ (P : Plurality) (flags : Flags), report E P flags txs = report E P flags txs') := by
  have hm : m = m' := by
    rw [((C40_e2e_replays E txs m).1 hv).2.1, ((C40_e2e_replays E txs' m').1 hv').2.1]
    exact ofList_same h hs
  refine ⟨hm, fun hh P flags => ?_⟩
  subst hm
  cases txs with
  | nil => simp [verify] at hv
  | cons t ts =>
    cases txs' with
    | nil => simp [verify] at hv'
    | cons t' ts' =>
      simp only [List.head?_cons, Option.map_some, Option.some.injEq] at hh
      simp only [report, hv, hv', hh]

/-- **C116 is false in full**: of two announcements under one id, the one that is shown last counts, so that the order decides who the authority is. (A ledger has one of them at most; the command does not
check that a node shows an id once.) -/
theorem C116_any_order_false : ¬ ∀ (E : Env) (txs txs' : List SignedTx) (m m' : MemStore), txs.Perm txs' → verify E txs = .ok m → verify E txs' = .ok m' → m = m' := by
  intro h
  have := h Toy.env _ _ _ _ (List.Perm.swap Sawtooth.stolen Toy.electionTx []) (verify_of_decide (by decide +kernel)) (verify_of_decide (by decide +kernel))
  have hpub : ((MemStore.ofList [Toy.electionTx, Sawtooth.stolen]).getTransaction Toy.eid).bind SignedTx.pub ≠
      ((MemStore.ofList [Sawtooth.stolen, Toy.electionTx]).getTransaction Toy.eid).bind SignedTx.pub := by decide +kernel
  exact hpub (by rw [this])

/-- The complete election, and the same election with its transactions in another order, both verify; the second list is not the first. -/
example : (∀ t ∈ Toy.complete, ∀ u ∈ Toy.complete, t.id = u.id → t = u) ∧ (∀ t, t ∈ Toy.complete ↔ t ∈ Toy.interleaved) ∧ verify Toy.env Toy.complete = .ok (MemStore.ofList Toy.complete) ∧
    verify Toy.env Toy.interleaved = .ok (MemStore.ofList Toy.interleaved) ∧ Toy.complete.head?.map SignedTx.id = Toy.interleaved.head?.map SignedTx.id ∧ Toy.complete.map SignedTx.id ≠ Toy.interleaved.map SignedTx.id :=
  ⟨fun t ht u hu => List.inj_on_of_nodup_map (f := SignedTx.id) (by decide +kernel) ht hu, fun t => (interleaved_perm.mem_iff).symm, verify_of_decide (by decide +kernel), verify_of_decide (by decide +kernel), by decide +kernel, by decide +kernel⟩

end E2e
end CB
