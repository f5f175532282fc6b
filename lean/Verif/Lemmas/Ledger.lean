import Verif.Spec.Ledger
import Verif.Lemmas.AcceptMix
/-!
# Histories: general facts
-/

namespace CB
open Spec

theorem MemStore.lawful {m : MemStore} (h : m.WF) : Lawful m.toStore where
  keyed _ _ ht := get_id h ht
  range_ok a b hab := by
    obtain ⟨l, h1, h2, h3⟩ := range_spec h hab
    exact ⟨l, h1, fun t => by rw [h2]; rfl, h3⟩

theorem Spec.Ledger.replay {E : Env} {m : MemStore} (h : Ledger E m) : Replay E m := by
  induction h with
  | empty => exact .empty
  | append _ _ hv ih => exact .set ih hv

theorem Spec.Replay.wf {E : Env} {m : MemStore} (h : Replay E m) : m.WF := by
  induction h with
  | empty => exact MemStore.wf_empty
  | set _ _ ih => exact MemStore.wf_set ih _

theorem Spec.Ledger.wf {E : Env} {m : MemStore} (h : Ledger E m) : m.WF := h.replay.wf

theorem Spec.Replay.lawful {E : Env} {m : MemStore} (h : Replay E m) : Lawful m.toStore := MemStore.lawful h.wf
theorem Spec.Ledger.lawful {E : Env} {m : MemStore} (h : Ledger E m) : Lawful m.toStore := MemStore.lawful h.wf

theorem Spec.Extends.refl (m : MemStore) : Extends m m := fun _ _ h => h
theorem Spec.Extends.trans {a b c : MemStore} (h1 : Extends a b) (h2 : Extends b c) : Extends a c := fun _ _ h => h2 _ _ (h1 _ _ h)

theorem Spec.Extends.set_fresh {m : MemStore} {t : SignedTx} (h : m.getTransaction t.id = none) : Extends m (m.set t) := by
  intro id u hu
  rw [MemStore.get_set]
  split
  · rename_i heq; rw [← heq] at h; rw [h] at hu; cases hu
  · exact hu

theorem Spec.LedgerSteps.extends {E : Env} {m m' : MemStore} (h : LedgerSteps E m m') : Extends m m' := by
  induction h with
  | refl => exact .refl _
  | append _ hf _ ih => exact ih.trans (.set_fresh hf)

theorem Spec.LedgerSteps.ledger {E : Env} {m m' : MemStore} (h : LedgerSteps E m m') (hm : Ledger E m) : Ledger E m' := by
  induction h with
  | refl => exact hm
  | append _ hf hv ih => exact .append ih hf hv

theorem Spec.LedgerSteps.replaySteps {E : Env} {m m' : MemStore} (h : LedgerSteps E m m') : ReplaySteps E m m' := by
  induction h with
  | refl => exact .refl
  | append _ _ hv ih => exact .set ih hv

theorem Spec.ReplaySteps.replay {E : Env} {m m' : MemStore} (h : ReplaySteps E m m') (hm : Replay E m) : Replay E m' := by
  induction h with
  | refl => exact hm
  | set _ hv ih => exact .set ih hv

/-- Every stored transaction was accepted at some earlier point. -/
theorem Spec.Replay.accepted {E : Env} {m : MemStore} (h : Replay E m) {id : Identifier} {t : SignedTx} (ht : m.getTransaction id = some t) :
    ∃ m0, Replay E m0 ∧ t.validate E m0.toStore = .ok () := by
  induction h with
  | empty => rw [MemStore.get_empty] at ht; cases ht
  | @set m u hm hv ih =>
    rw [MemStore.get_set] at ht
    split at ht
    · cases ht; exact ⟨m, hm, hv⟩
    · exact ih ht

/-- In an append-only history every stored transaction was accepted against an earlier store that is still contained in the present one. -/
theorem Spec.Ledger.accepted {E : Env} {m : MemStore} (h : Ledger E m) {id : Identifier} {t : SignedTx} (ht : m.getTransaction id = some t) :
    ∃ m0, Ledger E m0 ∧ m0.getTransaction t.id = none ∧ t.validate E m0.toStore = .ok () ∧ LedgerSteps E (m0.set t) m := by
  induction h with
  | empty => rw [MemStore.get_empty] at ht; cases ht
  | @append m u hm hf hv ih =>
    rw [MemStore.get_set] at ht
    split at ht
    · cases ht; exact ⟨m, hm, hf, hv, .refl⟩
    · obtain ⟨m0, a, b, c, d⟩ := ih ht
      exact ⟨m0, a, b, c, .append d hf hv⟩

/-- Stored transactions carry their own type in their id. -/
theorem Spec.Replay.typed {E : Env} {m : MemStore} (h : Replay E m) {id : Identifier} {t : SignedTx} (ht : m.getTransaction id = some t) :
    id.txType = t.transactionType := by
  obtain ⟨m0, _, hv⟩ := h.accepted ht
  rw [← MemStore.get_id h.wf ht]
  exact (SignedTx.validate_ok.1 hv).1

/-! ## Computable histories (for concrete examples) -/

/-- replay a list, checking freshness and validity -/
def runLedger (E : Env) : MemStore → List SignedTx → Option MemStore
  | m, [] => some m
  | m, t :: ts =>
    if (m.getTransaction t.id).isNone ∧ t.validate E m.toStore = .ok () then runLedger E (m.set t) ts else none

/-- replay a list, checking validity only -/
def runReplay (E : Env) : MemStore → List SignedTx → Option MemStore
  | m, [] => some m
  | m, t :: ts => if t.validate E m.toStore = .ok () then runReplay E (m.set t) ts else none

theorem runLedger_eq {E : Env} {ts : List SignedTx} {m m' : MemStore} (h : runLedger E m ts = some m') : m' = ts.foldl MemStore.set m := by
  induction ts generalizing m with
  | nil => simpa [runLedger, eq_comm] using h
  | cons t ts ih =>
    simp only [runLedger] at h
    split at h
    · exact ih h
    · cases h

theorem ledgerSteps_of_run {E : Env} {ts : List SignedTx} {m m' : MemStore} (h : runLedger E m ts = some m') : LedgerSteps E m m' := by
  suffices ∀ m0, LedgerSteps E m0 m → LedgerSteps E m0 m' from this m .refl
  induction ts generalizing m with
  | nil => intro m0 h0; simp only [runLedger, Option.some.injEq] at h; exact h ▸ h0
  | cons t ts ih =>
    intro m0 h0
    simp only [runLedger] at h
    split at h
    · rename_i hc
      exact ih h m0 (.append h0 (by simpa using hc.1) hc.2)
    · cases h

theorem ledger_of_run {E : Env} {ts : List SignedTx} (h : (runLedger E .empty ts).isSome = true) : Ledger E (MemStore.ofList ts) := by
  obtain ⟨m', hm⟩ := Option.isSome_iff_exists.1 h
  have := (ledgerSteps_of_run hm).ledger .empty
  rwa [runLedger_eq hm] at this

theorem replay_of_run {E : Env} {ts : List SignedTx} (h : (runReplay E .empty ts).isSome = true) : Replay E (MemStore.ofList ts) := by
  suffices ∀ (m : MemStore), Replay E m → (runReplay E m ts).isSome = true → Replay E (ts.foldl MemStore.set m) from this _ .empty h
  clear h
  induction ts with
  | nil => intro m hm _; exact hm
  | cons t ts ih =>
    intro m hm h
    simp only [runReplay] at h
    split at h
    · rename_i hc; exact ih _ (.set hm hc) h
    · cases h

end CB
