import Verif.Model.MemStore
import Verif.Model.Validate
/-!
# Specification vocabulary: histories

The repository has three ledgers on top of `SignedTransaction::validate`.  `Replay` is the most permissive discipline: whatever validates against
the store so far is `set` (command_e2e.rs:36-50, the library tests).  `Ledger` additionally refuses a transaction whose id is already stored, as
the Exonum service does (cryptoballot_exonum/src/lib.rs:139-177).
-/

namespace CB.Spec

/-- A store reached by validating transactions one by one against the store so far and setting them. -/
inductive Replay (E : Env) : MemStore → Prop
  | empty : Replay E .empty
  | set {m : MemStore} {t : SignedTx} : Replay E m → t.validate E m.toStore = .ok () → Replay E (m.set t)

/-- A store reached by validating and setting transactions, never one whose id is already stored. -/
inductive Ledger (E : Env) : MemStore → Prop
  | empty : Ledger E .empty
  | append {m : MemStore} {t : SignedTx} : Ledger E m → m.getTransaction t.id = none → t.validate E m.toStore = .ok () → Ledger E (m.set t)

/-- `m'` comes after `m` in an append-only history. -/
inductive LedgerSteps (E : Env) (m : MemStore) : MemStore → Prop
  | refl : LedgerSteps E m m
  | append {m' : MemStore} {t : SignedTx} : LedgerSteps E m m' → m'.getTransaction t.id = none → t.validate E m'.toStore = .ok () →
      LedgerSteps E m (m'.set t)

/-- `m'` comes after `m` in a replay history (slots may be overwritten). -/
inductive ReplaySteps (E : Env) (m : MemStore) : MemStore → Prop
  | refl : ReplaySteps E m m
  | set {m' : MemStore} {t : SignedTx} : ReplaySteps E m m' → t.validate E m'.toStore = .ok () → ReplaySteps E m (m'.set t)

/-- Everything stored in `m` is stored, unchanged, in `m'`. -/
def Extends (m m' : MemStore) : Prop := ∀ id t, m.getTransaction id = some t → m'.getTransaction id = some t

end CB.Spec
