import Verif.Model.Crash
import Verif.Spec.Blocks
/-!
# Specification vocabulary for nodes that stop in the middle of their work
-/

namespace CB.Spec
open Server

/-- What is asked of events, in terms of what is asked of events in the network; a hook that is cut off is a reaction too. -/
def OnCrashes (P : Event → Prop) : CrashEvent → Prop
  | .block ev => OnBlocks P ev
  | .crash k rng _ _ => ∀ i position view, P (.react k (rng i) position view)

/-- The event is a run of the hook of this node at this height, to the end or not. -/
def HookAt (key : SecretKey) (rng : Nat → Rng) (height : Nat) (ev : CrashEvent) : Prop :=
  ev = .block (.afterCommit key rng height) ∨ ∃ sent, ev = .crash key rng height sent

/-- Everything that nodes make in the course of the schedule is data that a Rust program can hold. -/
def RustCrashes (N : NodeEnv) (evs : List CrashEvent) : Prop :=
  ∀ pre ev, pre ++ [ev] <+: evs → ∀ k rng h, HookAt k rng (h + 1) ev → ∀ x ∈ (Chain.runC N pre).blocks.getD h [], ∀ t : SignedTx, Identifier.fromStr x.id = .ok t.id →
    InStore (Exonum.toStore ((Chain.runC N pre).schemaAt N.toEnv (h + 1))) t →
    ∀ i l, generateTransactions N (rng i) k (Exonum.toStore ((Chain.runC N pre).schemaAt N.toEnv (h + 1))) t = .ok l → ∀ d ∈ l, RustData d

/-- In the course of the schedule, the node never gets to submit anything after a block that holds an envelope with this id: whenever it runs its hook at such a height, it is stopped
before its first submission. -/
def NeverAfter (N : NodeEnv) (evs : List CrashEvent) (key : SecretKey) (id : Identifier) : Prop :=
  ∀ pre ev, pre ++ [ev] <+: evs → ∀ rng h, (ev = .block (.afterCommit key rng (h + 1)) ∨ ∃ sent, ev = .crash key rng (h + 1) (sent + 1)) →
    ∀ x ∈ (Chain.runC N pre).blocks.getD h [], Identifier.fromStr x.id ≠ .ok id

end CB.Spec
