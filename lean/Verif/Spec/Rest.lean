import Verif.Spec.Blocks
/-!
# Specification vocabulary for endless schedules
-/

namespace CB.Spec
open Server

/-- The blockchain after the first `n` events of an endless schedule. -/
def after (N : NodeEnv) (evs : Nat → BlockEvent) (n : Nat) : Chain := Chain.run N ((List.range n).map evs)

/-- An endless schedule in which everybody but the nodes falls silent, and the blockchain and the nodes do their duty: nothing gets lost, everything submitted leaves the pool at some
time (but at any time, and in any order), and every node completes `after_commit` at every height at some time, and does not run it again and again for one height. -/
structure Dutiful (N : NodeEnv) (K : List SecretKey) (evs : Nat → BlockEvent) : Prop where
  silent : ∃ n₀, ∀ n, n₀ ≤ n → ∀ x, evs n ≠ .submit x
  lossless : ∀ n i, evs n ≠ .lose i
  taken : ∀ n, ∀ x ∈ (after N evs n).pool, ∃ m, n ≤ m ∧ x ∉ (after N evs m).pool
  members : ∀ n k rng h, evs n = .afterCommit k rng h → k ∈ K
  completed : ∀ k ∈ K, ∀ h, ∃ n, (k, h + 1) ∈ (after N evs n).processed
  finitely : ∀ k ∈ K, ∀ h, ∃ n₀, ∀ n, n₀ ≤ n → ∀ rng, evs n ≠ .afterCommit k rng h

end CB.Spec
