import Verif.Model.Blocks
import Verif.Spec.NetworkE2e
import Verif.Props.Exonum
/-!
# Specification vocabulary for nodes around a blockchain
-/

namespace CB.Spec
open Server

/-- What is asked of events on the blockchain, in terms of what is asked of events in the network: submissions carry the id of their transaction, and may be submitted; and the node may
react. -/
def OnBlocks (P : Event → Prop) : BlockEvent → Prop
  | .submit x => Labelled x ∧ ∀ t, SignedTx.fromBytes x.data = .ok t → P (.submit t)
  | .commit _ => True
  | .lose _ => True
  | .afterCommit k rng _ => ∀ i position view, P (.react k (rng i) position view)

/-- Everything that nodes make in the course of the schedule is data that a Rust program can hold: all that is generated in reaction to the id of an envelope in a block. -/
def RustRun (N : NodeEnv) (evs : List BlockEvent) : Prop :=
  ∀ pre k rng h, pre ++ [.afterCommit k rng (h + 1)] <+: evs → ∀ x ∈ (Chain.run N pre).blocks.getD h [], ∀ t : SignedTx, Identifier.fromStr x.id = .ok t.id →
    InStore (Exonum.toStore ((Chain.run N pre).schemaAt N.toEnv (h + 1))) t →
    ∀ i l, generateTransactions N (rng i) k (Exonum.toStore ((Chain.run N pre).schemaAt N.toEnv (h + 1))) t = .ok l → ∀ d ∈ l, RustData d

/-- The envelope carries a transaction filed under the election. -/
def About (e : ElectionTx) (x : Exonum.Envelope) : Prop := ∃ t, SignedTx.fromBytes x.data = .ok t ∧ t.id.electionId = e.id.electionId

/-- Nothing is left to do for the election: if an envelope of it is on its way or got lost, something is filed under its id in the meantime; and whenever a block held an envelope of
it, all the nodes have completed `after_commit` at the height after it, or at the height after a later block that held an envelope with the same id. -/
structure Quiet (N : NodeEnv) (K : List SecretKey) (e : ElectionTx) (c : Chain) : Prop where
  delivered : ∀ x, x ∈ c.pool ∨ x ∈ c.lost → About e x → ((c.schema N.toEnv).get x.id).isSome
  processed : ∀ h, ∀ x ∈ c.blocks.getD h [], About e x → ∀ k ∈ K, ∃ h', h ≤ h' ∧ ∃ y ∈ c.blocks.getD h' [], y.id = x.id ∧ (k, h' + 1) ∈ c.processed

end CB.Spec
