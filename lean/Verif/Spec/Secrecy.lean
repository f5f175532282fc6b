import Verif.Spec.Blocks
/-!
# Specification vocabulary for the secrecy of votes
-/

namespace CB.Spec
open Server

/-- Voting is open, and the owners of the keys in `H` leave mixing to their nodes: nobody submits an end of voting that names the election and is signed by its authority, nor a mix
that names the election and is signed with a key in `H`.  Everything else may be submitted by anyone, and anyone may run nodes. -/
def VotingOpen (E : Env) (e : ElectionTx) (H : List PublicKey) : Event → Prop
  | .submit t => SignatureValid E t →
    (∀ s, t = .votingEnd s → s.tx.election = e.id → s.tx.authorityPublicKey ≠ e.authorityPublic) ∧ ∀ s, t = .mix s → s.tx.electionId = e.id → s.tx.trusteePublicKey ∉ H
  | .deliver _ => True
  | .react _ _ _ _ => True

/-- The same on the blockchain as `OnBlocks`, but envelopes may be labelled with any id. -/
def OnBlocksAnyLabel (P : Event → Prop) : BlockEvent → Prop
  | .submit x => ∀ t, SignedTx.fromBytes x.data = .ok t → P (.submit t)
  | .commit _ => True
  | .lose _ => True
  | .afterCommit k rng _ => ∀ i position view, P (.react k (rng i) position view)

/-- In the course of the schedule, some node running `after_commit` sends this envelope out (for everyone to see, whether it will be accepted or not). -/
def Released (N : NodeEnv) (evs : List BlockEvent) (y : Exonum.Envelope) : Prop :=
  ∃ pre k rng h, pre ++ [.afterCommit k rng h] <+: evs ∧ y ∈ (Chain.run N (pre ++ [.afterCommit k rng h])).pool.drop (Chain.run N pre).pool.length

/-- In the course of the schedule, some node sends out decryption shares for the election. -/
def SharesReleased (N : NodeEnv) (evs : List BlockEvent) (election : Identifier) (p : Signed PartialDecryptionTx) : Prop :=
  ∃ y, Released N evs y ∧ SignedTx.fromBytes y.data = .ok (.partialDecryption p) ∧ p.tx.electionId = election

/-- The trustees whose keys are not in `H` are too few to decrypt anything. -/
def TooFewOthers (e : ElectionTx) (H : List PublicKey) : Prop := (e.trustees.filter fun tr => tr.publicKey ∉ H).length < e.trusteesThreshold.toNat

end CB.Spec
