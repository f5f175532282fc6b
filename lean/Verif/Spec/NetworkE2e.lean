import Verif.Spec.NetworkMix
import Verif.Model.Client
/-!
# Specification vocabulary for verifying an election that nodes have held
-/

namespace CB.Spec
open Server

/-- What may happen while an election is held that is to be verified: as in `FairMix`, and whatever end of voting somebody files under the election is about the election. -/
def FairE2e (N : NodeEnv) (K : List SecretKey) (e : ElectionTx) (ev : Event) : Prop :=
  FairMix N K e ev ∧ ∀ x : Signed VotingEndTx, ev = .submit (.votingEnd x) → x.tx.id.electionId = e.id.electionId → x.tx.election.electionId = e.id.electionId

/-- The voters' one-time keys differ in their first ten bytes. -/
def DistinctVoters (S : Store) (e : ElectionTx) : Prop :=
  ∀ v w : Signed VoteTx, InStore S (.vote v) → InStore S (.vote w) → v.tx.election = e.id → w.tx.election = e.id →
    v.tx.anonymousKey.val.take 10 = w.tx.anonymousKey.val.take 10 → v = w

/-- The answer of the read API to a query: the stored transactions whose printed id starts with the prefix, in the order of ids. -/
def Answer (S : Store) (p : Str) (txs : List SignedTx) : Prop := txs.Pairwise IdLt ∧ ∀ t, t ∈ txs ↔ InStore S t ∧ p <+: t.id.toString

/-- The prefix is the election's, and no other stored transaction has an id that starts with it. -/
def OnlyElection (S : Store) (e : ElectionTx) (p : Str) : Prop :=
  p <+: hexEncode e.id.electionId.val ∧ ∀ t, InStore S t → p <+: t.id.toString → t.id.electionId = e.id.electionId

/-- The vote that `cryptoballot vote generate` makes of the text, for some key and randomness. -/
def ClientVote (N : NodeEnv) (fits : Bytes → Prop) (key : EncryptionKeyTx) (v : VoteTx) (text : Str) : Prop :=
  IsText text ∧ fits (Selection.encode ⟨true, 0, text⟩) ∧ ∃ sk rng, v = Client.vote N sk rng key text

end CB.Spec
