import Verif.Spec.Rules
/-!
# Specification vocabulary: an election that is open to a voter
-/

namespace CB.Spec

/-- The election is on the ledger, its encryption key is, its voting has not ended, and nobody has voted under a key that begins with the same ten bytes as `k`. -/
structure OpenTo (S : Store) (e : ElectionTx) (k : PublicKey) : Prop where
  election : ElectionAt S e.id e
  key : SlotFilled S e.id .encryptionKey
  running : ¬ SlotFilled S e.id .votingEnd
  fresh : ∀ t, InStore S t → t.id.electionId = e.id.electionId → t.id.txType = .vote → t.id.uniqueInfo.val.take 10 ≠ k.val.take 10

/-- The transaction neither takes the place of the election's end of voting, nor is it a vote in the election under a key that begins with the same ten bytes as `k`. -/
def LeavesOpen (e : ElectionTx) (k : PublicKey) (t : SignedTx) : Prop :=
  t.id ≠ singleId e.id .votingEnd ∧ (t.id.electionId = e.id.electionId → t.id.txType = .vote → t.id.uniqueInfo.val.take 10 ≠ k.val.take 10)

/-- The voter fills a ballot of the election, in contests of that ballot. -/
def FillsBallot (e : ElectionTx) (ballot : Str) (votes : List EncryptedVote) : Prop :=
  ∃ b, e.ballots.find? (fun b => b.id = ballot) = some b ∧ ∀ ev ∈ votes, ev.contestIndex ∈ b.contests

end CB.Spec
