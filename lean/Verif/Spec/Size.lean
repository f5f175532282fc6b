import Verif.Spec.Rules
import Verif.Spec.Ledger
/-!
# Specification vocabulary: how much there is on the ledger for an election
-/

namespace CB.Spec

/-- `l` are different transactions, all on the ledger and all naming this election. -/
def RecordOf (S : Store) (election : Identifier) (l : List SignedTx) : Prop :=
  l.Nodup ∧ ∀ t ∈ l, InStore S t ∧ electionOf t = election

/-- What the last 16 bytes of the id of a step before and after voting should be: the trustee's index and zeros for the three steps of a trustee in key generation,
zeros for the encryption key and the end of voting (keygen.rs:76-82, 149-153, 233-239, 302-304, voting_end.rs:15-21). -/
def setupInfo : SignedTx → Option (List UInt8)
  | .keyGenCommitment s => some (s.tx.trusteeIndex :: List.replicate 15 0)
  | .keyGenShare s => some (s.tx.trusteeIndex :: List.replicate 15 0)
  | .keyGenPublicKey s => some (s.tx.trusteeIndex :: List.replicate 15 0)
  | .encryptionKey _ => some (List.replicate 16 0)
  | .votingEnd _ => some (List.replicate 16 0)
  | _ => none

/-- If the transaction is such a step, its id is the one which belongs to it. -/
def ProperlyFiled (t : SignedTx) : Prop :=
  ∀ info, setupInfo t = some info → t.id.electionId = (electionOf t).electionId ∧ t.id.uniqueInfo.val = info

/-- The number of encrypted votes, one for each contest a voter has filled in, on these votes. -/
def encryptedVotesOn (votes : List (Signed VoteTx)) : Nat := (votes.map fun v => v.tx.encryptedVotes.length).sum

/-- The number of outputs of these mixes. -/
def outputsOf (mixes : List (Signed MixTx)) : Nat := (mixes.map fun x => x.tx.mixedCiphertexts.length).sum

end CB.Spec
