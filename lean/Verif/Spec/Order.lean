import Verif.Spec.Rules
/-!
# Specification vocabulary: which transactions get in each other's way
-/

namespace CB.Spec

/-- Everything that is stored in `S` is stored, unchanged, in `S'`. -/
def Keeps (S S' : Store) : Prop := ∀ id t, S.getTransaction id = some t → S'.getTransaction id = some t

/-- The arrival of `u` makes `t`, acceptable before, unacceptable: a vote is too late once voting has ended, and is in the way of a vote whose key begins with the same 10 bytes
if its own key goes on with 6 zeros; the first mix of a contest must list all votes; the encryption key, and a decryption, look at all public keys of the election. -/
def Conflicts : (t u : SignedTx) → Prop
  | .vote v, u => u.id = singleId v.tx.election .votingEnd ∨
      (u.id.electionId = v.tx.election.electionId ∧ u.id.txType = .vote ∧ u.id.uniqueInfo.val = v.tx.anonymousKey.val.take 10 ++ List.replicate 6 0)
  | .mix m, u => m.tx.prevMixId = none ∧ u.id.electionId = m.tx.electionId.electionId ∧ u.id.txType = .vote
  | .encryptionKey k, u => u.id.electionId = k.tx.election.electionId ∧ u.id.txType = .keyGenPublicKey
  | .decryption d, u => u.id.electionId = d.tx.electionId.electionId ∧ u.id.txType = .keyGenPublicKey
  | _, _ => False

/-- The two votes are for different elections, or their voters' keys differ in the first ten bytes. -/
def FarApart (v w : VoteTx) : Prop := v.election.electionId ≠ w.election.electionId ∨ v.anonymousKey.val.take 10 ≠ w.anonymousKey.val.take 10

end CB.Spec
