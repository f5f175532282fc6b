import Verif.Spec.Network
/-!
# Specification vocabulary for the end of elections in networks of nodes
-/

namespace CB.Spec
open Server

/-- Somebody with the key of one of the election's trustees signed the transaction. -/
def SignedByTrustee (E : Env) (e : ElectionTx) (t : SignedTx) : Prop := ∃ tr ∈ e.trustees, signerOf t = some tr.publicKey ∧ SignatureValid E t

/-- What may happen while an election is held: only the nodes with the given keys react; nobody else submits set-up transactions of the election, or partial decryptions of
it with a trustee's signature.  Everything else may be submitted by anyone, at any time: in particular any votes, the end of voting and any decryptions. -/
def Fair (N : NodeEnv) (K : List SecretKey) (e : ElectionTx) : Event → Prop
  | .submit t => t.id.electionId = e.id.electionId → ¬ SetupKind (kindOf t) ∧ (kindOf t = .partialDecryption → ¬ SignedByTrustee N.toEnv e t)
  | .deliver _ => True
  | .react k _ _ _ => k ∈ K

/-- Threshold decryption refuses to work with fewer than `t` shares. -/
def QuorumNeeded (N : NodeEnv) : Prop := ∀ (t : Nat) (c : Ciphertext) (shares : List (Nat × PubkeyProof × DecryptShare)) (m : Bytes),
  N.thresholdDecrypt t c shares = .ok m → t ≤ shares.length

/-- The vote has exactly one encrypted vote for the contest, and a voter made it of these selections, with the command line client or the web client, for this encryption key. -/
def HonestVote (N : NodeEnv) (fits : Bytes → Prop) (key : ElGamalKey) (v : VoteTx) (contest : UInt32) (selections : List Selection) : Prop :=
  (∀ s ∈ selections, IsText s.selection ∧ fits s.encode) ∧
  ∃ rng, (v.encryptedVotes.filter fun ev => ev.contestIndex = contest) = [⟨contest, encryptVote N key rng selections⟩]

/-- No other stored vote has an id that starts in the same way: the ids of votes end in their voters' one-time keys, of which the first 10 bytes count. -/
def UniqueVote (S : Store) (v : VoteTx) : Prop :=
  ∀ w : Signed VoteTx, InStore S (.vote w) → w.tx.id.uniqueInfo.val.take 10 = v.id.uniqueInfo.val.take 10 → w.tx.id = v.id

/-- The node with key `k` has seen the stored transaction `t`, and reacted to it. -/
def Reacted (s : Network) (k : SecretKey) (t : SignedTx) : Prop := ∃ m, s.ledger[m]? = some t ∧ (k, m) ∈ s.reacted

end CB.Spec
