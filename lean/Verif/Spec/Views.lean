import Verif.Spec.Verifiable
import Verif.Spec.Finality
/-!
# Specification vocabulary: what a node shows, compared with what is on the ledger

The end-to-end command verifies the transactions that some node gives it.  The node may leave transactions out and make some up.
-/

namespace CB.Spec

/-- What is shown has no transaction of the authority or of a trustee that is not on the ledger, and voters sign one vote under their key.  Votes (under keys that have not voted) and
decryptions, which need nobody's signature, may be made up, and anything may be left out. -/
structure NothingForged (shown real : Store) : Prop where
  signed : ∀ t, InStore shown t → (∀ v, t ≠ .vote v) → (∀ d, t ≠ .decryption d) → InStore real t
  votes : ∀ v w : Signed VoteTx, InStore shown (.vote v) → InStore real (.vote w) → v.tx.id = w.tx.id → v = w

/-- Every item of which a trustee has stored a decryption share is decrypted. -/
def SharesClaimed (S : Store) (e : ElectionTx) : Prop :=
  ∀ p : Signed PartialDecryptionTx, InStore S (.partialDecryption p) → DecryptedAt S e p.tx.upstreamId p.tx.upstreamIndex p.tx.contestIndex

/-- Trustees have mixed and decrypted as nodes do: in one batch, and decrypting only mixes that are not mixed again. -/
structure MixedOnce (S : Store) : Prop where
  batch : ∀ x : Signed MixTx, InStore S (.mix x) → x.tx.batch = 0
  last : ∀ p : Signed PartialDecryptionTx, InStore S (.partialDecryption p) → ∀ y : Signed MixTx, InStore S (.mix y) → y.tx.prevMixId ≠ some p.tx.upstreamId

end CB.Spec
