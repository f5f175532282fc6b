import Verif.Spec.Rules
/-!
# Specification vocabulary: what one trustee can do to a quorum of the others
-/

namespace CB.Spec

/-- Threshold decryption refuses shares that do not verify against the public-key proofs that they come with. -/
def StrictShares (E : Env) : Prop := ∀ (t : Nat) (c : Ciphertext) (shares : List (Nat × PubkeyProof × DecryptShare)) (raw : Bytes),
  E.thresholdDecrypt t c shares = .ok raw → ∀ x ∈ shares, E.shareVerify x.2.2 x.2.1 c = true

/-- Trustee `i` of the election has spoiled an item: besides a partial decryption of it, the trustee has posted a public key that this does not verify against, with the greatest id
that a public key of the election can have. -/
def Spoiled (E : Env) (S : Store) (e : ElectionTx) (i : UInt8) (upstream : Identifier) (position : UInt16) (contest : UInt32) : Prop :=
  ∃ (p : Signed PartialDecryptionTx) (pk : Signed KeyGenPublicKeyTx) (cts : List Ciphertext) (j : Nat) (c : Ciphertext) (s : DecryptShare),
    InStore S (.partialDecryption p) ∧ p.tx.electionId = e.id ∧ p.tx.trusteeIndex = i ∧ p.tx.upstreamId = upstream ∧ p.tx.upstreamIndex = position ∧ p.tx.contestIndex = contest ∧
    InStore S (.keyGenPublicKey pk) ∧ pk.tx.trusteeIndex = i ∧ pk.tx.id = ⟨e.id.electionId, .keyGenPublicKey, BArr.fill 16 255⟩ ∧
    ItemAt S upstream position contest e.mixConfig cts ∧ cts[j]? = some c ∧ p.tx.partialDecryption[j]? = some s ∧ E.shareVerify s pk.tx.publicKeyProof c = false

end CB.Spec
