import Verif.Spec.Secrecy
/-!
# Specification vocabulary for the secrecy of trustees' keys
-/

namespace CB.Spec
open Server

/-- Commitments that somebody submits under the name of the election are about the election.  (The code does not check this, C16.) -/
def CommitsOwnName (E : Env) (e : ElectionTx) : Event → Prop
  | .submit t => SignatureValid E t → ∀ s, t = .keyGenCommitment s → s.tx.id.electionId = e.id.electionId → s.tx.election = e.id
  | .deliver _ => True
  | .react _ _ _ _ => True

/-- The value at `j` of the polynomial that the owner of the secret key `k` draws for the election `el` as the `i`-th of `n` trustees, of which `t` are needed; having heard some
commitments. -/
def PolynomialShare (N : NodeEnv) (k : SecretKey) (el : Identifier) (i t n j : Nat) (share : Scalar) : Prop :=
  ∃ commitments g, Trustee.receiveCommitments N (N.genNew (N.hkdf el.toArray k.val (str "cryptoballot_trustee_generator")) i t n) commitments = (.ok g : VRes N.Gen) ∧
    N.genShare g j = .ok share

/-- The share is encrypted so that it can be read by whoever holds the secret of the X25519 key `X`. -/
def SealedFor (N : NodeEnv) (k : SecretKey) (el : Identifier) (X : X25519Pub) (share : Scalar) (sealed : EncryptedShare) : Prop :=
  ∃ nonce, sealed = EncryptedShare.new N nonce (Trustee.sharedSecret N k el X) share

/-- In the course of the schedule, some node sends out shares of its polynomial for the election. -/
def KeySharesSent (N : NodeEnv) (evs : List BlockEvent) (election : Identifier) (s : Signed KeyGenShareTx) : Prop :=
  ∃ y, Released N evs y ∧ SignedTx.fromBytes y.data = .ok (.keyGenShare s) ∧ s.tx.election = election

/-- All the shares are for trustees of the election: each is a share of the polynomial of a trustee with this election's threshold, sealed for an X25519 key that another
trustee of the election has signed and had stored as theirs for this election. -/
def OnlyForTrustees (N : NodeEnv) (S : Store) (e : ElectionTx) (s : KeyGenShareTx) : Prop :=
  IsTrustee e s.trusteeIndex s.trusteePublicKey ∧ ∃ k, N.edPublic k = s.trusteePublicKey ∧
    ∀ j sealed, s.shares.get j = some sealed →
      ∃ share, PolynomialShare N k e.id s.trusteeIndex.toNat e.trusteesThreshold.toNat e.trustees.length j.toNat share ∧
      ∃ c : Signed KeyGenCommitmentTx, InStore S (.keyGenCommitment c) ∧ c.tx.election = e.id ∧ c.tx.trusteeIndex = j ∧ IsTrustee e j c.tx.trusteePublicKey ∧
        SignatureValid N.toEnv (.keyGenCommitment c) ∧ SealedFor N k e.id c.tx.x25519PublicKey share sealed

end CB.Spec
