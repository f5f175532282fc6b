import Verif.Spec.NetworkE2e
import Verif.Model.E2e
/-!
# Specification vocabulary for what a verified ledger says about the votes cast

Nothing here is about the people who made the transactions: a ledger is given, whoever wrote it.  The assumptions are about the cryptographic primitives (`ShuffleSound` in
`Spec/Rules.lean`, `ThresholdSound` below) and about the key the trustees made (`SoundKeys`).
-/

namespace CB.Spec

/-- Threshold decryption is sound for a key and the public-key proofs of its trustees: what comes out of shares that verify against the ciphertext and those proofs, at most one per
trustee, is what the ciphertext decrypts to under the key. -/
def ThresholdSound (E : Env) (plain : ElGamalKey → Ciphertext → Bytes) (key : ElGamalKey) (threshold : Nat) (proof : UInt8 → PubkeyProof) : Prop :=
  ∀ (c : Ciphertext) (shares : List (Nat × PubkeyProof × DecryptShare)) (raw : Bytes), (shares.map (·.1)).Nodup →
    (∀ x ∈ shares, ∃ i : UInt8, x.1 = i.toNat ∧ x.2.1 = proof i ∧ E.shareVerify x.2.2 x.2.1 c = true) →
    E.thresholdDecrypt threshold c shares = .ok raw → raw = plain key c

/-- The trustees' public-key proofs stored for the election belong to its encryption key: there is one for each trustee, however often it is stored, and threshold decryption is sound for
the key and them. -/
def SoundKeys (E : Env) (plain : ElGamalKey → Ciphertext → Bytes) (S : Store) (e : ElectionTx) (key : ElGamalKey) : Prop :=
  ∃ proof : UInt8 → PubkeyProof, ThresholdSound E plain key e.trusteesThreshold.toNat proof ∧
    ∀ pk : Signed KeyGenPublicKeyTx, InStore S (.keyGenPublicKey pk) → pk.tx.id.electionId = e.id.electionId → pk.tx.publicKeyProof = proof pk.tx.trusteeIndex

/-- What a list of ciphertexts says under the key: the selection in each, if it decrypts to one. -/
def opened (plain : ElGamalKey → Ciphertext → Bytes) (key : ElGamalKey) (cts : List Ciphertext) : List (Option Selection) :=
  cts.map fun c => Selection.decode (plain key c)

/-- What a decryption says. -/
def said (d : Signed DecryptionTx) : List (Option Selection) := d.tx.decryptedVote.map some

/-- The (first) encrypted vote for a contest in a vote. -/
def ballotFor (contest : UInt32) (v : Signed VoteTx) : Option (List Ciphertext) :=
  (v.tx.encryptedVotes.find? fun ev => ev.contestIndex = contest).map (·.selections)

/-- What a vote says, contest by contest: the (first) encrypted vote for each contest it has one for. -/
def ballotsOf (v : Signed VoteTx) : List (List Ciphertext) :=
  (v.tx.encryptedVotes.map (·.contestIndex)).eraseDups.filterMap fun contest => ballotFor contest v

/-- How many of the ballots name the candidate first. -/
def firstOn (candidate : Str) (ballots : List (List (Option Selection))) : Nat :=
  (ballots.filter fun b => b.head?.map (Option.map Selection.selection) = some (some candidate)).length

/-- The command has verified these transactions, which are all filed under the election they start with, have different ids, and have voters and trustees that can be told apart. -/
structure Verified (E : Env) (txs : List SignedTx) (m : MemStore) (e : ElectionTx) : Prop where
  verified : E2e.verify E txs = .ok m
  distinct : (txs.map SignedTx.id).Nodup
  election : ElectionAt m.toStore e.id e
  sole : ∀ t ∈ txs, t.id.electionId = e.id.electionId
  voters : DistinctVoters m.toStore e
  trustees : (e.trustees.map Trustee.index).Nodup

end CB.Spec
