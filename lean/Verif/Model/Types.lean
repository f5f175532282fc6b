import Verif.Model.Crypto
import Verif.Model.Cbor
import Verif.Model.IndexMap
/-!
# Transaction data types and their CBOR form

`toCbor` follows serde's derived `Serialize`: a struct is a map from field names to values in declaration order.  serde_cbor is
not human readable, so `EdPublicKeyHex`, `EdSignatureHex`, `X25519PublicKeyHex`, `RSAPublicKeyHex` (serde_hex.rs), `Uuid` and `EncryptedShare`
serialize as byte strings, `Identifier` as text (transaction.rs:457-464), `hex_serde` (authn.rs:182) as hex text.
Simplification: the opaque cryptid values serialize as a byte string holding their raw form.
-/

namespace CB

/-- Application-specific properties, `IndexMap<String, serde_json::Value>` (election.rs:47-48, ballot.rs). -/
abbrev Properties := IndexMap Str JsonValue

/-- `Trustee`, trustee.rs:31-44.  `num_trustees : usize` and `threshold` are not serialized. -/
structure Trustee where
  publicKey : PublicKey
  index : UInt8
  numTrustees : Nat
  threshold : UInt8
  deriving DecidableEq, Repr

/-- `AuthPublicKey`, authn.rs:10-17. -/
abbrev AuthPublicKey := RsaPublicKey

/-- `Authenticator`, authn.rs:36-40. -/
structure Authenticator where
  id : Uuid
  publicKeys : IndexMap Str AuthPublicKey

/-- `Authentication`, authn.rs:178-184. -/
structure Authentication where
  authenticator : Uuid
  signature : Bytes
  deriving DecidableEq, Repr

/-- `Ballot`, ballot.rs:4-15. -/
structure Ballot where
  id : Str
  contests : List UInt32
  properties : Properties

/-- `Candidate`, ballot.rs:35-45. -/
structure Candidate where
  id : Str
  properties : Properties

/-- `ContestType`, ballot.rs:47-167. -/
inductive ContestType
  | plurality | score | approval | condorcet | borda | bordaClassic | bordaDowdall | bordaModifiedClassic
  | schulzeWinning | schulzeRatio | schulzeMargin
  deriving DecidableEq, Repr

/-- serde's snake_case variant name, ballot.rs:48. -/
def ContestType.name : ContestType → Str
  | .plurality => str "plurality" | .score => str "score" | .approval => str "approval"
  | .condorcet => str "condorcet" | .borda => str "borda" | .bordaClassic => str "borda_classic"
  | .bordaDowdall => str "borda_dowdall" | .bordaModifiedClassic => str "borda_modified_classic"
  | .schulzeWinning => str "schulze_winning" | .schulzeRatio => str "schulze_ratio"
  | .schulzeMargin => str "schulze_margin"

/-- `Contest`, ballot.rs:17-33. -/
structure Contest where
  id : Str
  index : UInt32
  contestType : ContestType
  numWinners : UInt32
  writeIn : Bool
  candidates : List Candidate
  properties : Properties

/-- `Selection`, ballot.rs:169-187. -/
structure Selection where
  writeIn : Bool
  score : UInt32
  selection : Str
  deriving DecidableEq, Repr

/-- `MixConfig`, mix.rs:10-14. -/
structure MixConfig where
  timeoutSecs : UInt64
  batchSize : Option UInt16
  deriving DecidableEq, Repr

/-- `EncryptedVote`, vote.rs:34-38. -/
structure EncryptedVote where
  contestIndex : UInt32
  selections : List Ciphertext
  deriving DecidableEq, Repr

/-- `EncryptedShare`, trustee.rs:253-254. -/
structure EncryptedShare where raw : Bytes deriving DecidableEq, Repr

/-- `ElectionTransaction`, election.rs:8-49. -/
structure ElectionTx where
  id : Identifier
  authorityPublic : PublicKey
  trustees : List Trustee
  trusteesThreshold : UInt8
  authenticators : List Authenticator
  authenticatorsThreshold : UInt8
  mixConfig : Option MixConfig
  ballots : List Ballot
  contests : List Contest
  properties : Properties

/-- `KeyGenCommitmentTransaction`, keygen.rs:8-19. -/
structure KeyGenCommitmentTx where
  id : Identifier
  election : Identifier
  trusteeIndex : UInt8
  trusteePublicKey : PublicKey
  x25519PublicKey : X25519Pub
  commitment : KeygenCommitment
  deriving DecidableEq

/-- `KeyGenShareTransaction`, keygen.rs:22-32. -/
structure KeyGenShareTx where
  id : Identifier
  election : Identifier
  trusteeIndex : UInt8
  trusteePublicKey : PublicKey
  shares : IndexMap UInt8 EncryptedShare

/-- `KeyGenPublicKeyTransaction`, keygen.rs:35-44. -/
structure KeyGenPublicKeyTx where
  id : Identifier
  election : Identifier
  trusteeIndex : UInt8
  trusteePublicKey : PublicKey
  publicKey : ElGamalKey
  publicKeyProof : PubkeyProof
  deriving DecidableEq

/-- `EncryptionKeyTransaction`, keygen.rs:47-54. -/
structure EncryptionKeyTx where
  id : Identifier
  election : Identifier
  authorityPublicKey : PublicKey
  encryptionKey : ElGamalKey
  deriving DecidableEq

/-- `VoteTransaction`, vote.rs:17-32. -/
structure VoteTx where
  id : Identifier
  election : Identifier
  ballotId : Str
  encryptedVotes : List EncryptedVote
  anonymousKey : PublicKey
  authentication : List Authentication
  deriving DecidableEq

/-- `VotingEndTransaction`, voting_end.rs:5-11. -/
structure VotingEndTx where
  id : Identifier
  election : Identifier
  authorityPublicKey : PublicKey
  deriving DecidableEq

/-- `MixTransaction`, mix.rs:17-54. -/
structure MixTx where
  id : Identifier
  electionId : Identifier
  prevMixId : Option Identifier
  trusteeIndex : UInt8
  trusteePublicKey : PublicKey
  mixIndex : UInt8
  contestIndex : UInt32
  batch : UInt32
  voteIds : List Identifier
  mixedCiphertexts : List (List Ciphertext)
  proof : ShuffleProof
  deriving DecidableEq

/-- `PartialDecryptionTransaction`, decryption.rs:11-31. -/
structure PartialDecryptionTx where
  id : Identifier
  electionId : Identifier
  upstreamId : Identifier
  upstreamIndex : UInt16
  contestIndex : UInt32
  trusteeIndex : UInt8
  trusteePublicKey : PublicKey
  partialDecryption : List DecryptShare
  deriving DecidableEq

/-- `DecryptionTransaction`, decryption.rs:180-199. -/
structure DecryptionTx where
  id : Identifier
  electionId : Identifier
  upstreamId : Identifier
  upstreamIndex : UInt16
  contestIndex : UInt32
  trustees : List UInt8
  decryptedVote : List Selection
  deriving DecidableEq

/-- `Signed<T>`, transaction.rs:242-248. -/
structure Signed (T : Type) where
  tx : T
  sig : Signature
  deriving DecidableEq

/-- `SignedTransaction`, transaction.rs:89-104. -/
inductive SignedTx
  | election (s : Signed ElectionTx)
  | keyGenCommitment (s : Signed KeyGenCommitmentTx)
  | keyGenShare (s : Signed KeyGenShareTx)
  | keyGenPublicKey (s : Signed KeyGenPublicKeyTx)
  | encryptionKey (s : Signed EncryptionKeyTx)
  | vote (s : Signed VoteTx)
  | votingEnd (s : Signed VotingEndTx)
  | mix (s : Signed MixTx)
  | partialDecryption (s : Signed PartialDecryptionTx)
  | decryption (s : Signed DecryptionTx)

/-- `SignedTransaction::transaction_type`, transaction.rs:108-121. -/
def SignedTx.transactionType : SignedTx → TxType
  | election _ => .election
  | keyGenCommitment _ => .keyGenCommitment
  | keyGenShare _ => .keyGenShare
  | keyGenPublicKey _ => .keyGenPublicKey
  | encryptionKey _ => .encryptionKey
  | vote _ => .vote
  | votingEnd _ => .votingEnd
  | mix _ => .mix
  | partialDecryption _ => .partialDecryption
  | decryption _ => .decryption

/-- `SignedTransaction::id`, transaction.rs:134-147. -/
def SignedTx.id : SignedTx → Identifier
  | election s => s.tx.id
  | keyGenCommitment s => s.tx.id
  | keyGenShare s => s.tx.id
  | keyGenPublicKey s => s.tx.id
  | encryptionKey s => s.tx.id
  | vote s => s.tx.id
  | votingEnd s => s.tx.id
  | mix s => s.tx.id
  | partialDecryption s => s.tx.id
  | decryption s => s.tx.id

/-! ## CBOR form -/

namespace Cbor

/-- fields of type `u8`, election.rs:8-49. -/
def u8 (n : UInt8) : Cbor := .uint n.toUInt64
/-- fields of type `u16`, decryption.rs:11-31. -/
def u16 (n : UInt16) : Cbor := .uint n.toUInt64
/-- fields of type `u32`, ballot.rs:17-33. -/
def u32 (n : UInt32) : Cbor := .uint n.toUInt64
/-- transaction.rs:457-464. -/
def ident (i : Identifier) : Cbor := .text i.toString
/-- serde: `None` is null, `Some(x)` is `x`. -/
def opt {α : Type} (f : α → Cbor) : Option α → Cbor
  | none => .null
  | some a => f a
/-- election.rs:47-48. -/
def props (p : Properties) : Cbor := .map (p.entries.map fun e => (e.1, e.2.val))
/-- `skip_serializing_if = "IndexMap::is_empty"` (ballot.rs:13, 31, 43). -/
def propsField (p : Properties) : List (Str × Cbor) :=
  if p.entries.isEmpty then [] else [(str "properties", props p)]

end Cbor

/-- trustee.rs:31-44 (two fields `skip_serializing`). -/
def Trustee.toCbor (t : Trustee) : Cbor :=
  .map [(str "public_key", .bytes t.publicKey.val), (str "index", .u8 t.index)]

/-- authn.rs:36-40; `AuthPublicKey` is a newtype, serialized as its content. -/
def Authenticator.toCbor (a : Authenticator) : Cbor :=
  .map [(str "id", .bytes a.id.val), (str "public_keys", .map (a.publicKeys.entries.map fun e => (e.1, .bytes e.2.raw)))]

/-- authn.rs:178-184. -/
def Authentication.toCbor (a : Authentication) : Cbor :=
  .map [(str "authenticator", .bytes a.authenticator.val), (str "signature", .text (hexEncode a.signature))]

/-- mix.rs:10-14. -/
def MixConfig.toCbor (m : MixConfig) : Cbor :=
  .map [(str "timeout_secs", .uint m.timeoutSecs), (str "batch_size", .opt .u16 m.batchSize)]

/-- ballot.rs:4-15. -/
def Ballot.toCbor (b : Ballot) : Cbor :=
  .map ([(str "id", .text b.id), (str "contests", .array (b.contests.map .u32))] ++ Cbor.propsField b.properties)

/-- ballot.rs:35-45. -/
def Candidate.toCbor (c : Candidate) : Cbor := .map ([(str "id", .text c.id)] ++ Cbor.propsField c.properties)

/-- ballot.rs:17-33. -/
def Contest.toCbor (c : Contest) : Cbor :=
  .map ([(str "id", .text c.id), (str "index", .u32 c.index), (str "contest_type", .text c.contestType.name),
    (str "num_winners", .u32 c.numWinners), (str "write_in", .bool c.writeIn),
    (str "candidates", .array (c.candidates.map Candidate.toCbor))] ++ Cbor.propsField c.properties)

/-- ballot.rs:169-187. -/
def Selection.toCbor (s : Selection) : Cbor :=
  .map [(str "write_in", .bool s.writeIn), (str "score", .u32 s.score), (str "selection", .text s.selection)]

/-- vote.rs:34-38. -/
def EncryptedVote.toCbor (v : EncryptedVote) : Cbor :=
  .map [(str "contest_index", .u32 v.contestIndex), (str "selections", .array (v.selections.map fun c => .bytes c.raw))]

/-- election.rs:8-49. -/
def ElectionTx.toCbor (t : ElectionTx) : Cbor :=
  .map [(str "id", .ident t.id), (str "authority_public", .bytes t.authorityPublic.val),
    (str "trustees", .array (t.trustees.map Trustee.toCbor)), (str "trustees_threshold", .u8 t.trusteesThreshold),
    (str "authenticators", .array (t.authenticators.map Authenticator.toCbor)),
    (str "authenticators_threshold", .u8 t.authenticatorsThreshold),
    (str "mix_config", .opt MixConfig.toCbor t.mixConfig), (str "ballots", .array (t.ballots.map Ballot.toCbor)),
    (str "contests", .array (t.contests.map Contest.toCbor)), (str "properties", .props t.properties)]

/-- keygen.rs:8-19. -/
def KeyGenCommitmentTx.toCbor (t : KeyGenCommitmentTx) : Cbor :=
  .map [(str "id", .ident t.id), (str "election", .ident t.election), (str "trustee_index", .u8 t.trusteeIndex),
    (str "trustee_public_key", .bytes t.trusteePublicKey.val), (str "x25519_public_key", .bytes t.x25519PublicKey.val),
    (str "commitment", .bytes t.commitment.raw)]

/-- keygen.rs:22-32 (`indexmap::serde_seq`: a sequence of pairs). -/
def KeyGenShareTx.toCbor (t : KeyGenShareTx) : Cbor :=
  .map [(str "id", .ident t.id), (str "election", .ident t.election), (str "trustee_index", .u8 t.trusteeIndex),
    (str "trustee_public_key", .bytes t.trusteePublicKey.val),
    (str "shares", .array (t.shares.entries.map fun e => .array [.u8 e.1, .bytes e.2.raw]))]

/-- keygen.rs:35-44. -/
def KeyGenPublicKeyTx.toCbor (t : KeyGenPublicKeyTx) : Cbor :=
  .map [(str "id", .ident t.id), (str "election", .ident t.election), (str "trustee_index", .u8 t.trusteeIndex),
    (str "trustee_public_key", .bytes t.trusteePublicKey.val), (str "public_key", .bytes t.publicKey.raw),
    (str "public_key_proof", .bytes t.publicKeyProof.raw)]

/-- keygen.rs:47-54. -/
def EncryptionKeyTx.toCbor (t : EncryptionKeyTx) : Cbor :=
  .map [(str "id", .ident t.id), (str "election", .ident t.election),
    (str "authority_public_key", .bytes t.authorityPublicKey.val), (str "encryption_key", .bytes t.encryptionKey.raw)]

/-- vote.rs:17-32. -/
def VoteTx.toCbor (t : VoteTx) : Cbor :=
  .map [(str "id", .ident t.id), (str "election", .ident t.election), (str "ballot_id", .text t.ballotId),
    (str "encrypted_votes", .array (t.encryptedVotes.map EncryptedVote.toCbor)),
    (str "anonymous_key", .bytes t.anonymousKey.val),
    (str "authentication", .array (t.authentication.map Authentication.toCbor))]

/-- voting_end.rs:5-11. -/
def VotingEndTx.toCbor (t : VotingEndTx) : Cbor :=
  .map [(str "id", .ident t.id), (str "election", .ident t.election),
    (str "authority_public_key", .bytes t.authorityPublicKey.val)]

/-- mix.rs:17-54. -/
def MixTx.toCbor (t : MixTx) : Cbor :=
  .map [(str "id", .ident t.id), (str "election_id", .ident t.electionId), (str "prev_mix_id", .opt .ident t.prevMixId),
    (str "trustee_index", .u8 t.trusteeIndex), (str "trustee_public_key", .bytes t.trusteePublicKey.val),
    (str "mix_index", .u8 t.mixIndex), (str "contest_index", .u32 t.contestIndex), (str "batch", .u32 t.batch),
    (str "vote_ids", .array (t.voteIds.map .ident)),
    (str "mixed_ciphertexts", .array (t.mixedCiphertexts.map fun l => .array (l.map fun c => .bytes c.raw))),
    (str "proof", .bytes t.proof.raw)]

/-- decryption.rs:11-31. -/
def PartialDecryptionTx.toCbor (t : PartialDecryptionTx) : Cbor :=
  .map [(str "id", .ident t.id), (str "election_id", .ident t.electionId), (str "upstream_id", .ident t.upstreamId),
    (str "upstream_index", .u16 t.upstreamIndex), (str "contest_index", .u32 t.contestIndex),
    (str "trustee_index", .u8 t.trusteeIndex), (str "trustee_public_key", .bytes t.trusteePublicKey.val),
    (str "partial_decryption", .array (t.partialDecryption.map fun s => .bytes s.raw))]

/-- decryption.rs:180-199. -/
def DecryptionTx.toCbor (t : DecryptionTx) : Cbor :=
  .map [(str "id", .ident t.id), (str "election_id", .ident t.electionId), (str "upstream_id", .ident t.upstreamId),
    (str "upstream_index", .u16 t.upstreamIndex), (str "contest_index", .u32 t.contestIndex),
    (str "trustees", .array (t.trustees.map .u8)), (str "decrypted_vote", .array (t.decryptedVote.map Selection.toCbor))]

end CB
