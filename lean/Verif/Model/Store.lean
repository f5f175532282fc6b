import Verif.Model.Types
/-!
# Errors, the `Store` trait and `MemStore` (error.rs, store.rs)
-/

namespace CB

/-- `ValidationError`, error.rs:64-202 (the variants the modelled code can return).  `SignatureError`, `DecodeError` and
`CryptoError` payloads are not tracked beyond `CryptoError`. -/
inductive ValErr
  | identifierBadComposition
  | authorityPublicKeyMismatch
  | trusteePublicKeyMismatch (i : UInt8)
  | mismatchedEncryptionKey (i : UInt8)
  | invalidTrusteeThreshold
  | invalidAuthThreshold
  | ballotDoesNotExist
  | authDoesNotExist
  | trusteeDoesNotExist (i : UInt8)
  | missingKeyGenPublicKeyTransaction (i : UInt8)
  | wrongNumberOfPublicKeyTransactions
  | trusteeShareMissing (i : UInt8)
  | trusteeMissing (i : UInt8)
  | wrongNumberOfShares
  | authFailed
  | encryptionKeyTransactionDoesNotExist
  | voteDecryptionFailed (e : CryptoError)
  | voteDecryptionMismatch
  | authSignatureVerificationFailed
  | notEnoughShares (need found : Nat)
  | transactionNotFound (id : Identifier) (t : TxType)
  | missingVotingEndTransaction
  | signatureError
  | shareDecryptionError
  | partialDecryptionProofFailed
  | mismatchedTransactionType
  | votingHasEnded
  | shuffleVerificationFailed
  | noMixnetConfig
  | outOfOrderMix
  | missingPrevMixTransaction
  | invalidPrevMixTransaction
  | mixVoteIdsNotSorted
  | mixWrongNumberOfVotes
  | mixVotesNotAccountedFor
  | invalidUpstreamID
  | invalidUpstreamIndex
  | invalidUpstreamContestIndex
  | votedInWrongContest
  | voteAnonymousKeyCollision
  | voteDecodingError
  deriving DecidableEq, Repr

/-- Result of validation code. (`Result<T, ValidationError>`, error.rs:64-202.) -/
abbrev VRes := Res ValErr

/-- The `Store` trait's required methods, store.rs:19-23.  `range` may panic (BTreeMap with an inverted range; Sawtooth's `todo!()`). -/
structure Store where
  getTransaction : Identifier → Option SignedTx
  range : Identifier → Identifier → VRes (List SignedTx)

/-! ## `From<SignedTransaction>` conversions, transaction.rs:583-821: panic on the wrong variant -/
namespace SignedTx

/-- transaction.rs:583-590. -/
def intoElection : SignedTx → VRes (Signed ElectionTx)
  | election s => .ok s
  | _ => .panic .wrongTransactionType
/-- transaction.rs:592-599. -/
def intoKeyGenCommitment : SignedTx → VRes (Signed KeyGenCommitmentTx)
  | keyGenCommitment s => .ok s
  | _ => .panic .wrongTransactionType
/-- transaction.rs:601-608. -/
def intoKeyGenShare : SignedTx → VRes (Signed KeyGenShareTx)
  | keyGenShare s => .ok s
  | _ => .panic .wrongTransactionType
/-- transaction.rs:610-617. -/
def intoKeyGenPublicKey : SignedTx → VRes (Signed KeyGenPublicKeyTx)
  | keyGenPublicKey s => .ok s
  | _ => .panic .wrongTransactionType
/-- transaction.rs:619-626. -/
def intoEncryptionKey : SignedTx → VRes (Signed EncryptionKeyTx)
  | encryptionKey s => .ok s
  | _ => .panic .wrongTransactionType
/-- transaction.rs:628-635. -/
def intoVote : SignedTx → VRes (Signed VoteTx)
  | vote s => .ok s
  | _ => .panic .wrongTransactionType
/-- transaction.rs:637-644. -/
def intoVotingEnd : SignedTx → VRes (Signed VotingEndTx)
  | votingEnd s => .ok s
  | _ => .panic .wrongTransactionType
/-- transaction.rs:646-653. -/
def intoMix : SignedTx → VRes (Signed MixTx)
  | mix s => .ok s
  | _ => .panic .wrongTransactionType
/-- transaction.rs:655-662. -/
def intoPartialDecryption : SignedTx → VRes (Signed PartialDecryptionTx)
  | partialDecryption s => .ok s
  | _ => .panic .wrongTransactionType
/-- transaction.rs:664-671. -/
def intoDecryption : SignedTx → VRes (Signed DecryptionTx)
  | decryption s => .ok s
  | _ => .panic .wrongTransactionType

end SignedTx

namespace Store

/-- `get_multiple`, store.rs:25-34. -/
def getMultiple (s : Store) (election : Identifier) (t : TxType) : VRes (List SignedTx) := do
  let start ← Identifier.start election t none
  let stop ← Identifier.end election t none
  s.range start stop

/-- `get_election`, store.rs:39-51. -/
def getElection (s : Store) (id : Identifier) : VRes (Signed ElectionTx) :=
  match s.getTransaction id with
  | some (.election e) => .ok e
  | _ => .err (.transactionNotFound id .election)

/-- `get_keygen_public_key`, store.rs:54-72. -/
def getKeygenPublicKey (s : Store) (id : Identifier) : VRes (Signed KeyGenPublicKeyTx) :=
  match s.getTransaction id with
  | some (.keyGenPublicKey e) => .ok e
  | _ => .err (.transactionNotFound id .keyGenPublicKey)

/-- `get_vote`, store.rs:75-84. -/
def getVote (s : Store) (id : Identifier) : VRes (Signed VoteTx) :=
  match s.getTransaction id with
  | some (.vote e) => .ok e
  | _ => .err (.transactionNotFound id .vote)

/-- `get_mix`, store.rs:87-96. -/
def getMix (s : Store) (id : Identifier) : VRes (Signed MixTx) :=
  match s.getTransaction id with
  | some (.mix e) => .ok e
  | _ => .err (.transactionNotFound id .mix)

/-- `get_partial_decryption`, store.rs:99-117. -/
def getPartialDecryption (s : Store) (id : Identifier) : VRes (Signed PartialDecryptionTx) :=
  match s.getTransaction id with
  | some (.partialDecryption e) => .ok e
  | _ => .err (.transactionNotFound id .partialDecryption)

/-- `get_decryption`, store.rs:120-132. -/
def getDecryption (s : Store) (id : Identifier) : VRes (Signed DecryptionTx) :=
  match s.getTransaction id with
  | some (.decryption e) => .ok e
  | _ => .err (.transactionNotFound id .decryption)

end Store

/-! ## Ordered maps with text keys (`BTreeMap<String, V>`, exonum `MapIndex<String, V>`) -/

/-- Entries with strictly ascending keys. (store.rs:138.) -/
def AscKeys {ν : Type} (l : List (Str × ν)) : Prop := l.Pairwise fun a b => cmpBytes a.1 b.1 = .lt

/-- `BTreeMap<String, V>`: entries in strictly ascending key order (guaranteed by the std library). (store.rs:138.) -/
structure OMap (ν : Type) where
  entries : List (Str × ν)
  sorted : AscKeys entries

namespace OMap
variable {ν : Type}

/-- insertion into an ascending association list, replacing an equal key. (store.rs:143.) -/
def insertList (k : Str) (v : ν) : List (Str × ν) → List (Str × ν)
  | [] => [(k, v)]
  | (k', v') :: es =>
    match cmpBytes k k' with
    | .lt => (k, v) :: (k', v') :: es
    | .eq => (k, v) :: es
    | .gt => (k', v') :: insertList k v es

/-- lookup in an ascending association list. (store.rs:150.) -/
def lookup (k : Str) : List (Str × ν) → Option ν
  | [] => none
  | (k', v) :: es => if k' = k then some v else lookup k es

end OMap
end CB
