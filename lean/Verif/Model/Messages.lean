import Verif.Model.E2e
import Verif.Model.Json
import Verif.Model.Sawtooth
/-!
# What is printed about refusals (cryptoballot/src/error.rs:63-202, store.rs:5-10, command_e2e.rs:8-38, cryptoballot_sawtooth_tp/src/error.rs, handler.rs:69-90)

The texts of errors of other libraries are parameters (`Texts`).
-/

namespace CB

/-- Texts of errors of other libraries that are put into messages: `cryptid::CryptoError`, `ed25519_dalek::SignatureError`, `prost::DecodeError`,
`serde_cbor::Error`.  (error.rs:130, 153, 201, handler.rs:71.  Simplification: the last three are one text each; the model does not distinguish
their causes.) -/
structure Texts where
  crypto : CryptoError → Str
  signature : Str
  decoding : Str
  parsing : Str

/-- A number in a message: `Display` of `u8` and `usize`. (error.rs:71-142.) -/
def decimal (n : Nat) : Str := Json.digitsFrom (n + 1) n []

/-- `Display` of `ValidationError` (thiserror), error.rs:63-202, with `Display` of `TransactionNotFound`, store.rs:5-10. -/
def ValErr.text (T : Texts) : ValErr → Str
  | .identifierBadComposition => str "cryptoballot: invalid identifier - incorrectly composed"
  | .authorityPublicKeyMismatch => str "cryptoballot validation: election authority public key mismatch"
  | .trusteePublicKeyMismatch i => str "cryptoballot validation: trustee public key mismatch for trustee " ++ decimal i.toNat
  | .mismatchedEncryptionKey i => str "cryptoballot validation: mismatched encryption_key for trustee " ++ (decimal i.toNat ++ str ")")
  | .invalidTrusteeThreshold => str "cryptoballot validation: threshold is invalid for number of trustees"
  | .invalidAuthThreshold => str "cryptoballot validation: threshold is invalid for number of authenticators"
  | .ballotDoesNotExist => str "cryptoballot validation: ballot does not exist in election"
  | .authDoesNotExist => str "cryptoballot validation: authentication does not exist in election"
  | .trusteeDoesNotExist i => str "cryptoballot validation: trustee with index " ++
      (decimal i.toNat ++ str " does not exist in election (or possibly mismatched public keys)")
  | .missingKeyGenPublicKeyTransaction i => str "cryptoballot validation: missing keygen_public_key transaction for trustee " ++
      (decimal i.toNat ++ str ")")
  | .wrongNumberOfPublicKeyTransactions => str "cryptoballot validation: wrong number of keygen_public_key transactions)"
  | .trusteeShareMissing i => str "cryptoballot validation: trustee " ++ (decimal i.toNat ++ str " share is missing)")
  | .trusteeMissing i => str "cryptoballot validation: trustee " ++ (decimal i.toNat ++ str " cannot be found)")
  | .wrongNumberOfShares => str "cryptoballot validation: wrong number of shares"
  | .authFailed => str "cryptoballot validation: authentication failed"
  | .encryptionKeyTransactionDoesNotExist => str "cryptoballot: encryption_key transaction not does yet exist"
  | .voteDecryptionFailed e => str "cryptoballot: vote decryption failed: " ++ T.crypto e
  | .voteDecryptionMismatch => str "cryptoballot: vote decryption failed: decrypted vote mismatch"
  | .authSignatureVerificationFailed => str "cryptoballot: auth signature verification failed"
  | .notEnoughShares need found => str "cryptoballot: not enough secret shares: need " ++ (decimal need ++ (str ", found " ++ decimal found))
  | .transactionNotFound id t => str "cryptoballot: transaction not found: " ++ (t.name ++ (str " transaction " ++ (id.toString ++ str " not found")))
  | .missingVotingEndTransaction => str "cryptoballot: Missing voting_end transaction"
  | .signatureError => str "cryptoballot validation: signature error: " ++ T.signature
  | .shareDecryptionError => str "cryptoballot validation: share decryption error"
  | .partialDecryptionProofFailed => str "cryptoballot: partial decryption proof failed to verify"
  | .mismatchedTransactionType => str "cryptoballot: mismatched transaction type and id type"
  | .votingHasEnded => str "cryptoballot: voting has ended"
  | .shuffleVerificationFailed => str "cryptoballot: shuffle verification failed"
  | .noMixnetConfig => str "cryptoballot: no mixnet configured for election"
  | .outOfOrderMix => str "cryptoballot: out of order mix"
  | .missingPrevMixTransaction => str "cryptoballot: missing previous mix transaction"
  | .invalidPrevMixTransaction => str "cryptoballot: invalid previous mix transaction"
  | .mixVoteIdsNotSorted => str "cryptoballot: mix vote_ids are not sorted ascending"
  | .mixWrongNumberOfVotes => str "cryptoballot: wrong number of votes in mix"
  | .mixVotesNotAccountedFor => str "cryptoballot: not all votes accounted for in mix"
  | .invalidUpstreamID => str "cryptoballot: invalid upstream transaction ID"
  | .invalidUpstreamIndex => str "cryptoballot: invalid upstream index"
  | .invalidUpstreamContestIndex => str "cryptoballot: invalid upstream contest index"
  | .votedInWrongContest => str "cryptoballot: voted in wrong contest"
  | .voteAnonymousKeyCollision => str "cryptoballot: vote anonymous_key collides with existing vote"
  | .voteDecodingError => str "cryptoballot: could not decode vote selection: " ++ T.decoding

/-- What the end-to-end command prints before it exits with 1, command_e2e.rs:8-38. -/
def E2e.Exit.message (T : Texts) : E2e.Exit → Str
  | .invalidElectionId => str "cryptoballot e2e: invalid election-id\n"
  | .noTransactions => str "No Transactions present"
  | .notAnElection => str "Frist transaction must be an election transaction"
  | .invalid id e => str "Failed to validate transaction " ++ (id.toString ++ (str ": " ++ e.text T))

/-- The text of the Sawtooth processor's answer to a transaction that it refuses: `TPError`, cryptoballot_sawtooth_tp/src/error.rs:4-23, in the frame of
handler.rs:69-90. -/
def Sawtooth.Error.message (T : Texts) (t : SignedTx) : Sawtooth.Error → Str
  | .cannotParse => str "cannot parse transaction: " ++ T.parsing
  | .alreadyExists => str "error validating " ++ (t.transactionType.name ++ (str " " ++ (t.id.toString ++ (str ": " ++
      (str "state error: transaction " ++ (t.id.toString ++ str " already exits"))))))
  | .validation e => str "error validating " ++ (t.transactionType.name ++ (str " " ++ (t.id.toString ++ (str ": " ++ (str "validation error: " ++ e.text T)))))

end CB
