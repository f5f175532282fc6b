import Verif.Model.Validate
import Verif.Model.Decode
/-!
# Unsigned transactions (transaction.rs:18-87)
-/

namespace CB

/-- `Transaction`, transaction.rs:18-34. -/
inductive UnsignedTx
  | election (tx : ElectionTx)
  | keyGenCommitment (tx : KeyGenCommitmentTx)
  | keyGenShare (tx : KeyGenShareTx)
  | keyGenPublicKey (tx : KeyGenPublicKeyTx)
  | encryptionKey (tx : EncryptionKeyTx)
  | vote (tx : VoteTx)
  | votingEnd (tx : VotingEndTx)
  | mix (tx : MixTx)
  | partialDecryption (tx : PartialDecryptionTx)
  | decryption (tx : DecryptionTx)

namespace UnsignedTx

/-- `Transaction::transaction_type`, transaction.rs:37-51. -/
def transactionType : UnsignedTx → TxType
  | election _ => .election
  | keyGenCommitment _ => .keyGenCommitment
  | keyGenShare _ => .keyGenShare
  | keyGenPublicKey _ => .keyGenPublicKey
  | encryptionKey _ => .encryptionKey
  | vote _ => .vote
  | votingEnd _ => .votingEnd
  | mix _ => .mix
  | partialDecryption _ => .partialDecryption
  | decryption _ => .decryption

/-- `Transaction::id`, transaction.rs:53-67. -/
def id : UnsignedTx → Identifier
  | election tx => tx.id
  | keyGenCommitment tx => tx.id
  | keyGenShare tx => tx.id
  | keyGenPublicKey tx => tx.id
  | encryptionKey tx => tx.id
  | vote tx => tx.id
  | votingEnd tx => tx.id
  | mix tx => tx.id
  | partialDecryption tx => tx.id
  | decryption tx => tx.id

/-- `Transaction::validate_tx`, transaction.rs:73-86. -/
def validateTx (E : Env) (u : UnsignedTx) (S : Store) : VRes Unit :=
  match u with
  | election tx => CBTransaction.validateTx E tx S
  | keyGenCommitment tx => CBTransaction.validateTx E tx S
  | keyGenShare tx => CBTransaction.validateTx E tx S
  | keyGenPublicKey tx => CBTransaction.validateTx E tx S
  | encryptionKey tx => CBTransaction.validateTx E tx S
  | vote tx => CBTransaction.validateTx E tx S
  | votingEnd tx => CBTransaction.validateTx E tx S
  | mix tx => CBTransaction.validateTx E tx S
  | partialDecryption tx => CBTransaction.validateTx E tx S
  | decryption tx => CBTransaction.validateTx E tx S

/-- `#[serde(tag = "type")]` on a struct: the tag is written before the struct's own fields. -/
def withTag (ty : TxType) : Cbor → Cbor
  | .map l => .map ((str "type", .text ty.name) :: l)
  | c => c

/-- `Serialize for Transaction`, transaction.rs:20-22. -/
def toCbor : UnsignedTx → Cbor
  | election tx => withTag .election tx.toCbor
  | keyGenCommitment tx => withTag .keyGenCommitment tx.toCbor
  | keyGenShare tx => withTag .keyGenShare tx.toCbor
  | keyGenPublicKey tx => withTag .keyGenPublicKey tx.toCbor
  | encryptionKey tx => withTag .encryptionKey tx.toCbor
  | vote tx => withTag .vote tx.toCbor
  | votingEnd tx => withTag .votingEnd tx.toCbor
  | mix tx => withTag .mix tx.toCbor
  | partialDecryption tx => withTag .partialDecryption tx.toCbor
  | decryption tx => withTag .decryption tx.toCbor

/-- `serde_cbor::to_vec` of it. -/
def asBytes (u : UnsignedTx) : Bytes := u.toCbor.encode

end UnsignedTx

/-- `Deserialize for Transaction`, transaction.rs:20-22: internally tagged by "type". -/
def De.unsignedTx (c : Cbor) : DRes UnsignedTx := do
  let (ty, rest) ← tagged c
  if ty = TxType.name .election then (election rest).bind fun tx => .ok (.election tx)
  else if ty = TxType.name .keyGenCommitment then (keyGenCommitment rest).bind fun tx => .ok (.keyGenCommitment tx)
  else if ty = TxType.name .keyGenShare then (keyGenShare rest).bind fun tx => .ok (.keyGenShare tx)
  else if ty = TxType.name .keyGenPublicKey then (keyGenPublicKey rest).bind fun tx => .ok (.keyGenPublicKey tx)
  else if ty = TxType.name .encryptionKey then (encryptionKey rest).bind fun tx => .ok (.encryptionKey tx)
  else if ty = TxType.name .vote then (vote rest).bind fun tx => .ok (.vote tx)
  else if ty = TxType.name .votingEnd then (votingEnd rest).bind fun tx => .ok (.votingEnd tx)
  else if ty = TxType.name .mix then (mix rest).bind fun tx => .ok (.mix tx)
  else if ty = TxType.name .partialDecryption then (partialDecryption rest).bind fun tx => .ok (.partialDecryption tx)
  else if ty = TxType.name .decryption then (decryption rest).bind fun tx => .ok (.decryption tx)
  else .err .malformed

/-- `Transaction::from_bytes`, transaction.rs:69-71. -/
def UnsignedTx.fromBytes (bs : Bytes) : DRes UnsignedTx := (Res.ofOption (Cbor.decode bs) .malformed).bind De.unsignedTx

/-- `From<SignedTransaction>` for the unsigned types (transaction.rs:673-761) and `Signed::inner` (transaction.rs:282-285), for all types at once: the transaction without its
signature. -/
def SignedTx.unsigned : SignedTx → UnsignedTx
  | .election s => .election s.tx
  | .keyGenCommitment s => .keyGenCommitment s.tx
  | .keyGenShare s => .keyGenShare s.tx
  | .keyGenPublicKey s => .keyGenPublicKey s.tx
  | .encryptionKey s => .encryptionKey s.tx
  | .vote s => .vote s.tx
  | .votingEnd s => .votingEnd s.tx
  | .mix s => .mix s.tx
  | .partialDecryption s => .partialDecryption s.tx
  | .decryption s => .decryption s.tx

end CB
