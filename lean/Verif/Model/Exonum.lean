import Verif.Model.MemStore
import Verif.Model.Validate
import Verif.Model.Decode
/-!
# The Exonum ledger (cryptoballot_exonum/src/lib.rs)

Not modelled: Exonum's own transaction signatures, consensus, Merkle proofs, and the printing of transactions.  A failed or panicking
transaction is rolled back by Exonum, so it leaves the state as it was.
-/

namespace CB
namespace Exonum

/-- `Transaction`, lib.rs:26-35: what is submitted to and stored on the blockchain. -/
structure Envelope where
  pubKey : BArr 32
  id : Str
  data : Bytes

/-- `impl From<SignedTransaction> for Transaction`, lib.rs:50-63. -/
def Envelope.ofTx (t : SignedTx) : Envelope :=
  { pubKey := t.pub.getD (BArr.fill 32 0), id := t.id.toString, data := t.asBytes }

/-- `TryInto<SignedTransaction>`, lib.rs:65-71. -/
def Envelope.toTx (e : Envelope) : DRes SignedTx := SignedTx.fromBytes e.data

/-- `TransactionSchema`, lib.rs:74-78: `MapIndex<String, Transaction>`, ordered by the bytes of the key. -/
abbrev Schema := OMap Envelope

/-- `from_bytes(..).ok()`.  A panic of `from_bytes` is read as "nothing" here; `Exonum.C36_stored_was_validated` shows that whatever is stored
decodes, so this case does not arise. (lib.rs:93, 110.) -/
def Envelope.decoded (e : Envelope) : Option SignedTx :=
  match SignedTx.fromBytes e.data with
  | .ok t => some t
  | _ => none

/-- `Store::get_transaction` for `TransactionSchema`, lib.rs:88-96. -/
def getTransaction (s : Schema) (id : Identifier) : Option SignedTx :=
  match s.get id.toString with
  | some e => e.decoded
  | none => none

/-- `Store::range` for `TransactionSchema`, lib.rs:98-115: iterate from `start`, stop at the first key beyond `end`, skip what does not decode. -/
def range (s : Schema) (start stop : Identifier) : List SignedTx :=
  ((s.iterFrom start.toString).takeWhile fun e => cmpBytes e.1 stop.toString != .gt).filterMap fun e => e.2.decoded

/-- `impl Store for TransactionSchema`, lib.rs:87-116. -/
def toStore (s : Schema) : Store := { getTransaction := getTransaction s, range := fun a b => .ok (range s a b) }

/-- `Error`, lib.rs:119-135 (the two variants never returned are left out). -/
inductive Error
  | transactionAlreadyExists
  | verificationFailed
  | invalidTransactionFormat
  deriving DecidableEq, Repr

/-- `verify_and_store`, lib.rs:139-177. -/
def verifyAndStore (E : Env) (s : Schema) (e : Envelope) : Res Error Schema :=
  if (s.get e.id).isSome then .err .transactionAlreadyExists
  else (Res.mapErr (fun _ => Error.invalidTransactionFormat) (SignedTx.fromBytes e.data)).bind fun t =>
    (Res.mapErr (fun _ => Error.verificationFailed) (t.validate E (toStore s))).bind fun _ =>
      .ok (s.insert e.id e)

/-- `submit_tx`, cryptoballot_server/src/service.rs:36-44, with Exonum's rollback of failed transactions. -/
def deliver (E : Env) (s : Schema) (e : Envelope) : Schema :=
  match verifyAndStore E s e with
  | .ok s' => s'
  | _ => s

/-- The blockchain after delivering submissions in the order fixed by consensus. (cryptoballot_server/src/service.rs:36-44 for each.) -/
def deliverAll (E : Env) (s : Schema) (l : List Envelope) : Schema := l.foldl (deliver E) s

end Exonum
end CB
