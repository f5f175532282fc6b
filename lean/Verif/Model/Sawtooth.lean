import Verif.Model.MemStore
import Verif.Model.Validate
import Verif.Model.Decode
/-!
# The Sawtooth transaction processor (cryptoballot_sawtooth_tp/src/handler.rs)

Not modelled: the Sawtooth validator, its headers and batches, and errors of its state (`ContextError`).  The address prefix (three bytes of a SHA-512, as hex) is
a parameter.
-/

namespace CB
namespace Sawtooth

/-- global state: address → packed transaction. (handler.rs:127-129.) -/
abbrev State := OMap Bytes

/-- `ApplyError::InvalidTransaction`, with its cause. (handler.rs:71, 88; error.rs.) -/
inductive Error
  | cannotParse
  | alreadyExists
  | validation (e : ValErr)
  deriving DecidableEq, Repr

/-- `cb_address`, handler.rs:123-125. -/
def address (pre : Str) (id : Identifier) : Str := pre ++ id.toString

/-- `CbState::get_transaction`, handler.rs:136-146 and 164-168: what does not parse is `None`.  (A panic of `from_bytes` is read as nothing too; `apply` stores only
bytes it produced itself.) -/
def getTransaction (pre : Str) (s : State) (id : Identifier) : Option SignedTx :=
  match s.get (address pre id) with
  | some b => match SignedTx.fromBytes b with
    | .ok t => some t
    | _ => none
  | none => none

/-- `impl Store for CbState`, handler.rs:164-173: `range` is `todo!()`. -/
def toStore (pre : Str) (s : State) : Store := { getTransaction := getTransaction pre s, range := fun _ _ => .panic .todo }

/-- `validate_transaction`, handler.rs:103-120. -/
def validateTransaction (E : Env) (pre : Str) (s : State) (t : SignedTx) : Res Error Unit :=
  (match t with
    | .election _ => Res.ok ()
    | _ => Res.failIf (getTransaction pre s t.id).isSome Error.alreadyExists).bind fun _ =>
  Res.mapErr Error.validation (t.validate E (toStore pre s))

/-- `apply`, handler.rs:49-100. -/
def apply (E : Env) (pre : Str) (s : State) (payload : Bytes) : Res Error State :=
  (Res.mapErr (fun _ => Error.cannotParse) (SignedTx.fromBytes payload)).bind fun t =>
    (validateTransaction E pre s t).bind fun _ => .ok (s.insert (address pre t.id) t.asBytes)

/-- a history of applied transactions; a failed one leaves the state as it was. (handler.rs:49-100 for each.) -/
def applyAll (E : Env) (pre : Str) (s : State) (l : List Bytes) : State :=
  l.foldl (fun s p => match apply E pre s p with | .ok s' => s' | _ => s) s

end Sawtooth
end CB
