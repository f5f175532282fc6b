import Verif.Model.Exonum
/-!
# The node's read API (cryptoballot_server/src/api.rs)

HTTP is not modelled: a handler returns transactions or an error.  Model/Json has the bodies of the answers.
-/

namespace CB
namespace Api

/-- `api::Error`: not found (404) or internal error (500). (api.rs:31, 35, 56, 62.) -/
inductive Error
  | notFound
  | internal
  deriving DecidableEq, Repr

/-- `get_tx`, api.rs:24-36. -/
def getTx (s : Exonum.Schema) (id : Str) : Res Error SignedTx :=
  match s.get id with
  | none => .err .notFound
  | some e => Res.mapErr (fun _ => Error.internal) e.toTx

/-- Number of characters of a UTF-8 string: bytes that are not continuation bytes. (width of `{:0<64}`, api.rs:50.) -/
def charCount (s : Str) : Nat := (s.filter fun b => !(0x80 ≤ b && b < 0xC0)).length

/-- `format!("{:0<64}", prefix)`, api.rs:50: padded on the right with `0` to at least 64 characters. -/
def padded (p : Str) : Str := p ++ List.replicate (64 - charCount p) 0x30

/-- `get_all`, api.rs:39-68: with a prefix, iterate from the padded prefix and stop at the first key without the prefix; without, all entries. -/
def getAll (s : Exonum.Schema) (pre : Option Str) : Res Error (List SignedTx) :=
  let es := match pre with
    | some p => (s.iterFrom (padded p)).takeWhile fun e => p.isPrefixOf e.1
    | none => s.entries
  Res.mapM' (fun e => Res.mapErr (fun _ => Error.internal) e.2.toTx) es

end Api
end CB
