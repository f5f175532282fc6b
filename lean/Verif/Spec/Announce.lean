import Verif.Model.Sawtooth
import Verif.Model.MemStore
import Verif.Spec.Serde
/-!
# Specification vocabulary: announcements of elections on the Sawtooth ledger
-/

namespace CB.Spec

/-- What the payload announces under this id: an election that the library accepts on an empty ledger, as it can be read back. -/
def announces (E : Env) (id : Identifier) (p : Bytes) : Option SignedTx :=
  match SignedTx.fromBytes p with
  | .ok (.election a) => if a.tx.id = id ∧ (SignedTx.election a).validate E MemStore.empty.toStore = .ok () then some (forget (.election a)) else none
  | _ => none

/-- Those of the payloads that the processor applies, in this order. -/
def applied (E : Env) (pre : Str) : Sawtooth.State → List Bytes → List Bytes
  | _, [] => []
  | s, p :: ps =>
    match Sawtooth.apply E pre s p with
    | .ok s' => p :: applied E pre s' ps
    | _ => applied E pre s ps

end CB.Spec
