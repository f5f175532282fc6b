import Verif.Model.Exonum
/-!
# Specification vocabulary: copies of ledgers
-/

namespace CB.Spec

/-- Those of the submissions that the ledger, starting from `s`, accepts, in this order. -/
def kept (E : Env) : Exonum.Schema → List Exonum.Envelope → List Exonum.Envelope
  | _, [] => []
  | s, x :: xs =>
    match Exonum.verifyAndStore E s x with
    | .ok s' => x :: kept E s' xs
    | _ => kept E s xs

end CB.Spec
