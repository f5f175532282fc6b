import Verif.Model.Exonum
/-!
# Specification vocabulary: the same payloads for both ledgers
-/

namespace CB

namespace Spec

/-- What a client posts to an Exonum node for the payload it would send to the Sawtooth processor: nothing if it is no transaction, otherwise the payload under the id of
the transaction (cryptoballot_exonum/src/lib.rs:50-63). -/
def posting (p : Bytes) : Option Exonum.Envelope :=
  match SignedTx.fromBytes p with
  | .ok t => some { pubKey := t.pub.getD (BArr.fill 32 0), id := t.id.toString, data := p }
  | _ => none

/-- No two different payloads among these are elections with the same id. -/
def NoElectionTwice (l : List Bytes) : Prop :=
  l.Pairwise fun p q => ∀ a b, SignedTx.fromBytes p = .ok (.election a) → SignedTx.fromBytes q = .ok (.election b) → a.tx.id ≠ b.tx.id

end Spec

end CB
