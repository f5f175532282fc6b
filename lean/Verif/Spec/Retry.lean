import Verif.Spec.Order
import Verif.Model.Exonum
/-!
# Specification vocabulary: sending transactions again until they are accepted
-/

namespace CB.Spec

/-- After the submissions `l`, the ledger accepts each transaction of `goal` when they are sent once each, in this order. -/
def AcceptedInOrder (E : Env) (l : List Exonum.Envelope) (goal : List SignedTx) : Prop :=
  ∀ before t after, goal = before ++ t :: after →
    ∃ s, Exonum.verifyAndStore E (Exonum.deliverAll E OMap.empty (l ++ before.map Exonum.Envelope.ofTx)) (Exonum.Envelope.ofTx t) = .ok s

/-- Nothing that is sent takes the place of a transaction of `goal` or gets in its way, apart from those of `goal` that belong before it. -/
def NothingInTheWay (goal sent : List SignedTx) : Prop :=
  ∀ before t after, goal = before ++ t :: after → ∀ u ∈ sent, u ∉ before → u ≠ t → u.id ≠ t.id ∧ ¬ Conflicts t u

/-- Round after round, all of `goal` is sent, in one order or another, perhaps some of it repeatedly. -/
def Rounds (goal : List SignedTx) (rounds : List (List SignedTx)) : Prop := ∀ r ∈ rounds, ∀ t, t ∈ r ↔ t ∈ goal

end CB.Spec
