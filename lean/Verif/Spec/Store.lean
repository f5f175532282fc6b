import Verif.Model.Types
/-!
# Specification vocabulary: what a store filled by `set` calls holds
-/

namespace CB.Spec

/-- After setting the transactions `txs` in order, `t` is what is stored under its id: it was set, and nothing with the same id was set later. -/
def Stored (txs : List SignedTx) (t : SignedTx) : Prop :=
  ∃ before after, txs = before ++ t :: after ∧ ∀ u ∈ after, u.id ≠ t.id

/-- `a` comes before `b` in the order of identifiers (C03 ties this order to bytes and text). -/
def IdLt (a b : SignedTx) : Prop := a.id.cmp b.id = .lt

/-- `a ≤ b` for identifiers -/
def IdLe (a b : Identifier) : Prop := a.cmp b = .lt ∨ a = b

end CB.Spec
