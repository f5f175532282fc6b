import Verif.Model.Network
/-!
# Specification vocabulary: the secrets that a trustee derives from its key, election by election
-/

namespace CB.Spec

/-- How 32 secret bytes are derived: from a salt, secret material, and the name of a purpose (HKDF). -/
abbrev Derivation := (salt material purpose : Bytes) → BArr 32

/-- The same node, except that its secrets are derived another way. -/
def derivingBy (N : NodeEnv) (derive : Derivation) : NodeEnv := { N with hkdf := derive }

/-- Two ways to derive secrets give the same secrets for an election. -/
def SameSecretsFor (election : Identifier) (derive derive' : Derivation) : Prop :=
  ∀ material purpose, derive election.toArray material purpose = derive' election.toArray material purpose

end CB.Spec
