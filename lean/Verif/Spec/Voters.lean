import Mathlib.Data.Finset.Card
import Verif.Spec.Rules
/-!
# Specification vocabulary: what authenticators sign for voters

The repository leaves it to the authenticators to find out who a voter is and to sign once for each of them (README, authn.rs:57-75 signs whatever
it is given).  The vocabulary says what honest authenticators did.
-/

namespace CB.Spec

/-- What each authenticator of an election signed for each voter: nothing, or one ballot id together with one voting key. -/
abbrev Signatures (Voter : Type) := Uuid → Voter → Option (Str × PublicKey)

/-- No signature on the ledger is forged: whatever authentication of a vote checks as one by an authenticator of the election was made by that
authenticator for one of the voters. -/
def NotForged {Voter : Type} (E : Env) (S : Store) (e : ElectionTx) (voters : Finset Voter) (made : Signatures Voter) : Prop :=
  ∀ v : Signed VoteTx, InStore S (.vote v) → v.tx.election = e.id → ∀ a ∈ v.tx.authentication,
    AuthenticatedBy E e v.tx.ballotId v.tx.anonymousKey a → ∃ voter ∈ voters, made a.authenticator voter = some (v.tx.ballotId, v.tx.anonymousKey)

/-- The vote carries the signatures of as many different authenticators of the election as the election requires. -/
def FullyAuthenticated (E : Env) (e : ElectionTx) (v : VoteTx) : Prop :=
  ∃ as : List Authentication, (∀ a ∈ as, a ∈ v.authentication) ∧ (as.map (·.authenticator)).Nodup ∧ e.authenticatorsThreshold.toNat ≤ as.length ∧
    ∀ a ∈ as, AuthenticatedBy E e v.ballotId v.anonymousKey a

/-- `l` is a list of different votes in the election, all on the ledger. -/
def VotesIn (S : Store) (e : ElectionTx) (l : List (Signed VoteTx)) : Prop :=
  l.Nodup ∧ ∀ v ∈ l, InStore S (.vote v) ∧ v.tx.election = e.id

end CB.Spec
