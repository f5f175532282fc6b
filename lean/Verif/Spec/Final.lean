import Verif.Spec.Ledger
import Verif.Model.Validate
/-!
# Specification vocabulary: refusals that are not final
-/

namespace CB.Spec

/-- The reasons that what is stored later can remove: a transaction is refused because something that has to be there first is not there yet, or (the
last four) because of which votes or public keys are there. -/
def Passing : ValErr → Prop
  | .transactionNotFound _ _ => True
  | .encryptionKeyTransactionDoesNotExist => True
  | .missingVotingEndTransaction => True
  | .missingPrevMixTransaction => True
  | .wrongNumberOfPublicKeyTransactions => True
  | .mixWrongNumberOfVotes => True
  | .voteDecryptionFailed _ => True
  | .voteDecodingError => True
  | .voteDecryptionMismatch => True
  | _ => False

/-- A transaction is refused for this reason by a ledger, and accepted when the ledger has grown. -/
def PassesAway (e : ValErr) : Prop :=
  ∃ (E : Env) (m m' : MemStore) (t : SignedTx), Ledger E m ∧ LedgerSteps E m m' ∧ t.validate E m.toStore = .err e ∧ t.validate E m'.toStore = .ok ()

end CB.Spec
