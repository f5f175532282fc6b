import Verif.Model.Messages
import Verif.Spec.Errors
/-!
# Specification vocabulary: messages
-/

namespace CB.Spec

/-- The texts that cryptid has for its errors differ from each other, and from what the code itself says in their place when votes differ. -/
def Distinct (T : Texts) : Prop := (∀ e e', T.crypto e = T.crypto e' → e = e') ∧ ∀ e, T.crypto e ≠ str "decrypted vote mismatch"

/-- The end-to-end command, given these transactions by the node, prints this message and exits. -/
def Prints (E : Env) (T : Texts) (txs : List SignedTx) (message : Str) : Prop := ∃ x, E2e.verify E txs = .err x ∧ x.message T = message

/-- The Sawtooth processor refuses this transaction in this state with this message. -/
def Answers (E : Env) (T : Texts) (pre : Str) (s : Sawtooth.State) (t : SignedTx) (message : Str) : Prop :=
  ∃ x, Sawtooth.validateTransaction E pre s t = .err x ∧ x.message T t = message

end CB.Spec
