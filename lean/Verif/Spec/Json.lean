import Verif.Spec.Serde
import Verif.Model.Json
/-!
# What JSON text can carry
-/

namespace CB
namespace Spec

/-- The values that JSON text carries faithfully, nested at most `d` containers deep: no byte strings, no fractional numbers, negative numbers from -2^63 on, UTF-8 strings. -/
inductive JsonFits : Nat → Cbor → Prop
  | uint {d n} : JsonFits d (.uint n)
  | nint {d n} : n.toNat < 2 ^ 63 → JsonFits d (.nint n)
  | text {d s} : validUtf8 s = true → JsonFits d (.text s)
  | bool {d b} : JsonFits d (.bool b)
  | null {d} : JsonFits d .null
  | array {d l} : (∀ c ∈ l, JsonFits d c) → JsonFits (d + 1) (.array l)
  | map {d l} : (∀ e ∈ l, validUtf8 e.1 = true) → (∀ e ∈ l, JsonFits d e.2) → JsonFits (d + 1) (.map l)

/-- The application-specific properties of a transaction (only elections have any). -/
def propertiesOf : SignedTx → List Properties
  | .election s => s.tx.properties :: s.tx.ballots.map Ballot.properties ++
      s.tx.contests.flatMap fun c => c.properties :: c.candidates.map Candidate.properties
  | _ => []

/-- The application-specific properties of the transaction can be carried by JSON text: values nested at most `d` deep. -/
def JsonProperties (d : Nat) (t : SignedTx) : Prop := ∀ p ∈ propertiesOf t, ∀ e ∈ p.entries, JsonFits d e.2.val

end Spec
end CB
