import Verif.Model.Decode
/-!
# Which CBOR values stand for Rust values
-/

namespace CB

/-- A Rust string: well-formed UTF-8, with a length that fits a `u64`. -/
def Spec.IsText (s : Str) : Prop := validUtf8 s = true ∧ s.length < 2 ^ 64

/-- Values of Rust data: texts are Rust strings, lengths fit a `u64`, negative numbers an `i64`, and containers nest at most `d` deep (serde_cbor reads at most 127 levels; only the
application-specific JSON `properties` can nest deeper than 8, and only they can hold negative numbers and floats, which are finite in JSON). -/
inductive Spec.Fits : Nat → Cbor → Prop
  | uint {d n} : Fits d (.uint n)
  | nint {d} {n : UInt64} : n.toNat < 2 ^ 63 → Fits d (.nint n)
  | bool {d b} : Fits d (.bool b)
  | null {d} : Fits d .null
  | float {d} {n : UInt64} : finiteFloat n = true → Fits d (.float n)
  | bytes {d} {b : Bytes} : b.length < 2 ^ 64 → Fits d (.bytes b)
  | text {d} {s : Str} : IsText s → Fits d (.text s)
  | array {d} {l : List Cbor} : l.length < 2 ^ 64 → (∀ c ∈ l, Fits d c) → Fits (d + 1) (.array l)
  | map {d} {l : List (Str × Cbor)} : l.length < 2 ^ 64 → (∀ e ∈ l, IsText e.1) → (∀ e ∈ l, Fits d e.2) → Fits (d + 1) (.map l)

end CB
