import Verif.Spec.JsonText
import Verif.Model.Types
/-!
# Which bytes are a selection (protocol buffers)

Written from the description of the encoding, not from the decoder.
-/

namespace CB.Spec

/-- A number in base 128, the least significant digit first; every digit but the last is marked by the top bit. -/
inductive Base128 : Bytes → Nat → Prop
  | last {b : UInt8} : b.toNat < 128 → Base128 [b] b.toNat
  | more {b : UInt8} {t : Bytes} {n : Nat} : 128 ≤ b.toNat → Base128 t n → Base128 (b :: t) (b.toNat - 128 + 128 * n)

/-- A varint: at most ten such digits, of which the lowest 64 bits count. -/
def Varint (t : Bytes) (n : Nat) : Prop := t.length ≤ 10 ∧ ∃ m, Base128 t m ∧ n = m % 2 ^ 64

/-- The number and the wire type of a field. -/
def FieldKey (t : Bytes) (field wire : Nat) : Prop := Varint t (8 * field + wire) ∧ 0 < field ∧ wire ≤ 5 ∧ 8 * field + wire < 2 ^ 32

/-- Bytes with their number before them. -/
inductive Sized : Bytes → Bytes → Prop
  | mk {l b : Bytes} : Varint l b.length → Sized (l ++ b) b

/-- Fields in a group. -/
inductive Fields (P : Nat → Nat → Bytes → Prop) : Bytes → Prop
  | nil : Fields P []
  | cons {k t u : Bytes} {field wire : Nat} : FieldKey k field wire → P wire field t → Fields P u → Fields P (k ++ (t ++ u))

/-- The content of a field that means nothing, by its wire type. -/
inductive Content (P : Nat → Nat → Bytes → Prop) : Nat → Nat → Bytes → Prop
  | number {field n : Nat} {t : Bytes} : Varint t n → Content P 0 field t
  | eight {field : Nat} {t : Bytes} : t.length = 8 → Content P 1 field t
  | sized {field : Nat} {t b : Bytes} : Sized t b → Content P 2 field t
  | group {field : Nat} {t e : Bytes} : Fields P t → FieldKey e field 4 → Content P 3 field (t ++ e)
  | four {field : Nat} {t : Bytes} : t.length = 4 → Content P 5 field t

/-- The same with groups nested less than so deep. -/
def Ignored : Nat → Nat → Nat → Bytes → Prop
  | 0 => fun _ _ _ => False
  | d + 1 => Content (Ignored d)

/-- A field of a selection, and what it sets. -/
inductive Sets : Bytes → (Selection → Selection) → Prop
  | writeIn {k t : Bytes} {n : Nat} : FieldKey k 1 0 → Varint t n → Sets (k ++ t) fun s => { s with writeIn := decide (n ≠ 0) }
  | score {k t : Bytes} {n : Nat} : FieldKey k 2 0 → Varint t n → Sets (k ++ t) fun s => { s with score := UInt32.ofNat n }
  | selection {k t : Bytes} {b : Str} : FieldKey k 3 2 → Sized t b → Utf8 b → Sets (k ++ t) fun s => { s with selection := b }
  | unknown {k t : Bytes} {field wire : Nat} : FieldKey k field wire → 3 < field → Ignored 100 wire field t → Sets (k ++ t) id

/-- The fields, one after another, turn the one selection into the other. -/
inductive Updates : Selection → Bytes → Selection → Prop
  | nil {s : Selection} : Updates s [] s
  | cons {s s' : Selection} {t u : Bytes} {f : Selection → Selection} : Sets t f → Updates (f s) u s' → Updates s (t ++ u) s'

/-- The bytes say the selection: fields not given are false, zero and empty, and of several with one number the last counts. -/
def Says (bs : Bytes) (s : Selection) : Prop := Updates ⟨false, 0, []⟩ bs s

end CB.Spec
