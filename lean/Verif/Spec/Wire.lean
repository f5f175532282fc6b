import Verif.Spec.Selection
import Verif.Model.Exonum
/-!
# Which bytes are a submission (protocol buffers)

Written from the description of the encoding, not from the decoder.
-/

namespace CB.Spec.Wire
open Exonum (Envelope)

/-- Number and wire type of a field; of the number that holds both, 32 bits count. -/
def Tag (t : Bytes) (field wire : Nat) : Prop := ∃ v, Varint t v ∧ v % 2 ^ 32 = 8 * field + wire ∧ 0 < field ∧ wire ≤ 5

/-- Bytes with their number before them, of which 32 bits count. -/
inductive Sized32 : Bytes → Bytes → Prop
  | mk {l b : Bytes} {n : Nat} : Varint l n → n % 2 ^ 32 = b.length → Sized32 (l ++ b) b

/-- The content of a field that means nothing, by its wire type. -/
inductive Skipped : Nat → Bytes → Prop
  | number {n : Nat} {t : Bytes} : Varint t n → Skipped 0 t
  | eight {t : Bytes} : t.length = 8 → Skipped 1 t
  | sized {t b : Bytes} : Sized32 t b → Skipped 2 t
  | four {t : Bytes} : t.length = 4 → Skipped 5 t

/-- Fields, one after another, turn the one value into the other. -/
inductive Changes {α : Type} (S : Bytes → (α → α) → Prop) : α → Bytes → α → Prop
  | nil {a : α} : Changes S a [] a
  | cons {a a' : α} {t u : Bytes} {f : α → α} : S t f → Changes S (f a) u a' → Changes S a (t ++ u) a'

/-- A field of a message that holds a key, and what it does to the key. -/
inductive SetsKey : Bytes → (Bytes → Bytes) → Prop
  | data {k t b : Bytes} : Tag k 1 2 → Sized32 t b → SetsKey (k ++ t) fun _ => b
  | unknown {k t : Bytes} {field wire : Nat} : Tag k field wire → 1 < field → Skipped wire t → SetsKey (k ++ t) id

/-- The key that a message holds: empty if none is given, the last if several are. -/
def HoldsKey (bs key : Bytes) : Prop := Changes SetsKey [] bs key

/-- Key, label and content of a submission. -/
structure Parts where
  key : Bytes
  label : Bytes
  content : Bytes

/-- A field of a submission, and what it does to the parts. -/
inductive SetsPart : Bytes → (Parts → Parts) → Prop
  | key {k t b x : Bytes} : Tag k 1 2 → Sized t b → HoldsKey b x → SetsPart (k ++ t) fun p => { p with key := x }
  | label {k t b : Bytes} : Tag k 2 2 → Sized32 t b → Utf8 b → SetsPart (k ++ t) fun p => { p with label := b }
  | content {k t b : Bytes} : Tag k 3 2 → Sized32 t b → SetsPart (k ++ t) fun p => { p with content := b }
  | unknown {k t : Bytes} {field wire : Nat} : Tag k field wire → 3 < field → Skipped wire t → SetsPart (k ++ t) id

/-- The bytes say the submission: parts not given are empty, and of several the last counts. -/
def Says (bs : Bytes) (e : Envelope) : Prop := Changes SetsPart ⟨[], [], []⟩ bs ⟨e.pubKey.val, e.id, e.data⟩

end CB.Spec.Wire
