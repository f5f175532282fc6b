import Verif.Model.Identifier
/-!
# Specification vocabulary: hexadecimal text and identifier order

Written from the meaning of the words, not from the model's encoder/decoder.
-/

namespace CB.Spec

/-- The character (byte) `c` is the hexadecimal digit with value `n`, in either case. -/
def HexDigitOf (c : UInt8) (n : Nat) : Prop :=
  ∃ h : n < 16, c = (str "0123456789abcdef")[n]'(by simpa [str] using h) ∨ c = (str "0123456789ABCDEF")[n]'(by simpa [str] using h)

/-- The text `s` spells the bytes `b`, two hexadecimal digits per byte, high digit first, either case. -/
inductive HexOf : Str → Bytes → Prop
  | nil : HexOf [] []
  | cons {c d : UInt8} {hi lo : Nat} {s : Str} {bs : Bytes} :
      HexDigitOf c hi → HexDigitOf d lo → HexOf s bs → HexOf (c :: d :: s) (UInt8.ofNat (16 * hi + lo) :: bs)

/-- `c` is one of `0`-`9`, `a`-`f`. -/
def LowerHexChar (c : UInt8) : Prop := c ∈ str "0123456789abcdef"

/-- Lexicographic strict order of byte strings of any length. -/
def BytesLt (a b : Bytes) : Prop := List.Lex (· < ·) a b

/-- The 32 bytes of an identifier, position by position. -/
def IsArrayOf (b : Bytes) (i : Identifier) : Prop :=
  b.length = 32 ∧ (∀ k (h : k < 15), b[k]? = some (i.electionId.val[k]'(by rw [i.electionId.property]; exact h))) ∧
  b[15]? = some i.txType.toU8 ∧
  (∀ k (h : k < 16), b[16 + k]? = some (i.uniqueInfo.val[k]'(by rw [i.uniqueInfo.property]; exact h)))

end CB.Spec
