import Verif.Spec.Text
import Verif.Model.Cbor
/-!
# Which text is JSON for which value (RFC 8259)

Written from the grammar in the RFC, not from the reader.  Numbers with a fraction or an exponent, or beyond 64 bits, are left out: they are not modelled.
-/

namespace CB.Spec

/-- Well-formed UTF-8: characters in Lean's own encoding, one after another. -/
def Utf8 (s : Bytes) : Prop := ∃ l : List Char, s = l.flatMap String.utf8EncodeChar

/-- JSON's white space: spaces, line feeds, carriage returns and tabs. -/
def White (w : Bytes) : Prop := ∀ b ∈ w, b ∈ str " \n\r\t"

/-- Four hexadecimal digits. -/
inductive Hex4 : Bytes → Nat → Prop
  | mk {a b c d : UInt8} {i j k l : Nat} : HexDigitOf a i → HexDigitOf b j → HexDigitOf c k → HexDigitOf d l → Hex4 [a, b, c, d] (4096 * i + 256 * j + 16 * k + l)

/-- What may follow a backslash, and the bytes it stands for: a short escape, a character by its number, or a surrogate pair. -/
inductive Escape : Bytes → Bytes → Prop
  | short {b c : UInt8} : (b, c) ∈ ([(0x22, 0x22), (0x5c, 0x5c), (0x2f, 0x2f), (0x62, 0x08), (0x66, 0x0c), (0x6e, 0x0a), (0x72, 0x0d), (0x74, 0x09)] : List (UInt8 × UInt8)) →
      Escape [b] [c]
  | unicode {h : Bytes} {n : Nat} : Hex4 h n → n.isValidChar → Escape (0x75 :: h) (String.utf8EncodeChar (Char.ofNat n))
  | pair {h h' : Bytes} {m n : Nat} : Hex4 h (0xd800 + m) → m < 1024 → Hex4 h' (0xdc00 + n) → n < 1024 →
      Escape (0x75 :: (h ++ 0x5c :: 0x75 :: h')) (String.utf8EncodeChar (Char.ofNat (0x10000 + 1024 * m + n)))

/-- What stands between quotes, and the bytes it stands for: everything but quotes, backslashes and control characters stands for itself. -/
inductive Chars : Bytes → Bytes → Prop
  | nil : Chars [] []
  | plain {b : UInt8} {t s : Bytes} : b ≠ 0x22 → b ≠ 0x5c → 0x20 ≤ b → Chars t s → Chars (b :: t) (b :: s)
  | escape {e c t s : Bytes} : Escape e c → Chars t s → Chars (0x5c :: (e ++ t)) (c ++ s)

/-- A string in quotes. -/
inductive Quoted : Bytes → Str → Prop
  | mk {t : Bytes} {s : Str} : Chars t s → Utf8 s → Quoted (0x22 :: (t ++ [0x22])) s

/-- Decimal digits without leading zeros. -/
inductive Decimal : Bytes → Nat → Prop
  | digit {d : Nat} : d < 10 → Decimal [UInt8.ofNat (48 + d)] d
  | more {ds : Bytes} {n d : Nat} : Decimal ds n → 0 < n → d < 10 → Decimal (ds ++ [UInt8.ofNat (48 + d)]) (10 * n + d)

/-- Items separated by commas, with white space around each. -/
inductive Commas {α : Type} (P : Bytes → α → Prop) : Bytes → List α → Prop
  | one {w t w' : Bytes} {a : α} : White w → P t a → White w' → Commas P (w ++ (t ++ w')) [a]
  | more {w t w' u : Bytes} {a : α} {l : List α} : White w → P t a → White w' → Commas P u l → Commas P (w ++ (t ++ (w' ++ 0x2c :: u))) (a :: l)

/-- A name and a value with a colon between them. -/
inductive Member (P : Bytes → Cbor → Prop) : Bytes → Str × Cbor → Prop
  | mk {k w w' t : Bytes} {s : Str} {c : Cbor} : Quoted k s → White w → White w' → P t c → Member P (k ++ (w ++ 0x3a :: (w' ++ t))) (s, c)

/-- Values without others inside. -/
inductive SimpleValue : Bytes → Cbor → Prop
  | null : SimpleValue (str "null") .null
  | true : SimpleValue (str "true") (.bool true)
  | false : SimpleValue (str "false") (.bool false)
  | number {ds : Bytes} {n : Nat} : Decimal ds n → n < 2 ^ 64 → SimpleValue ds (.uint (UInt64.ofNat n))
  | negative {ds : Bytes} {n : Nat} : Decimal ds (n + 1) → n < 2 ^ 63 → SimpleValue (0x2d :: ds) (.nint (UInt64.ofNat n))
  | text {t : Bytes} {s : Str} : Quoted t s → SimpleValue t (.text s)

/-- Arrays and objects of values of the given kind. -/
inductive Container (P : Bytes → Cbor → Prop) : Bytes → Cbor → Prop
  | emptyArray {w : Bytes} : White w → Container P (0x5b :: (w ++ [0x5d])) (.array [])
  | array {t : Bytes} {l : List Cbor} : Commas P t l → Container P (0x5b :: (t ++ [0x5d])) (.array l)
  | emptyObject {w : Bytes} : White w → Container P (0x7b :: (w ++ [0x7d])) (.map [])
  | object {t : Bytes} {l : List (Str × Cbor)} : Commas (Member P) t l → Container P (0x7b :: (t ++ [0x7d])) (.map l)

/-- The text is JSON for the value, with arrays and objects nested at most this deep. -/
def JsonText : Nat → Bytes → Cbor → Prop
  | 0 => SimpleValue
  | d + 1 => fun t c => SimpleValue t c ∨ Container (JsonText d) t c

/-- The same with white space around it. -/
def JsonDocument (bs : Bytes) (c : Cbor) : Prop := ∃ w t w', White w ∧ White w' ∧ JsonText 127 t c ∧ bs = w ++ t ++ w'

/-- What is cut off around the content of a file: white space, vertical tabs and form feeds. -/
def Blank (w : Bytes) : Prop := ∀ b ∈ w, b ∈ str " \n\r\t" ∨ b = 0x0b ∨ b = 0x0c

end CB.Spec
