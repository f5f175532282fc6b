import Verif.Spec.Cbor
/-!
# Which byte strings encode which CBOR items (RFC 7049)
-/

namespace CB
namespace Spec

/-- The number that the bytes stand for, most significant byte first. -/
def bigEndian (b : Bytes) : Nat := b.foldl (fun acc x => acc * 256 + x.toNat) 0

/-- The bytes are an initial byte of major type `m` with the argument `n`, in one of the five widths (not only the shortest). -/
inductive Head (m n : Nat) : Bytes → Prop
  | short : n < 24 → Head m n [UInt8.ofNat (32 * m + n)]
  | one {a : Bytes} : a.length = 1 → bigEndian a = n → Head m n (UInt8.ofNat (32 * m + 24) :: a)
  | two {a : Bytes} : a.length = 2 → bigEndian a = n → Head m n (UInt8.ofNat (32 * m + 25) :: a)
  | four {a : Bytes} : a.length = 4 → bigEndian a = n → Head m n (UInt8.ofNat (32 * m + 26) :: a)
  | eight {a : Bytes} : a.length = 8 → bigEndian a = n → Head m n (UInt8.ofNat (32 * m + 27) :: a)

/-- A byte string (major type 2) or text (3) of definite length. -/
inductive Chunk (m : Nat) : Bytes → Bytes → Prop
  | mk {h b : Bytes} : Head m b.length h → Chunk m (h ++ b) b

/-- A string of major type `m`: of definite length, or in any number of chunks between the start byte and a break. -/
inductive StringEnc (m : Nat) : Bytes → Bytes → Prop
  | definite {p b : Bytes} : Chunk m p b → StringEnc m p b
  | chunks {cs : List (Bytes × Bytes)} : (∀ c ∈ cs, Chunk m c.1 c.2) → cs.length < 2 ^ 64 → (cs.map Prod.snd).flatten.length < 2 ^ 64 →
      StringEnc m (UInt8.ofNat (32 * m + 31) :: ((cs.map Prod.fst).flatten ++ [0xff])) (cs.map Prod.snd).flatten

/-- The bytes encode the item, in at most `d` levels of arrays, maps and tags: any width of lengths and numbers, definite or indefinite lengths, tags anywhere, floats in any of the
three formats. -/
inductive Encodes : Nat → Bytes → Cbor → Prop
  | uint {d h n} : Head 0 n h → Encodes d h (.uint (UInt64.ofNat n))
  | nint {d h n} : Head 1 n h → n < 2 ^ 63 → Encodes d h (.nint (UInt64.ofNat n))
  | bytes {d p b} : StringEnc 2 p b → Encodes d p (.bytes b)
  | text {d p s} : StringEnc 3 p s → validUtf8 s = true → Encodes d p (.text s)
  | array {d h} {ps : List (Bytes × Cbor)} : Head 4 ps.length h → (∀ x ∈ ps, Encodes d x.1 x.2) →
      Encodes (d + 1) (h ++ (ps.map Prod.fst).flatten) (.array (ps.map Prod.snd))
  | openArray {d} {ps : List (Bytes × Cbor)} : ps.length < 2 ^ 64 → (∀ x ∈ ps, Encodes d x.1 x.2) →
      Encodes (d + 1) (0x9f :: ((ps.map Prod.fst).flatten ++ [0xff])) (.array (ps.map Prod.snd))
  | map {d h} {ps : List ((Bytes × Bytes) × (Str × Cbor))} : Head 5 ps.length h → (∀ x ∈ ps, StringEnc 3 x.1.1 x.2.1 ∧ validUtf8 x.2.1 = true) →
      (∀ x ∈ ps, Encodes d x.1.2 x.2.2) → Encodes (d + 1) (h ++ (ps.map fun x => x.1.1 ++ x.1.2).flatten) (.map (ps.map Prod.snd))
  | openMap {d} {ps : List ((Bytes × Bytes) × (Str × Cbor))} : ps.length < 2 ^ 64 → (∀ x ∈ ps, StringEnc 3 x.1.1 x.2.1 ∧ validUtf8 x.2.1 = true) →
      (∀ x ∈ ps, Encodes d x.1.2 x.2.2) → Encodes (d + 1) (0xbf :: ((ps.map fun x => x.1.1 ++ x.1.2).flatten ++ [0xff])) (.map (ps.map Prod.snd))
  | tag {d h n p c} : Head 6 n h → Encodes d p c → Encodes (d + 1) (h ++ p) c
  | false {d} : Encodes d [0xf4] (.bool false)
  | true {d} : Encodes d [0xf5] (.bool true)
  | null {d} : Encodes d [0xf6] .null
  | undefined {d} : Encodes d [0xf7] .null
  | half {d} {a : Bytes} : a.length = 2 → Encodes d (0xf9 :: a) (.float (UInt64.ofNat (widenFloat 5 10 (bigEndian a))))
  | single {d} {a : Bytes} : a.length = 4 → Encodes d (0xfa :: a) (.float (UInt64.ofNat (widenFloat 8 23 (bigEndian a))))
  | double {d} {a : Bytes} : a.length = 8 → Encodes d (0xfb :: a) (.float (UInt64.ofNat (bigEndian a)))

end Spec
end CB
