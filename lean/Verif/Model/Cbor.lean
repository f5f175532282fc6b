import Verif.Model.Basic
/-!
# CBOR values and their encoding (`serde_cbor::to_vec`), as used by transaction.rs:124-126, 220-222 and authn.rs:160-162

`serde_cbor` is third-party; what is modelled is RFC 7049 encoding with minimal-length heads, definite lengths, text-keyed
maps and floating point numbers in the shortest format that holds them, which is what `serde_cbor::to_vec` emits for the derived
`Serialize` implementations of this code base.
-/

namespace CB

/-- A CBOR data item.  Map keys are text strings: all structs and all `IndexMap<String, _>` serialize so, and
`IndexMap<u8, _>` goes through `serde_seq` (keygen.rs:30) as an array of pairs.  `nint n` is the number -1 - n.  Floats (possible inside
application-specific `properties`) are carried as the 64 bits of the `f64`. -/
inductive Cbor where
  | uint (n : UInt64)
  | nint (n : UInt64)
  | bytes (b : Bytes)
  | text (s : Str)
  | array (l : List Cbor)
  | map (l : List (Str × Cbor))
  | bool (b : Bool)
  | null
  | float (bits : UInt64)
  deriving Repr

/-- Big-endian bytes of `n` on `k` bytes. (used by serde_cbor::to_vec, cryptoballot/src/transaction.rs:125, 221.) -/
def beBytes : Nat → Nat → Bytes
  | 0, _ => []
  | k + 1, n => UInt8.ofNat (n / 256 ^ k) :: beBytes k n

/-- The initial byte and argument of a CBOR item: major type `m` (0..7) and argument `n < 2^64`, shortest form.
(used by serde_cbor::to_vec, cryptoballot/src/transaction.rs:125, 221.) -/
def cborHead (m : Nat) (n : Nat) : Bytes :=
  if n < 24 then [UInt8.ofNat (m * 32 + n)]
  else if n < 256 then UInt8.ofNat (m * 32 + 24) :: beBytes 1 n
  else if n < 65536 then UInt8.ofNat (m * 32 + 25) :: beBytes 2 n
  else if n < 4294967296 then UInt8.ofNat (m * 32 + 26) :: beBytes 4 n
  else UInt8.ofNat (m * 32 + 27) :: beBytes 8 n

/-- `f64::from(f32)` and `f64::from(f16)` on bit patterns: the double of the number whose sign, exponent (`eb` bits) and mantissa (`mb` bits) are those of `n`.
Third-party (IEEE 754), `eb, mb` is `8, 23` or `5, 10`. (for numbers in `properties`, cryptoballot/src/election.rs:48.) -/
def widenFloat (eb mb n : Nat) : Nat :=
  let sign := n / 2 ^ (eb + mb) * 2 ^ 63
  let e := n / 2 ^ mb % 2 ^ eb
  let m := n % 2 ^ mb
  let bias := 2 ^ (eb - 1) - 1
  if e = 2 ^ eb - 1 then sign + 2047 * 2 ^ 52 + m * 2 ^ (52 - mb)
  else if e ≠ 0 then sign + (e + 1023 - bias) * 2 ^ 52 + m * 2 ^ (52 - mb)
  else if m = 0 then sign
  else sign + (m.log2 + 1024 - bias - mb) * 2 ^ 52 + (m - 2 ^ m.log2) * 2 ^ (52 - m.log2)

/-- The bits of the shorter float with the sign, exponent and leading mantissa bits of the double `x`. (for numbers in `properties`, cryptoballot/src/election.rs:48.) -/
def truncateFloat (eb mb x : Nat) : Nat :=
  let sign := x / 2 ^ 63 * 2 ^ (eb + mb)
  let e := x / 2 ^ 52 % 2048
  let m := x % 2 ^ 52
  let bias := 2 ^ (eb - 1) - 1
  if e = 0 then sign + m
  else if 1023 < e + bias then sign + (e + bias - 1023) * 2 ^ mb + m / 2 ^ (52 - mb)
  else sign + (2 ^ 52 + m) / 2 ^ (1076 - bias - mb - e)

/-- The shorter float that the double `x` is equal to, if there is one (`f64::from(x as f32) == x`, serde_cbor's `serialize_f64`; the same for `f16`). -/
def narrowFloat (eb mb x : Nat) : Option Nat :=
  if truncateFloat eb mb x < 2 ^ (eb + mb + 1) ∧ widenFloat eb mb (truncateFloat eb mb x) = x then some (truncateFloat eb mb x) else none

/-- Neither infinite nor not a number. (for numbers in `properties`, cryptoballot/src/election.rs:48.) -/
def finiteFloat (bits : UInt64) : Bool := bits.toNat / 2 ^ 52 % 2048 != 2047

/-- `serialize_f64`: the shortest format; infinities and not-a-number have one form each. (for numbers in `properties`, cryptoballot/src/election.rs:48.) -/
def encodeFloat (bits : UInt64) : Bytes :=
  if finiteFloat bits then
    match narrowFloat 5 10 bits.toNat with
    | some h => 0xf9 :: beBytes 2 h
    | none =>
      match narrowFloat 8 23 bits.toNat with
      | some w => 0xfa :: beBytes 4 w
      | none => 0xfb :: beBytes 8 bits.toNat
  else if bits.toNat % 2 ^ 52 ≠ 0 then [0xf9, 0x7e, 0x00]
  else if bits.toNat / 2 ^ 63 = 0 then [0xf9, 0x7c, 0x00]
  else [0xf9, 0xfc, 0x00]

mutual
/-- `serde_cbor::to_vec`. -/
def Cbor.encode : Cbor → Bytes
  | .uint n => cborHead 0 n.toNat
  | .nint n => cborHead 1 n.toNat
  | .bytes b => cborHead 2 b.length ++ b
  | .text s => cborHead 3 s.length ++ s
  | .array l => cborHead 4 l.length ++ Cbor.encodeList l
  | .map l => cborHead 5 l.length ++ Cbor.encodeMap l
  | .bool b => [if b then 0xf5 else 0xf4]
  | .null => [0xf6]
  | .float bits => encodeFloat bits

/-- The items of an array, in order. (serde_cbor::to_vec, cryptoballot/src/transaction.rs:125, 221.) -/
def Cbor.encodeList : List Cbor → Bytes
  | [] => []
  | c :: cs => c.encode ++ Cbor.encodeList cs

/-- The entries of a map, key then value, in insertion order. (serde_cbor::to_vec, cryptoballot/src/transaction.rs:125, 221.) -/
def Cbor.encodeMap : List (Str × Cbor) → Bytes
  | [] => []
  | (k, v) :: es => (cborHead 3 k.length ++ k) ++ v.encode ++ Cbor.encodeMap es
end

mutual
/-- The items that stand for a `serde_json::Value`: no byte strings, negative numbers from -2^63 on, finite floats, no key twice in a map. -/
def Cbor.isJson : Cbor → Bool
  | .nint n => decide (n.toNat < 2 ^ 63)
  | .bytes _ => false
  | .array l => Cbor.isJsonList l
  | .map l => decide (l.map Prod.fst).Nodup && Cbor.isJsonMap l
  | .float bits => finiteFloat bits
  | _ => true

/-- The elements of an array. (`serde_json::Value`, cryptoballot/src/election.rs:48.) -/
def Cbor.isJsonList : List Cbor → Bool
  | [] => true
  | c :: cs => c.isJson && Cbor.isJsonList cs

/-- The values of a map. (`serde_json::Value`, cryptoballot/src/election.rs:48.) -/
def Cbor.isJsonMap : List (Str × Cbor) → Bool
  | [] => true
  | (_, v) :: es => v.isJson && Cbor.isJsonMap es
end

/-- `serde_json::Value` (with `preserve_order`, cryptoballot/Cargo.toml:49-51), by the item it serializes to. -/
def JsonValue : Type := { c : Cbor // c.isJson = true }

instance : Repr JsonValue := ⟨fun v => reprPrec v.val⟩

end CB
