import Verif.Model.Types
/-!
# Protobuf form of a selection (`prost`, ballot.rs:169-187; used in vote.rs:164-167 and decryption.rs:381)

`#[derive(Message)]` with `bool`, `uint32`, `string` gives fields 1, 2, 3.  prost is third-party (version 0.7.0): what is modelled is its decoder for such a message, with
fields of other numbers skipped (also the deprecated groups, up to its recursion limit).  A tenth varint byte is taken modulo 2^64, as prost 0.7 does.
-/

namespace CB

/-- Well-formed UTF-8 (Unicode table 3-7), `str::from_utf8(..).is_ok()`. (used by `encode`/`decode` of `Selection`, ballot.rs:169-187.) -/
def validUtf8 : Bytes → Bool
  | [] => true
  | b0 :: rest =>
    if b0 < 0x80 then validUtf8 rest
    else match rest with
      | b1 :: r1 =>
        if 0xC2 ≤ b0 ∧ b0 ≤ 0xDF then (0x80 ≤ b1 && b1 ≤ 0xBF) && validUtf8 r1
        else match r1 with
          | b2 :: r2 =>
            if 0xE0 ≤ b0 ∧ b0 ≤ 0xEF then
              ((if b0 = 0xE0 then 0xA0 ≤ b1 else 0x80 ≤ b1) && (if b0 = 0xED then b1 ≤ 0x9F else b1 ≤ 0xBF)
                && (0x80 ≤ b2 && b2 ≤ 0xBF)) && validUtf8 r2
            else match r2 with
              | b3 :: r3 =>
                ((0xF0 ≤ b0 && b0 ≤ 0xF4) && (if b0 = 0xF0 then 0x90 ≤ b1 else 0x80 ≤ b1)
                  && (if b0 = 0xF4 then b1 ≤ 0x8F else b1 ≤ 0xBF)
                  && (0x80 ≤ b2 && b2 ≤ 0xBF) && (0x80 ≤ b3 && b3 ≤ 0xBF)) && validUtf8 r3
              | [] => false
          | [] => false
      | [] => false

/-- `prost::encoding::encode_varint`, at most `fuel` bytes. (used by `encode`/`decode` of `Selection`, ballot.rs:169-187.) -/
def varintEnc : Nat → Nat → Bytes
  | 0, _ => []
  | f + 1, n => if n < 128 then [UInt8.ofNat n] else UInt8.ofNat (n % 128 + 128) :: varintEnc f (n / 128)

/-- varint of a `u64`. (used by `encode`/`decode` of `Selection`, ballot.rs:169-187.) -/
def encodeVarint (n : Nat) : Bytes := varintEnc 10 n

/-- `prost::encoding::decode_varint`, at most `fuel` bytes. (used by `encode`/`decode` of `Selection`, ballot.rs:169-187.) -/
def varintDec : Nat → Bytes → Option (Nat × Bytes)
  | 0, _ => none
  | _ + 1, [] => none
  | f + 1, b :: bs =>
    if b < 128 then some (b.toNat, bs)
    else match varintDec f bs with
      | some (v, r) => some (b.toNat - 128 + 128 * v, r)
      | none => none

/-- varint modulo 2^64. (used by `encode`/`decode` of `Selection`, ballot.rs:169-187.) -/
def decodeVarint (bs : Bytes) : Option (Nat × Bytes) :=
  (varintDec 10 bs).map fun (v, r) => (v % 2 ^ 64, r)

namespace Selection

/-- `Selection::encode` (prost): default values are omitted. (ballot.rs:169-187, called in vote.rs:164-168.) -/
def encode (s : Selection) : Bytes :=
  (if s.writeIn then [0x08, 0x01] else []) ++
  (if s.score = 0 then [] else 0x10 :: encodeVarint s.score.toNat) ++
  (if s.selection = [] then [] else 0x1a :: encodeVarint s.selection.length ++ s.selection)

/-- `n` bytes and the rest, or failure at a short buffer. (used by `encode`/`decode` of `Selection`, ballot.rs:169-187.) -/
def takeBytes (n : Nat) (bs : Bytes) : Option (Bytes × Bytes) :=
  if bs.length < n then none else some (bs.take n, bs.drop n)

/-- `prost::encoding::decode_key`: the number and the wire type of a field. (used by `encode`/`decode` of `Selection`, ballot.rs:169-187.) -/
def decodeKey (bs : Bytes) : Option ((Nat × Nat) × Bytes) :=
  match decodeVarint bs with
  | none => none
  | some (key, r) => if key ≥ 2 ^ 32 ∨ key / 8 = 0 ∨ key % 8 > 5 then none else some ((key / 8, key % 8), r)

/-- The fields of a group up to its end, given how to skip a field. Each takes at least one byte. (used by `encode`/`decode` of `Selection`, ballot.rs:169-187.) -/
def skipGroup (skip : Nat → Nat → Bytes → Option Bytes) (tag : Nat) : (fuel : Nat) → Bytes → Option Bytes
  | 0, _ => none
  | f + 1, bs =>
    match decodeKey bs with
    | none => none
    | some ((t, wire), r) =>
      if wire = 4 then (if t = tag then some r else none)
      else match skip wire t r with
        | some r' => skipGroup skip tag f r'
        | none => none

/-- `prost::encoding::skip_field`; `depth` counts down from `RECURSION_LIMIT`. (used by `encode`/`decode` of `Selection`, ballot.rs:169-187.) -/
def skipField : (depth : Nat) → (wire tag : Nat) → Bytes → Option Bytes
  | 0, _, _, _ => none
  | d + 1, wire, tag, bs =>
    match wire with
    | 0 => (decodeVarint bs).map Prod.snd
    | 1 => (takeBytes 8 bs).map Prod.snd
    | 2 => match decodeVarint bs with
      | some (n, r) => (takeBytes n r).map Prod.snd
      | none => none
    | 3 => skipGroup (skipField d) tag (bs.length + 1) bs
    | 5 => (takeBytes 4 bs).map Prod.snd
    | _ => none

/-- One field after its key: `Message::merge_field`. (used by `encode`/`decode` of `Selection`, ballot.rs:169-187.) -/
def mergeField (s : Selection) (tag wire : Nat) (bs : Bytes) : Option (Selection × Bytes) :=
  match tag with
  | 1 => if wire = 0 then (decodeVarint bs).map fun (v, r) => ({ s with writeIn := v != 0 }, r) else none
  | 2 => if wire = 0 then (decodeVarint bs).map fun (v, r) => ({ s with score := UInt32.ofNat v }, r) else none
  | 3 =>
    if wire = 2 then
      match decodeVarint bs with
      | some (n, r) =>
        match takeBytes n r with
        | some (t, r') => if validUtf8 t then some ({ s with selection := t }, r') else none
        | none => none
      | none => none
    else none
  | _ => (skipField 100 wire tag bs).map fun r => (s, r)

/-- `Message::merge`: fields until the buffer is empty.  Each field consumes at least one byte, so `fuel = length` suffices.
(used by `encode`/`decode` of `Selection`, ballot.rs:169-187.) -/
def merge : Nat → Selection → Bytes → Option Selection
  | _, s, [] => some s
  | 0, _, _ :: _ => none
  | f + 1, s, b :: bs =>
    match decodeKey (b :: bs) with
    | none => none
    | some ((tag, wire), r) =>
      match mergeField s tag wire r with
      | some (s', r') => merge f s' r'
      | none => none

/-- `Selection::decode(bytes)`, decryption.rs:381. -/
def decode (bs : Bytes) : Option Selection := merge bs.length ⟨false, 0, []⟩ bs

end Selection
end CB
