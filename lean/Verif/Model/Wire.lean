import Verif.Model.Exonum
import Verif.Model.Selection
/-!
# Submissions and stored entries as bytes (cryptoballot_exonum/src/lib.rs:25-35, src/proto/service.proto)

`#[derive(ProtobufConvert, BinaryValue)]` with `proto::Transaction`, generated for rust-protobuf 2.24.1, which is third-party.  What is modelled is its reader and writer for this
message: keys and sizes of texts and bytes are taken modulo 2^32, a message given again replaces the earlier one, fields of other numbers are skipped.  Simplified: groups, which the third
version of the language does not have, are refused as unknown fields; sizes are written as they are (the crate writes them modulo 2^32).
-/

namespace CB.Exonum
namespace Wire
open Selection (takeBytes)

/-- The message `proto::Transaction` before its key has been checked; `key` is the `data` of `exonum.crypto.PublicKey`. (src/proto/service.proto, lib.rs:26-35.) -/
structure Raw where
  key : Bytes
  id : Bytes
  data : Bytes

/-- `CodedInputStream::read_tag_unpack`: number and wire type of a field. (used by `BinaryValue` of `Transaction`, lib.rs:25-27.) -/
def readTag (bs : Bytes) : Option ((Nat × Nat) × Bytes) :=
  match decodeVarint bs with
  | none => none
  | some (v, r) => if v % 2 ^ 32 / 8 = 0 ∨ v % 8 > 5 then none else some ((v % 2 ^ 32 / 8, v % 8), r)

/-- `read_bytes`: a size and so many bytes. (used by `BinaryValue` of `Transaction`, lib.rs:25-27.) -/
def readBytes (bs : Bytes) : Option (Bytes × Bytes) :=
  match decodeVarint bs with
  | none => none
  | some (n, r) => takeBytes (n % 2 ^ 32) r

/-- `push_limit` of `merge_message`: the bytes of an embedded message. (used by `BinaryValue` of `Transaction`, lib.rs:25-27.) -/
def readMessage (bs : Bytes) : Option (Bytes × Bytes) :=
  match decodeVarint bs with
  | none => none
  | some (n, r) => takeBytes n r

/-- `read_unknown`, dropped. (used by `BinaryValue` of `Transaction`, lib.rs:25-27.) -/
def skip (wire : Nat) (bs : Bytes) : Option Bytes :=
  match wire with
  | 0 => (decodeVarint bs).map Prod.snd
  | 1 => (takeBytes 8 bs).map Prod.snd
  | 2 => (readBytes bs).map Prod.snd
  | 5 => (takeBytes 4 bs).map Prod.snd
  | _ => none

/-- The loop of `merge_from`, given what to do with a field. Each field takes at least one byte, so `fuel = length` suffices. (used by `BinaryValue` of `Transaction`, lib.rs:25-27.) -/
def merge {α : Type} (field : α → Nat → Nat → Bytes → Option (α × Bytes)) : (fuel : Nat) → α → Bytes → Option α
  | _, a, [] => some a
  | 0, _, _ :: _ => none
  | f + 1, a, b :: bs =>
    match readTag (b :: bs) with
    | none => none
    | some ((tag, wire), r) =>
      match field a tag wire r with
      | some (a', r') => merge field f a' r'
      | none => none

/-- A field of `exonum.crypto.PublicKey`, whose only one is `bytes data = 1`. (src/proto/service.proto:10.) -/
def keyField (a : Bytes) (tag wire : Nat) (bs : Bytes) : Option (Bytes × Bytes) :=
  match tag with
  | 1 => if wire = 2 then readBytes bs else none
  | _ => (skip wire bs).map fun r => (a, r)

/-- `merge_from` of `exonum.crypto.PublicKey`. (src/proto/service.proto:10.) -/
def readKey (bs : Bytes) : Option Bytes := merge keyField bs.length [] bs

/-- A field of `Transaction`. (src/proto/service.proto:8-15.) -/
def txField (a : Raw) (tag wire : Nat) (bs : Bytes) : Option (Raw × Bytes) :=
  match tag with
  | 1 =>
    if wire = 2 then
      match readMessage bs with
      | some (b, r) => (readKey b).map fun k => ({ a with key := k }, r)
      | none => none
    else none
  | 2 =>
    if wire = 2 then
      match readBytes bs with
      | some (b, r) => if validUtf8 b then some ({ a with id := b }, r) else none
      | none => none
    else none
  | 3 => if wire = 2 then (readBytes bs).map fun (b, r) => ({ a with data := b }, r) else none
  | _ => (skip wire bs).map fun r => (a, r)

/-- `BinaryValue::from_bytes` of `Transaction`: the message is read and its key must have 32 bytes. (lib.rs:25-35; called for what is submitted and for what is read from storage.) -/
def decode (bs : Bytes) : Option Envelope :=
  match merge txField bs.length ⟨[], [], []⟩ bs with
  | none => none
  | some a => if h : a.key.length = 32 then some ⟨⟨a.key, h⟩, a.id, a.data⟩ else none

/-- A field of bytes, left out if there are none. (used by `BinaryValue` of `Transaction`, lib.rs:25-27.) -/
def putBytes (key : UInt8) (b : Bytes) : Bytes := if b = [] then [] else key :: encodeVarint b.length ++ b

/-- `BinaryValue::to_bytes` of `Transaction`. (lib.rs:25-35; called in lib.rs:42, lib.rs:175 and by `broadcaster.submit_tx`.) -/
def encode (e : Envelope) : Bytes :=
  (0x0a :: encodeVarint (putBytes 0x0a e.pubKey.val).length ++ putBytes 0x0a e.pubKey.val) ++ putBytes 0x12 e.id ++ putBytes 0x1a e.data

/-- The storage behind `MapIndex<String, Transaction>`: bytes by key. (lib.rs:76-78.) -/
abbrev Storage := OMap Bytes

/-- What reading all of the storage gives; `MapIndex` panics at an entry that is no `Transaction`. (lib.rs:90, 104, 141.) -/
def Storage.read (s : Storage) : Option Schema :=
  if ∀ e ∈ s.entries, (decode e.2).isSome = true then
    some ⟨s.entries.map fun e => (e.1, (decode e.2).getD ⟨BArr.fill 32 0, [], []⟩), by
      have := s.sorted
      unfold AscKeys at this ⊢
      rw [List.pairwise_map]
      exact this⟩
  else none

/-- `submit_tx` on a message from the network, cryptoballot_server/src/service.rs:36-44 and lib.rs:139-177: bytes that are no `Transaction` are refused by the dispatcher; a panic
changes nothing. -/
def submit (E : Env) (s : Storage) (msg : Bytes) : Storage :=
  match decode msg, s.read with
  | some e, some schema =>
    match verifyAndStore E schema e with
    | .ok _ => s.insert e.id (encode e)
    | _ => s
  | _, _ => s

/-- All messages in the order fixed by consensus. (cryptoballot_server/src/service.rs:36-44 for each.) -/
def submitAll (E : Env) (s : Storage) (msgs : List Bytes) : Storage := msgs.foldl (submit E) s

end Wire
end CB.Exonum
