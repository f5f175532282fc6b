import Verif.Model.Basic
/-!
# Transaction identifiers (cryptoballot/src/transaction.rs:315-577)
-/

namespace CB

/-- `TransactionType`, transaction.rs:518-534. -/
inductive TxType
  | election | keyGenCommitment | keyGenShare | keyGenPublicKey | encryptionKey
  | vote | votingEnd | mix | partialDecryption | decryption
  deriving DecidableEq, Repr

namespace TxType

/-- `as u8` / `IntoPrimitive`, transaction.rs:523-534. -/
def toU8 : TxType → UInt8
  | election => 1 | keyGenCommitment => 2 | keyGenShare => 3 | keyGenPublicKey => 4 | encryptionKey => 5
  | vote => 6 | votingEnd => 7 | mix => 8 | partialDecryption => 9 | decryption => 10

/-- `TryFromPrimitive` / `from_u8`, transaction.rs:519, 567-569. -/
def ofU8? (b : UInt8) : Option TxType :=
  if b = 1 then some election else if b = 2 then some keyGenCommitment else if b = 3 then some keyGenShare
  else if b = 4 then some keyGenPublicKey else if b = 5 then some encryptionKey else if b = 6 then some vote
  else if b = 7 then some votingEnd else if b = 8 then some mix else if b = 9 then some partialDecryption
  else if b = 10 then some decryption else none

/-- `hex_string`, transaction.rs:537-550. -/
def hexString : TxType → Str
  | election => str "01" | keyGenCommitment => str "02" | keyGenShare => str "03" | keyGenPublicKey => str "04"
  | encryptionKey => str "05" | vote => str "06" | votingEnd => str "07" | mix => str "08"
  | partialDecryption => str "09" | decryption => str "0a"

/-- `name`, transaction.rs:552-565 (also serde's `rename_all = "snake_case"`, :91-104, :521). -/
def name : TxType → Str
  | election => str "election" | keyGenCommitment => str "key_gen_commitment" | keyGenShare => str "key_gen_share"
  | keyGenPublicKey => str "key_gen_public_key" | encryptionKey => str "encryption_key" | vote => str "vote"
  | votingEnd => str "voting_end" | mix => str "mix" | partialDecryption => str "partial_decryption"
  | decryption => str "decryption"

end TxType

/-- `Identifier`, transaction.rs:321-326. -/
structure Identifier where
  electionId : BArr 15
  txType : TxType
  uniqueInfo : BArr 16
  deriving DecidableEq, Repr

/-- The part of `Error` (error.rs:7-61) that identifier parsing can return. -/
inductive IdErr
  | identifierBadHex
  | identifierBadLen
  deriving DecidableEq, Repr

namespace Identifier

/-- `Identifier::new`, transaction.rs:330-343. -/
def new (election : Identifier) (t : TxType) (uniqueInfo : Option (BArr 16)) : Identifier :=
  { electionId := election.electionId, txType := t, uniqueInfo := uniqueInfo.getD (BArr.fill 16 0) }

/-- Writing a mask over the first bytes of a filled array, transaction.rs:351-353 and 368-370; panics if the mask is
longer than 16 bytes. -/
def maskInto {ε : Type} (fill : UInt8) (mask : Option Bytes) : Res ε (BArr 16) :=
  let m := mask.getD []
  if h : m.length ≤ 16 then
    .ok ⟨setSlice (List.replicate 16 fill) 0 m, by simp [setSlice]; omega⟩
  else .panic .sliceLen

/-- `Identifier::start`, transaction.rs:346-360. -/
def start {ε : Type} (election : Identifier) (t : TxType) (mask : Option Bytes) : Res ε Identifier :=
  (maskInto 0 mask).bind fun u => .ok { electionId := election.electionId, txType := t, uniqueInfo := u }

/-- `Identifier::end`, transaction.rs:363-377. -/
def «end» {ε : Type} (election : Identifier) (t : TxType) (mask : Option Bytes) : Res ε Identifier :=
  (maskInto 255 mask).bind fun u => .ok { electionId := election.electionId, txType := t, uniqueInfo := u }

/-- `Identifier::new_from_str_id`, transaction.rs:381-403. -/
def newFromStrId (electionId : Str) (t : TxType) (uniqueInfo : Option (BArr 16)) : Option Identifier :=
  match hexDecode electionId with
  | none => none
  | some bits =>
    if h : bits.length < 15 then none
    else
      let e : Identifier :=
        { electionId := ⟨bits.take 15, by simp; omega⟩, txType := .election, uniqueInfo := BArr.fill 16 0 }
      some (new e t (some (uniqueInfo.getD (BArr.fill 16 0))))

/-- `to_array` / `to_bytes`, transaction.rs:405-416. -/
def toArray (i : Identifier) : Bytes := i.electionId.val ++ [i.txType.toU8] ++ i.uniqueInfo.val

/-- `Display::fmt` / `to_string`, transaction.rs:466-470. -/
def toString (i : Identifier) : Str := hexEncode i.toArray

/-- `election_id_string`, transaction.rs:418-420. -/
def electionIdString (i : Identifier) : Str := hexEncode i.electionId.val

/-- `FromStr::from_str`, transaction.rs:426-444.  `bytes[0..15]` and `bytes[15]` cannot fail once the length is 16 or 32;
`try_from_primitive(..).unwrap()` panics on an unknown type byte (checked before the unique info), and
`bytes[16..].try_into::<[u8;16]>().unwrap()` panics when there are only 16 bytes. -/
def fromStr (s : Str) : Res IdErr Identifier :=
  match hexDecode s with
  | none => .err .identifierBadHex
  | some bytes =>
    if h : bytes.length ≠ 32 ∧ bytes.length ≠ 16 then .err .identifierBadLen
    else
      match bytes.drop 15 with
      | [] => .panic .sliceLen
      | b :: rest =>
        match TxType.ofU8? b with
        | none => .panic .unwrapFailed
        | some t =>
          if hr : rest.length = 16 then
            .ok { electionId := ⟨bytes.take 15, by simp; omega⟩, txType := t, uniqueInfo := ⟨rest, hr⟩ }
          else .panic .unwrapFailed

/-- `Ord::cmp`, transaction.rs:491-508. -/
def cmp (a b : Identifier) : Ordering :=
  match cmpBytes a.electionId.val b.electionId.val with
  | .eq =>
    match compare a.txType.toU8 b.txType.toU8 with
    | .eq => cmpBytes a.uniqueInfo.val b.uniqueInfo.val
    | o => o
  | o => o

/-- `PartialOrd::partial_cmp`, transaction.rs:472-489. -/
def partialCmp (a b : Identifier) : Option Ordering :=
  match cmpBytes a.electionId.val b.electionId.val with
  | .eq =>
    match compare a.txType.toU8 b.txType.toU8 with
    | .eq => some (cmpBytes a.uniqueInfo.val b.uniqueInfo.val)
    | o => some o
  | o => some o

end Identifier
end CB
