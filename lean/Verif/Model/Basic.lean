/-!
# Basic vocabulary of the model: results with panics, byte strings, hexadecimal, comparison

Everything in `Verif/Model` transcribes code of `/repo`; each definition cites the lines it models.
-/

namespace CB

/-- Reasons for a Rust panic on a modelled path.  (Rust panics abort the computation; there is no error value.)
(`unwrap`, `expect`, indexing, arithmetic and `todo!()` throughout cryptoballot/src and cryptoballot_server/src.) -/
inductive Panic
  | wrongTransactionType   -- `panic!("wrong transaction type expected")`, transaction.rs:583-821
  | unwrapFailed           -- `Option/Result::unwrap` on `None`/`Err`
  | expectFailed           -- `.expect(..)`
  | sliceLen               -- slice index out of range / `copy_from_slice` length mismatch
  | overflow               -- arithmetic overflow with overflow checks on
  | rangeInverted          -- `BTreeMap::range` with start > end
  | debugAssert            -- `debug_assert!`
  | todo                   -- `todo!()` / `unimplemented!()`
  | dependency             -- `panic!` in a dependency
  deriving DecidableEq, Repr

/-- Outcome of a Rust call: a value (`Ok`), an error (`Err`), or a panic. (`Result<T, E>`, cryptoballot/src/error.rs:7-202.) -/
inductive Res (ε : Type) (α : Type) where
  | ok (a : α)
  | err (e : ε)
  | panic (p : Panic)
  deriving DecidableEq, Repr

namespace Res
variable {ε ε' α β : Type}

/-- The `?` operator / sequencing: the first `Err` or panic wins. -/
protected def bind (x : Res ε α) (f : α → Res ε β) : Res ε β :=
  match x with
  | ok a => f a
  | err e => err e
  | panic p => panic p

instance : Monad (Res ε) where
  pure := ok
  bind := Res.bind

/-- `Result::map_err` (also the implicit `From` conversion of `?`). (for example cryptoballot/src/transaction.rs:427.) -/
def mapErr (f : ε → ε') : Res ε α → Res ε' α
  | ok a => ok a
  | err e => err (f e)
  | panic p => panic p

/-- `if cond { return Err(e) }`. (for example cryptoballot/src/mix.rs:203-205.) -/
def failIf (cond : Bool) (e : ε) : Res ε Unit := if cond then err e else ok ()

/-- `Option::ok_or(e)?`. (for example cryptoballot/src/vote.rs:93-154.) -/
def ofOption (o : Option α) (e : ε) : Res ε α :=
  match o with
  | some a => ok a
  | none => err e

/-- `Option::unwrap()` (or `expect`): panics on `None`. (for example cryptoballot_server/src/tasks.rs:159.) -/
def unwrap (o : Option α) (p : Panic := .unwrapFailed) : Res ε α :=
  match o with
  | some a => ok a
  | none => panic p

/-- `for x in xs { f(x)?; }` — sequential loop stopping at the first error or panic. (for example cryptoballot/src/decryption.rs:165-169.) -/
def forEach (f : α → Res ε Unit) : List α → Res ε Unit
  | [] => ok ()
  | x :: xs => (f x).bind fun _ => forEach f xs

/-- `for x in xs { out.push(f(x)?) }` / `iter().map(f).collect()` with a fallible or panicking `f`. (for example cryptoballot_server/src/tasks.rs:417-418.) -/
def mapM' (f : α → Res ε β) : List α → Res ε (List β)
  | [] => ok []
  | x :: xs => (f x).bind fun y => (mapM' f xs).bind fun ys => ok (y :: ys)

/-- `flat_map`-style loop collecting several results per element. (for example cryptoballot/src/mix.rs:196-243.) -/
def flatMapM (f : α → Res ε (List β)) : List α → Res ε (List β)
  | [] => ok []
  | x :: xs => (f x).bind fun y => (flatMapM f xs).bind fun ys => ok (y ++ ys)

end Res

/-- `Vec<u8>` / `&[u8]`. (for example cryptoballot/src/transaction.rs:124.) -/
abbrev Bytes := List UInt8

/-- A Rust `String`, as its UTF-8 bytes.  Rust's ordering and equality of strings is that of these bytes. (for example cryptoballot/src/ballot.rs:186.) -/
abbrev Str := List UInt8

/-- `[u8; n]`. (for example cryptoballot/src/transaction.rs:322-326.) -/
abbrev BArr (n : Nat) := { l : Bytes // l.length = n }

/-- `[b; n]`. (for example cryptoballot/src/transaction.rs:351, 368.) -/
def BArr.fill (n : Nat) (b : UInt8) : BArr n := ⟨List.replicate n b, by simp⟩

/-- Text literal to UTF-8 bytes (for ASCII literals in the source). (for example cryptoballot_cli/src/command_vote.rs:66.) -/
def str (s : String) : Str := s.toList.map fun c => UInt8.ofNat c.toNat

/-- Lexicographic comparison of byte slices, `<[u8] as Ord>::cmp`, also `str::cmp`.
(used by the derived order of keys, cryptoballot/src/store.rs:171, and cryptoballot/src/transaction.rs:491-508.) -/
def cmpBytes : Bytes → Bytes → Ordering
  | [], [] => .eq
  | [], _ :: _ => .lt
  | _ :: _, [] => .gt
  | a :: as, b :: bs => if a < b then .lt else if b < a then .gt else cmpBytes as bs

/-- `dst[i..i+src.len()].copy_from_slice(src)` on a value; out-of-range is handled by the callers.
(cryptoballot/src/transaction.rs:353, 370; cryptoballot/src/mix.rs:102-103; cryptoballot/src/decryption.rs:454-467.) -/
def setSlice (dst : Bytes) (i : Nat) (src : Bytes) : Bytes :=
  dst.take i ++ src ++ dst.drop (i + src.length)

/-- `u32::to_be_bytes`. (cryptoballot/src/mix.rs:98-99, 326-327; cryptoballot/src/decryption.rs:451.) -/
def u32be (n : UInt32) : Bytes :=
  [UInt8.ofNat (n.toNat / 16777216), UInt8.ofNat (n.toNat / 65536), UInt8.ofNat (n.toNat / 256), UInt8.ofNat n.toNat]

/-- `u16::to_be_bytes`. (cryptoballot/src/decryption.rs:450.) -/
def u16be (n : UInt16) : Bytes := [UInt8.ofNat (n.toNat / 256), UInt8.ofNat n.toNat]

/-- Lower-case hexadecimal digit of a nibble (`hex` crate, `HEX_CHARS_LOWER`). (used by cryptoballot/src/transaction.rs:468.) -/
def hexDigit (n : Nat) : UInt8 := if n < 10 then UInt8.ofNat (48 + n) else UInt8.ofNat (87 + n)

/-- `hex::encode`. (cryptoballot/src/transaction.rs:419, 468; cryptoballot_cli/src/command_keygen.rs:4-5.) -/
def hexEncode : Bytes → Str
  | [] => []
  | b :: bs => hexDigit (b.toNat / 16) :: hexDigit (b.toNat % 16) :: hexEncode bs

/-- Value of a hexadecimal digit, either case (`hex` crate, `fn val`). (used by cryptoballot/src/transaction.rs:427.) -/
def hexVal (c : UInt8) : Option Nat :=
  if 48 ≤ c ∧ c ≤ 57 then some (c.toNat - 48)
  else if 97 ≤ c ∧ c ≤ 102 then some (c.toNat - 87)
  else if 65 ≤ c ∧ c ≤ 70 then some (c.toNat - 55)
  else none

/-- `hex::decode`: `None` for an odd number of characters or a non-hex character. (cryptoballot/src/transaction.rs:388, 427; cryptoballot_cli/src/main.rs:240.) -/
def hexDecode : Str → Option Bytes
  | [] => some []
  | [_] => none
  | c :: d :: cs =>
    match hexVal c, hexVal d, hexDecode cs with
    | some h, some l, some bs => some (UInt8.ofNat (16 * h + l) :: bs)
    | _, _, _ => none

end CB
