import Verif.Model.Selection
/-!
# Deserialization (`serde_cbor::from_slice`, transaction.rs:128-131)

Two layers: bytes to CBOR items (`serde_cbor` 0.11), CBOR items to transactions (serde's derived `Deserialize`).
-/

namespace CB

/-! ## Bytes to items -/

/-- Big-endian number. (`serde_cbor::from_slice`, transaction.rs:70, 130.) -/
def ofBe : Bytes → Nat → Nat
  | [], acc => acc
  | b :: bs, acc => ofBe bs (acc * 256 + b.toNat)

/-- `k` bytes and the rest. (`serde_cbor::from_slice`, transaction.rs:70, 130.) -/
def splitBytes (k : Nat) (bs : Bytes) : Option (Bytes × Bytes) := if bs.length < k then none else some (bs.take k, bs.drop k)

/-- Initial byte and argument: major type, argument, rest.  Indefinite lengths (information 31) are read by `decodeIndefinite`.
(`serde_cbor::from_slice`, transaction.rs:70, 130.) -/
def readHead : Bytes → Option (Nat × Nat × Bytes)
  | [] => none
  | b :: bs =>
    let info := b.toNat % 32
    let big (k : Nat) : Option (Nat × Nat × Bytes) := (splitBytes k bs).map fun (a, r) => (b.toNat / 32, ofBe a 0, r)
    if info < 24 then some (b.toNat / 32, info, bs)
    else if info = 24 then big 1 else if info = 25 then big 2 else if info = 26 then big 4 else if info = 27 then big 8
    else none

/-- `n` items in sequence. (`serde_cbor::from_slice`, transaction.rs:70, 130.) -/
def decodeN {α : Type} (f : Bytes → Option (α × Bytes)) : Nat → Bytes → Option (List α × Bytes)
  | 0, bs => some ([], bs)
  | n + 1, bs => (f bs).bind fun (a, r) => (decodeN f n r).map fun (as, r') => (a :: as, r')

/-- Items up to the break byte (indefinite length), at most `n` of them: every item takes a byte, so the number of bytes left is enough.
(`serde_cbor::from_slice`, transaction.rs:70, 130.) -/
def decodeUntil {α : Type} (f : Bytes → Option (α × Bytes)) : Nat → Bytes → Option (List α × Bytes)
  | n, bs =>
    match bs with
    | 0xff :: r => some ([], r)
    | _ =>
      match n with
      | 0 => none
      | n + 1 => (f bs).bind fun (a, r) => (decodeUntil f n r).map fun (as, r') => (a :: as, r')

/-- More items than there are bytes cannot come; a slice has fewer than 2^64 bytes. (`serde_cbor::from_slice`, transaction.rs:70, 130.) -/
def fuelOf (bs : Bytes) : Nat := min bs.length (2 ^ 64 - 1)

/-- A chunk of a byte or text string of indefinite length: a string of definite length and of the same major type. (`serde_cbor::from_slice`, transaction.rs:70, 130.) -/
def decodeChunk (major : Nat) (bs : Bytes) : Option (Bytes × Bytes) :=
  (readHead bs).bind fun (m, n, r) => if m = major then splitBytes n r else none

/-- A string of indefinite length, after its initial byte: the chunks put together. (`serde_cbor::from_slice`, transaction.rs:70, 130.) -/
def decodeChunks (major : Nat) (bs : Bytes) : Option (Bytes × Bytes) :=
  (decodeUntil (decodeChunk major) (fuelOf bs) bs).bind fun (l, r) => if l.flatten.length < 2 ^ 64 then some (l.flatten, r) else none

/-- Text is checked to be UTF-8 (as a whole, if it comes in chunks). (`serde_cbor::from_slice`, transaction.rs:70, 130.) -/
def checkText (x : Bytes × Bytes) : Option (Str × Bytes) := if validUtf8 x.1 then some x else none

/-- A text string (major type 3). (`serde_cbor::from_slice`, transaction.rs:70, 130.) -/
def decodeText (bs : Bytes) : Option (Str × Bytes) :=
  match readHead bs with
  | some (m, n, r) => if m = 3 then (splitBytes n r).bind checkText else none
  | none =>
    match bs with
    | 0x7f :: r => (decodeChunks 3 r).bind checkText
    | _ => none

/-- An entry of a map.  Simplification: keys must be text strings (serde_cbor also passes on other keys; a derived reader then takes a byte string for the name of a field and
a number for its position). -/
def decodeEntry (item : Bytes → Option (Cbor × Bytes)) (x : Bytes) : Option ((Str × Cbor) × Bytes) :=
  (decodeText x).bind fun (k, y) => (item y).map fun (v, z) => ((k, v), z)

/-- Items of indefinite length. (`serde_cbor::from_slice`, transaction.rs:70, 130.) -/
def decodeIndefinite (inner : Option (Bytes → Option (Cbor × Bytes))) : Bytes → Option (Cbor × Bytes)
  | 0x5f :: r => (decodeChunks 2 r).map fun (b, r') => (.bytes b, r')
  | 0x7f :: r => ((decodeChunks 3 r).bind checkText).map fun (s, r') => (.text s, r')
  | 0x9f :: r => inner.bind fun item => (decodeUntil item (fuelOf r) r).map fun (l, r') => (.array l, r')
  | 0xbf :: r => inner.bind fun item => (decodeUntil (decodeEntry item) (fuelOf r) r).map fun (l, r') => (.map l, r')
  | _ => none

/-- One item, given how to read the items of a container (`none`: no further nesting allowed).
Tags are skipped; `undefined` reads as null.  Numbers below -2^63 are refused (serde's buffer does not take them). -/
def decodeStep (inner : Option (Bytes → Option (Cbor × Bytes))) (bs : Bytes) : Option (Cbor × Bytes) :=
  match readHead bs with
  | none => decodeIndefinite inner bs
  | some (m, n, r) =>
    match m with
    | 0 => some (.uint (UInt64.ofNat n), r)
    | 1 => if n < 2 ^ 63 then some (.nint (UInt64.ofNat n), r) else none
    | 2 => (splitBytes n r).map fun (b, r') => (.bytes b, r')
    | 3 => ((splitBytes n r).bind checkText).map fun (s, r') => (.text s, r')
    | 4 => inner.bind fun item => (decodeN item n r).map fun (l, r') => (.array l, r')
    | 5 => inner.bind fun item => (decodeN (decodeEntry item) n r).map fun (l, r') => (.map l, r')
    | 6 => inner.bind fun item => item r
    | _ =>
      match bs with
      | 0xf4 :: _ => some (.bool false, r)
      | 0xf5 :: _ => some (.bool true, r)
      | 0xf6 :: _ => some (.null, r)
      | 0xf7 :: _ => some (.null, r)
      | 0xf9 :: _ => some (.float (UInt64.ofNat (widenFloat 5 10 n)), r)
      | 0xfa :: _ => some (.float (UInt64.ofNat (widenFloat 8 23 n)), r)
      | 0xfb :: _ => some (.float (UInt64.ofNat n), r)
      | _ => none

/-- One item; `depth` is the number of nested containers still allowed (`remaining_depth`, 128 at the start and an error at 0, so 127 containers).
(`serde_cbor::from_slice`, transaction.rs:70, 130.) -/
def decodeItem : (depth : Nat) → Bytes → Option (Cbor × Bytes)
  | 0 => decodeStep none
  | d + 1 => decodeStep (some (decodeItem d))

/-- `serde_cbor::from_slice`: one item and nothing after it. -/
def Cbor.decode (bs : Bytes) : Option Cbor :=
  match decodeItem 127 bs with
  | some (c, []) => some c
  | _ => none

/-! ## Items to values -/

/-- A deserialization error (`Error::CBORError`, error.rs), payload not tracked. -/
inductive DeErr
  | malformed
  deriving DecidableEq, Repr

/-- `serde_cbor::from_slice`, transaction.rs:70, 130. -/
abbrev DRes := Res DeErr

namespace De

/-- Derived `visit_map` and `visit_seq`: a struct is read from a map, or from an array of its fields in the order of their declaration, of which the last `optional` have
`#[serde(default)]` and can be left out. -/
def fields (names : List String) (optional : Nat) : Cbor → DRes (List (Str × Cbor))
  | .map l => .ok l
  | .array l => if l.length ≤ names.length ∧ names.length ≤ l.length + optional then .ok ((names.map str).zip l) else .err .malformed
  | _ => .err .malformed

/-- All entries for a field; `duplicate_field` is an error. (derived `Deserialize`, for example election.rs:8-49.) -/
def find (l : List (Str × Cbor)) (k : Str) : DRes (Option Cbor) :=
  match l.filter fun e => e.1 == k with
  | [] => .ok none
  | [e] => .ok (some e.2)
  | _ => .err .malformed

/-- A required field: `missing_field` is an error.  Simplification: fields are read in declaration order, the real visitor reads them in
input order (this matters only for which of several failures is reported). (derived `Deserialize`, for example election.rs:8-49.) -/
def field {α : Type} (l : List (Str × Cbor)) (k : String) (f : Cbor → DRes α) : DRes α :=
  (find l (str k)).bind fun
    | some v => f v
    | none => .err .malformed

/-- A field with `#[serde(default)]`, or an `Option` field. -/
def fieldOr {α : Type} (l : List (Str × Cbor)) (k : String) (dflt : α) (f : Cbor → DRes α) : DRes α :=
  (find l (str k)).bind fun
    | some v => f v
    | none => .ok dflt

/-- integers of any type, election.rs:8-49. -/
def uint (bound : Nat) : Cbor → DRes Nat
  | .uint n => if n.toNat < bound then .ok n.toNat else .err .malformed
  | _ => .err .malformed
/-- `u8`, election.rs:8-49. -/
def u8 (c : Cbor) : DRes UInt8 := (uint 256 c).bind fun n => .ok (UInt8.ofNat n)
/-- `u16`, decryption.rs:11-31. -/
def u16 (c : Cbor) : DRes UInt16 := (uint 65536 c).bind fun n => .ok (UInt16.ofNat n)
/-- `u32`, ballot.rs:17-33. -/
def u32 (c : Cbor) : DRes UInt32 := (uint 4294967296 c).bind fun n => .ok (UInt32.ofNat n)
/-- `u64`, mix.rs:10-14. -/
def u64 (c : Cbor) : DRes UInt64 := (uint 18446744073709551616 c).bind fun n => .ok (UInt64.ofNat n)
/-- `bool`, ballot.rs:174. -/
def bool : Cbor → DRes Bool
  | .bool b => .ok b
  | _ => .err .malformed
/-- `String`: text, or a byte string that is UTF-8. (derived `Deserialize`, for example election.rs:8-49.) -/
def text : Cbor → DRes Str
  | .text s => .ok s
  | .bytes s => if validUtf8 s then .ok s else .err .malformed
  | _ => .err .malformed
/-- derived `Deserialize`, for example election.rs:8-49. -/
def array {α : Type} (f : Cbor → DRes α) : Cbor → DRes (List α)
  | .array l => Res.mapM' f l
  | _ => .err .malformed
/-- `Option<T>`: null is `None`. (derived `Deserialize`, for example election.rs:8-49.) -/
def opt {α : Type} (f : Cbor → DRes α) : Cbor → DRes (Option α)
  | .null => .ok none
  | c => (f c).bind fun a => .ok (some a)
/-- `IndexMap<String, V>`: entries inserted in order. (derived `Deserialize`, for example election.rs:8-49.) -/
def indexMap {α : Type} (f : Cbor → DRes α) : Cbor → DRes (IndexMap Str α)
  | .map l => (Res.mapM' (fun e => (f e.2).bind fun v => .ok (e.1, v)) l).bind fun es => .ok (IndexMap.ofList es)
  | _ => .err .malformed
mutual
/-- `serde_json::Value`: byte strings are refused, infinities and not-a-number become null, of two entries with the same key the second replaces the value of the first. -/
def json : Cbor → DRes Cbor
  | .nint n => if n.toNat < 2 ^ 63 then .ok (.nint n) else .err .malformed
  | .bytes _ => .err .malformed
  | .array l => (jsonList l).bind fun l => .ok (.array l)
  | .map l => (jsonMap l).bind fun es => .ok (.map (IndexMap.ofList es).entries)
  | .float bits => .ok (if finiteFloat bits then .float bits else .null)
  | c => .ok c

/-- The elements of an array. (`serde_json::Value`, election.rs:48.) -/
def jsonList : List Cbor → DRes (List Cbor)
  | [] => .ok []
  | c :: cs => (json c).bind fun a => (jsonList cs).bind fun as => .ok (a :: as)

/-- The entries of a map. (`serde_json::Value`, election.rs:48.) -/
def jsonMap : List (Str × Cbor) → DRes (List (Str × Cbor))
  | [] => .ok []
  | (k, v) :: es => (json v).bind fun a => (jsonMap es).bind fun as => .ok ((k, a) :: as)
end

/-- `serde_json::Value::deserialize`. -/
def jsonValue (c : Cbor) : DRes JsonValue := (json c).bind fun a => if h : a.isJson = true then .ok ⟨a, h⟩ else .err .malformed

/-- `properties`. (election.rs:47-48.) -/
def props : Cbor → DRes Properties := indexMap jsonValue

/-- `hex_buffer_serde::Hex::deserialize` and `EncryptedShare` (trustee.rs:331-387): inside an internally tagged enum serde reads through a buffer that
reports itself human readable, so both a byte string and hexadecimal text are accepted. -/
def hexBytes : Cbor → DRes Bytes
  | .bytes b => .ok b
  | .text s => Res.ofOption (hexDecode s) .malformed
  | _ => .err .malformed

/-- The opaque cryptid values: byte strings of any content, or their hexadecimal text.  (Simplification: their own structure, arrays and base64 text, is not modelled.)
(keygen.rs:42-43, vote.rs:34-38.) -/
def bytes : Cbor → DRes Bytes := hexBytes

/-- `[u8; n]`-like values (`EdPublicKeyHex`, `EdSignatureHex`, `X25519PublicKeyHex`, serde_hex.rs:12-62).  Simplification: every string of the right length is
accepted (the real parser also checks that it encodes a curve point / scalar). -/
def arr (n : Nat) (c : Cbor) : DRes (BArr n) :=
  (hexBytes c).bind fun b => if h : b.length = n then .ok ⟨b, h⟩ else .err .malformed

/-- `Uuid::parse_str` (uuid 0.7): five hyphenated groups of hexadecimal digits, or all digits without hyphens; the length is checked by the caller.
(The `urn:uuid:` prefix is not modelled: rejected.) (authn.rs:38, 180.) -/
def uuidText (s : Str) : Option Bytes :=
  if s.length = 36 ∧ s[8]? = some 0x2d ∧ s[13]? = some 0x2d ∧ s[18]? = some 0x2d ∧ s[23]? = some 0x2d then
    hexDecode (s.take 8 ++ (s.drop 9).take 4 ++ (s.drop 14).take 4 ++ (s.drop 19).take 4 ++ s.drop 24)
  else hexDecode s

/-- `Uuid`: its 16 bytes or, as inside an internally tagged enum the format reports itself human readable, its text. (authn.rs:38, 180.) -/
def uuid (c : Cbor) : DRes Uuid :=
  let exact (b : Bytes) : DRes Uuid := if h : b.length = 16 then .ok ⟨b, h⟩ else .err .malformed
  match c with
  | .bytes b => exact b
  | .text s => (Res.ofOption (uuidText s) .malformed).bind exact
  | _ => .err .malformed

/-- `Identifier::deserialize`, transaction.rs:447-455: panics where `from_str` panics. -/
def ident (c : Cbor) : DRes Identifier :=
  (text c).bind fun s => (Identifier.fromStr s).mapErr fun _ => .malformed

/-- trustee.rs:31-44: the two unserialized fields default to 0. -/
def trustee (c : Cbor) : DRes Trustee := do
  let l ← fields ["public_key", "index", "num_trustees", "threshold"] 2 c
  let publicKey ← field l "public_key" (arr 32)
  let index ← field l "index" u8
  let numTrustees ← fieldOr l "num_trustees" 0 (uint 18446744073709551616)
  let threshold ← fieldOr l "threshold" 0 u8
  pure { publicKey, index, numTrustees, threshold }

/-- authn.rs:36-40. -/
def authenticator (c : Cbor) : DRes Authenticator := do
  let l ← fields ["id", "public_keys"] 0 c
  let id ← field l "id" uuid
  let publicKeys ← field l "public_keys" (indexMap fun v => (hexBytes v).bind fun b => .ok ⟨b⟩)
  pure { id, publicKeys }

/-- authn.rs:178-184 (`hex_serde`: text). -/
def authentication (c : Cbor) : DRes Authentication := do
  let l ← fields ["authenticator", "signature"] 0 c
  let authenticator ← field l "authenticator" uuid
  let signature ← field l "signature" fun v => (text v).bind fun s => Res.ofOption (hexDecode s) .malformed
  pure { authenticator, signature }

/-- mix.rs:10-14. -/
def mixConfig (c : Cbor) : DRes MixConfig := do
  let l ← fields ["timeout_secs", "batch_size"] 0 c
  let timeoutSecs ← field l "timeout_secs" u64
  let batchSize ← fieldOr l "batch_size" none (opt u16)
  pure { timeoutSecs, batchSize }

/-- ballot.rs:4-15. -/
def ballot (c : Cbor) : DRes Ballot := do
  let l ← fields ["id", "contests", "properties"] 1 c
  let id ← field l "id" text
  let contests ← field l "contests" (array u32)
  let properties ← fieldOr l "properties" IndexMap.empty props
  pure { id, contests, properties }

/-- ballot.rs:35-45. -/
def candidate (c : Cbor) : DRes Candidate := do
  let l ← fields ["id", "properties"] 1 c
  let id ← field l "id" text
  let properties ← fieldOr l "properties" IndexMap.empty props
  pure { id, properties }

/-- A unit variant: its name, or a map from its name to null. (derived `Deserialize`, for example election.rs:8-49.) -/
def variant : Cbor → DRes Str
  | .text s => .ok s
  | .map [(s, .null)] => .ok s
  | _ => .err .malformed

/-- ballot.rs:47-167: a unit variant by name. -/
def contestType (c : Cbor) : DRes ContestType :=
  (variant c).bind fun s =>
    Res.ofOption ([ContestType.plurality, .score, .approval, .condorcet, .borda, .bordaClassic, .bordaDowdall, .bordaModifiedClassic,
      .schulzeWinning, .schulzeRatio, .schulzeMargin].find? fun t => t.name == s) .malformed

/-- ballot.rs:17-33. -/
def contest (c : Cbor) : DRes Contest := do
  let l ← fields ["id", "index", "contest_type", "num_winners", "write_in", "candidates", "properties"] 1 c
  let id ← field l "id" text
  let index ← field l "index" u32
  let contestType ← field l "contest_type" contestType
  let numWinners ← field l "num_winners" u32
  let writeIn ← field l "write_in" bool
  let candidates ← field l "candidates" (array candidate)
  let properties ← fieldOr l "properties" IndexMap.empty props
  pure { id, index, contestType, numWinners, writeIn, candidates, properties }

/-- ballot.rs:169-187. -/
def selection (c : Cbor) : DRes Selection := do
  let l ← fields ["write_in", "score", "selection"] 0 c
  let writeIn ← fieldOr l "write_in" false bool
  let score ← fieldOr l "score" 0 u32
  let selection ← field l "selection" text
  pure { writeIn, score, selection }

/-- An opaque cryptid value. (vote.rs:34-38.) -/
def ciphertext (c : Cbor) : DRes Ciphertext := (bytes c).bind fun b => .ok ⟨b⟩

/-- vote.rs:34-38. -/
def encryptedVote (c : Cbor) : DRes EncryptedVote := do
  let l ← fields ["contest_index", "selections"] 0 c
  let contestIndex ← field l "contest_index" u32
  let selections ← field l "selections" (array ciphertext)
  pure { contestIndex, selections }

/-- election.rs:8-49. -/
def election (c : Cbor) : DRes ElectionTx := do
  let l ← fields ["id", "authority_public", "trustees", "trustees_threshold", "authenticators", "authenticators_threshold", "mix_config", "ballots", "contests", "properties"] 1 c
  let id ← field l "id" ident
  let authorityPublic ← field l "authority_public" (arr 32)
  let trustees ← field l "trustees" (array trustee)
  let trusteesThreshold ← field l "trustees_threshold" u8
  let authenticators ← field l "authenticators" (array authenticator)
  let authenticatorsThreshold ← field l "authenticators_threshold" u8
  let mixConfig ← fieldOr l "mix_config" none (opt mixConfig)
  let ballots ← field l "ballots" (array ballot)
  let contests ← field l "contests" (array contest)
  let properties ← fieldOr l "properties" IndexMap.empty props
  pure { id, authorityPublic, trustees, trusteesThreshold, authenticators, authenticatorsThreshold, mixConfig, ballots, contests, properties }

/-- keygen.rs:8-19. -/
def keyGenCommitment (c : Cbor) : DRes KeyGenCommitmentTx := do
  let l ← fields ["id", "election", "trustee_index", "trustee_public_key", "x25519_public_key", "commitment"] 0 c
  let id ← field l "id" ident
  let election ← field l "election" ident
  let trusteeIndex ← field l "trustee_index" u8
  let trusteePublicKey ← field l "trustee_public_key" (arr 32)
  let x25519PublicKey ← field l "x25519_public_key" (arr 32)
  let commitment ← field l "commitment" bytes
  pure { id, election, trusteeIndex, trusteePublicKey, x25519PublicKey, commitment := ⟨commitment⟩ }

/-- `(u8, EncryptedShare)` read from a two-element array (`indexmap::serde_seq`, keygen.rs:30). -/
def share : Cbor → DRes (UInt8 × EncryptedShare)
  | .array [i, s] => (u8 i).bind fun i => (hexBytes s).bind fun b => .ok (i, ⟨b⟩)
  | _ => .err .malformed

/-- keygen.rs:22-32. -/
def keyGenShare (c : Cbor) : DRes KeyGenShareTx := do
  let l ← fields ["id", "election", "trustee_index", "trustee_public_key", "shares"] 0 c
  let id ← field l "id" ident
  let election ← field l "election" ident
  let trusteeIndex ← field l "trustee_index" u8
  let trusteePublicKey ← field l "trustee_public_key" (arr 32)
  let shares ← field l "shares" (array share)
  pure { id, election, trusteeIndex, trusteePublicKey, shares := IndexMap.ofList shares }

/-- keygen.rs:35-44. -/
def keyGenPublicKey (c : Cbor) : DRes KeyGenPublicKeyTx := do
  let l ← fields ["id", "election", "trustee_index", "trustee_public_key", "public_key", "public_key_proof"] 0 c
  let id ← field l "id" ident
  let election ← field l "election" ident
  let trusteeIndex ← field l "trustee_index" u8
  let trusteePublicKey ← field l "trustee_public_key" (arr 32)
  let publicKey ← field l "public_key" bytes
  let publicKeyProof ← field l "public_key_proof" bytes
  pure { id, election, trusteeIndex, trusteePublicKey, publicKey := ⟨publicKey⟩, publicKeyProof := ⟨publicKeyProof⟩ }

/-- keygen.rs:47-54. -/
def encryptionKey (c : Cbor) : DRes EncryptionKeyTx := do
  let l ← fields ["id", "election", "authority_public_key", "encryption_key"] 0 c
  let id ← field l "id" ident
  let election ← field l "election" ident
  let authorityPublicKey ← field l "authority_public_key" (arr 32)
  let encryptionKey ← field l "encryption_key" bytes
  pure { id, election, authorityPublicKey, encryptionKey := ⟨encryptionKey⟩ }

/-- vote.rs:17-32. -/
def vote (c : Cbor) : DRes VoteTx := do
  let l ← fields ["id", "election", "ballot_id", "encrypted_votes", "anonymous_key", "authentication"] 0 c
  let id ← field l "id" ident
  let election ← field l "election" ident
  let ballotId ← field l "ballot_id" text
  let encryptedVotes ← field l "encrypted_votes" (array encryptedVote)
  let anonymousKey ← field l "anonymous_key" (arr 32)
  let authentication ← field l "authentication" (array authentication)
  pure { id, election, ballotId, encryptedVotes, anonymousKey, authentication }

/-- voting_end.rs:5-11. -/
def votingEnd (c : Cbor) : DRes VotingEndTx := do
  let l ← fields ["id", "election", "authority_public_key"] 0 c
  let id ← field l "id" ident
  let election ← field l "election" ident
  let authorityPublicKey ← field l "authority_public_key" (arr 32)
  pure { id, election, authorityPublicKey }

/-- mix.rs:17-54. -/
def mix (c : Cbor) : DRes MixTx := do
  let l ← fields ["id", "election_id", "prev_mix_id", "trustee_index", "trustee_public_key", "mix_index", "contest_index", "batch", "vote_ids", "mixed_ciphertexts", "proof"] 0 c
  let id ← field l "id" ident
  let electionId ← field l "election_id" ident
  let prevMixId ← fieldOr l "prev_mix_id" none (opt ident)
  let trusteeIndex ← field l "trustee_index" u8
  let trusteePublicKey ← field l "trustee_public_key" (arr 32)
  let mixIndex ← field l "mix_index" u8
  let contestIndex ← field l "contest_index" u32
  let batch ← field l "batch" u32
  let voteIds ← field l "vote_ids" (array ident)
  let mixedCiphertexts ← field l "mixed_ciphertexts" (array (array ciphertext))
  let proof ← field l "proof" bytes
  pure { id, electionId, prevMixId, trusteeIndex, trusteePublicKey, mixIndex, contestIndex, batch, voteIds, mixedCiphertexts, proof := ⟨proof⟩ }

/-- decryption.rs:11-31. -/
def partialDecryption (c : Cbor) : DRes PartialDecryptionTx := do
  let l ← fields ["id", "election_id", "upstream_id", "upstream_index", "contest_index", "trustee_index", "trustee_public_key", "partial_decryption"] 0 c
  let id ← field l "id" ident
  let electionId ← field l "election_id" ident
  let upstreamId ← field l "upstream_id" ident
  let upstreamIndex ← field l "upstream_index" u16
  let contestIndex ← field l "contest_index" u32
  let trusteeIndex ← field l "trustee_index" u8
  let trusteePublicKey ← field l "trustee_public_key" (arr 32)
  let partialDecryption ← field l "partial_decryption" (array fun c => (bytes c).bind fun b => .ok ⟨b⟩)
  pure { id, electionId, upstreamId, upstreamIndex, contestIndex, trusteeIndex, trusteePublicKey, partialDecryption }

/-- decryption.rs:180-199. -/
def decryption (c : Cbor) : DRes DecryptionTx := do
  let l ← fields ["id", "election_id", "upstream_id", "upstream_index", "contest_index", "trustees", "decrypted_vote"] 0 c
  let id ← field l "id" ident
  let electionId ← field l "election_id" ident
  let upstreamId ← field l "upstream_id" ident
  let upstreamIndex ← field l "upstream_index" u16
  let contestIndex ← field l "contest_index" u32
  let trustees ← field l "trustees" (array u8)
  let decryptedVote ← field l "decrypted_vote" (array selection)
  pure { id, electionId, upstreamId, upstreamIndex, contestIndex, trustees, decryptedVote }

/-- `Signed<T>`, transaction.rs:242-248. -/
def signed {T : Type} (f : Cbor → DRes T) (c : Cbor) : DRes (Signed T) := do
  let l ← fields ["tx", "sig"] 0 c
  let tx ← field l "tx" f
  let sig ← field l "sig" (arr 64)
  pure { tx, sig }

/-- `#[serde(tag = "type")]`: the name of the variant and the content, from a map (the other entries) or an array (the other elements).
Simplification: serde_cbor also accepts the number of the variant. -/
def tagged : Cbor → DRes (Str × Cbor)
  | .map l => (field l "type" text).bind fun ty => .ok (ty, .map (l.filter fun e => e.1 != str "type"))
  | .array (ty :: l) => (text ty).bind fun ty => .ok (ty, .array l)
  | _ => .err .malformed

/-- `SignedTransaction`, transaction.rs:89-104: internally tagged by "type". -/
def signedTx (c : Cbor) : DRes SignedTx := do
  let (ty, rest) ← tagged c
  if ty = TxType.name .election then (signed election rest).bind fun s => .ok (.election s)
  else if ty = TxType.name .keyGenCommitment then (signed keyGenCommitment rest).bind fun s => .ok (.keyGenCommitment s)
  else if ty = TxType.name .keyGenShare then (signed keyGenShare rest).bind fun s => .ok (.keyGenShare s)
  else if ty = TxType.name .keyGenPublicKey then (signed keyGenPublicKey rest).bind fun s => .ok (.keyGenPublicKey s)
  else if ty = TxType.name .encryptionKey then (signed encryptionKey rest).bind fun s => .ok (.encryptionKey s)
  else if ty = TxType.name .vote then (signed vote rest).bind fun s => .ok (.vote s)
  else if ty = TxType.name .votingEnd then (signed votingEnd rest).bind fun s => .ok (.votingEnd s)
  else if ty = TxType.name .mix then (signed mix rest).bind fun s => .ok (.mix s)
  else if ty = TxType.name .partialDecryption then (signed partialDecryption rest).bind fun s => .ok (.partialDecryption s)
  else if ty = TxType.name .decryption then (signed decryption rest).bind fun s => .ok (.decryption s)
  else .err .malformed

end De

/-- `#[serde(tag = "type")]` on `Signed<T>`, transaction.rs:89-104, 242-248. -/
def Signed.cborFields {T : Type} (f : T → Cbor) (ty : TxType) (s : Signed T) : Cbor :=
  .map [(str "type", .text ty.name), (str "tx", f s.tx), (str "sig", .bytes s.sig.val)]

/-- `Serialize for SignedTransaction`, transaction.rs:89-104. -/
def SignedTx.toCbor : SignedTx → Cbor
  | election s => s.cborFields ElectionTx.toCbor .election
  | keyGenCommitment s => s.cborFields KeyGenCommitmentTx.toCbor .keyGenCommitment
  | keyGenShare s => s.cborFields KeyGenShareTx.toCbor .keyGenShare
  | keyGenPublicKey s => s.cborFields KeyGenPublicKeyTx.toCbor .keyGenPublicKey
  | encryptionKey s => s.cborFields EncryptionKeyTx.toCbor .encryptionKey
  | vote s => s.cborFields VoteTx.toCbor .vote
  | votingEnd s => s.cborFields VotingEndTx.toCbor .votingEnd
  | mix s => s.cborFields MixTx.toCbor .mix
  | partialDecryption s => s.cborFields PartialDecryptionTx.toCbor .partialDecryption
  | decryption s => s.cborFields DecryptionTx.toCbor .decryption

/-- `SignedTransaction::as_bytes`, transaction.rs:124-126. -/
def SignedTx.asBytes (t : SignedTx) : Bytes := t.toCbor.encode

/-- `SignedTransaction::from_bytes`, transaction.rs:129-131. -/
def SignedTx.fromBytes (bs : Bytes) : DRes SignedTx :=
  (Res.ofOption (Cbor.decode bs) .malformed).bind De.signedTx

end CB
