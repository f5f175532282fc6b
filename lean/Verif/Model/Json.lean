import Verif.Model.Decode
import Verif.Model.Exonum
import Verif.Model.Api
import Verif.Model.E2e
/-!
# Transactions as JSON text (serde_json 1.0.64), and the commands and requests that carry them

The command line prints transactions as JSON (command_election.rs:73, command_vote.rs:80, command_voting_end.rs:49, main.rs:341-345), `cryptoballot post` reads such
files (command_post_transaction.rs), and the node's read API answers in JSON (api.rs) which the client reads (rest.rs:48-75).  Values are the items of `Model/Cbor.lean`
without byte strings: serde's data model is the same, and the derived `Deserialize` (`De`) is the same code for both formats.

serde_json is third-party; what is modelled is RFC 8259 text as serde_json writes and reads it: its two layouts, its escapes, its recursion limit.  Simplifications: numbers with
a fraction or an exponent, or beyond 64 bits, are not modelled (not written, refused when read); the feature `arbitrary_precision` is taken to be off; the input is
taken to be UTF-8 (`String::from_utf8`, command_post_transaction.rs:21) as far as it lies outside strings.
-/

namespace CB
namespace Json

/-! ## Writing -/

/-- The decimal digits of `n`, at most `fuel` of them, before `acc`. (`serde_json::to_string`, used in command_vote.rs:80, main.rs:342-344.) -/
def digitsFrom : (fuel : Nat) → Nat → Bytes → Bytes
  | 0, _, acc => acc
  | f + 1, n, acc =>
    if n < 10 then UInt8.ofNat (48 + n) :: acc else digitsFrom f (n / 10) (UInt8.ofNat (48 + n % 10) :: acc)

/-- `itoa`: a 64-bit number has at most 20 digits. (`serde_json::to_string`, used in command_vote.rs:80, main.rs:342-344.) -/
def digits (n : Nat) : Bytes := digitsFrom 20 n []

/-- `format_escaped_str_contents` (serde_json): the escape of one byte of UTF-8. -/
def escape (b : UInt8) : Bytes :=
  if b = 0x22 then [0x5c, 0x22] else if b = 0x5c then [0x5c, 0x5c]
  else if b = 0x08 then [0x5c, 0x62] else if b = 0x09 then [0x5c, 0x74] else if b = 0x0a then [0x5c, 0x6e]
  else if b = 0x0c then [0x5c, 0x66] else if b = 0x0d then [0x5c, 0x72]
  else if b < 0x20 then [0x5c, 0x75, 0x30, 0x30, hexDigit (b.toNat / 16), hexDigit (b.toNat % 16)]
  else [b]

/-- A string in quotes. (`serde_json::to_string`, used in command_vote.rs:80, main.rs:342-344.) -/
def quoted (s : Str) : Bytes := 0x22 :: (s.flatMap escape ++ [0x22])

/-- The two layouts of serde_json: `to_string` (no white space) and `to_string_pretty` (a line per item, indented by two spaces per level, and a space after a colon). -/
inductive Layout
  | compact
  | pretty
  deriving DecidableEq, Repr

/-- What is written before an item at nesting level `k`, and before a closing bracket. (`serde_json::to_string`, used in command_vote.rs:80, main.rs:342-344.) -/
def Layout.line : Layout → Nat → Bytes
  | .compact, _ => []
  | .pretty, k => 0x0a :: List.replicate (2 * k) 0x20

/-- What is written after a key. (`serde_json::to_string`, used in command_vote.rs:80, main.rs:342-344.) -/
def Layout.colon : Layout → Bytes
  | .compact => [0x3a]
  | .pretty => [0x3a, 0x20]

mutual
/-- `serde_json::to_string`, `to_string_pretty`: an item at nesting level `k`.  (JSON has no byte strings and the modelled values no fractional numbers: both are
written as null here, and excluded where it matters.) -/
def write (L : Layout) : Nat → Cbor → Bytes
  | _, .uint n => digits n.toNat
  | _, .nint n => 0x2d :: digits (n.toNat + 1)
  | _, .text s => quoted s
  | _, .bool b => if b then str "true" else str "false"
  | _, .array [] => [0x5b, 0x5d]
  | k, .array (c :: cs) => 0x5b :: (L.line (k + 1) ++ write L (k + 1) c ++ writeItems L (k + 1) cs ++ L.line k ++ [0x5d])
  | _, .map [] => [0x7b, 0x7d]
  | k, .map ((n, c) :: cs) =>
    0x7b :: (L.line (k + 1) ++ quoted n ++ L.colon ++ write L (k + 1) c ++ writeEntries L (k + 1) cs ++ L.line k ++ [0x7d])
  | _, .null => str "null"
  | _, .bytes _ => str "null"
  | _, .float _ => str "null"

/-- The further items of an array. (`serde_json::to_string`, used in command_vote.rs:80, main.rs:342-344.) -/
def writeItems (L : Layout) : Nat → List Cbor → Bytes
  | _, [] => []
  | k, c :: cs => 0x2c :: (L.line k ++ write L k c ++ writeItems L k cs)

/-- The further entries of an object, in insertion order (`preserve_order`). (`serde_json::to_string`, used in command_vote.rs:80, main.rs:342-344.) -/
def writeEntries (L : Layout) : Nat → List (Str × Cbor) → Bytes
  | _, [] => []
  | k, (n, c) :: cs => 0x2c :: (L.line k ++ quoted n ++ L.colon ++ write L k c ++ writeEntries L k cs)
end

/-! ## Reading -/

/-- White space. (`serde_json::from_str`, used in command_post_transaction.rs:28, 48.) -/
def isWs (b : UInt8) : Bool := b == 0x20 || b == 0x0a || b == 0x0d || b == 0x09

/-- `parse_whitespace`. (`serde_json::from_str`, used in command_post_transaction.rs:28, 48.) -/
def skipWs (bs : Bytes) : Bytes := bs.dropWhile isWs

/-- `serde_json::from_str`, used in command_post_transaction.rs:28, 48. -/
def isDigit (b : UInt8) : Bool := 0x30 ≤ b && b ≤ 0x39

/-- `serde_json::from_str`, used in command_post_transaction.rs:28, 48. -/
def ofDigits (ds : Bytes) : Nat := ds.foldl (fun n d => 10 * n + (d.toNat - 48)) 0

/-- `parse_integer`: digits without a leading zero, not followed by a fraction or an exponent; the value and the rest.
(`serde_json::from_str`, used in command_post_transaction.rs:28, 48.) -/
def readDigits (bs : Bytes) : Option (Nat × Bytes) :=
  let ds := bs.takeWhile isDigit
  let r := bs.dropWhile isDigit
  if ds.isEmpty then none
  else if ds.head? = some 0x30 ∧ ds.length ≠ 1 then none
  else match r with
    | [] => some (ofDigits ds, [])
    | b :: r' => if b = 0x2e ∨ b = 0x65 ∨ b = 0x45 then none else some (ofDigits ds, b :: r')

/-- A number: unsigned below 2^64, negative down to -2^63 (others would be read as floating point: refused, also `-0`).
(`serde_json::from_str`, used in command_post_transaction.rs:28, 48.) -/
def readNumber : Bytes → Option (Cbor × Bytes)
  | [] => none
  | b :: bs =>
    if b = 0x2d then
      (readDigits bs).bind fun (n, r) => if 0 < n ∧ n ≤ 2 ^ 63 then some (.nint (UInt64.ofNat (n - 1)), r) else none
    else (readDigits (b :: bs)).bind fun (n, r) => if n < 2 ^ 64 then some (.uint (UInt64.ofNat n), r) else none

/-- `decode_hex_escape`: four hexadecimal digits. (`serde_json::from_str`, used in command_post_transaction.rs:28, 48.) -/
def readHex4 : Bytes → Option (Nat × Bytes)
  | a :: b :: c :: d :: r =>
    match hexVal a, hexVal b, hexVal c, hexVal d with
    | some a, some b, some c, some d => some (((a * 16 + b) * 16 + c) * 16 + d, r)
    | _, _, _, _ => none
  | _ => none

/-- UTF-8 of a code point. (`serde_json::from_str`, used in command_post_transaction.rs:28, 48.) -/
def utf8 (n : Nat) : Bytes :=
  if n < 0x80 then [UInt8.ofNat n]
  else if n < 0x800 then [UInt8.ofNat (0xc0 + n / 64), UInt8.ofNat (0x80 + n % 64)]
  else if n < 0x10000 then [UInt8.ofNat (0xe0 + n / 4096), UInt8.ofNat (0x80 + n / 64 % 64), UInt8.ofNat (0x80 + n % 64)]
  else [UInt8.ofNat (0xf0 + n / 262144), UInt8.ofNat (0x80 + n / 4096 % 64), UInt8.ofNat (0x80 + n / 64 % 64), UInt8.ofNat (0x80 + n % 64)]

/-- `parse_escape`: what follows a backslash; surrogates only as a pair. (`serde_json::from_str`, used in command_post_transaction.rs:28, 48.) -/
def readEscape : Bytes → Option (Bytes × Bytes)
  | [] => none
  | b :: r =>
    if b = 0x22 then some ([0x22], r) else if b = 0x5c then some ([0x5c], r) else if b = 0x2f then some ([0x2f], r)
    else if b = 0x62 then some ([0x08], r) else if b = 0x66 then some ([0x0c], r) else if b = 0x6e then some ([0x0a], r)
    else if b = 0x72 then some ([0x0d], r) else if b = 0x74 then some ([0x09], r)
    else if b = 0x75 then
      (readHex4 r).bind fun (n, r) =>
        if 0xdc00 ≤ n ∧ n ≤ 0xdfff then none
        else if 0xd800 ≤ n ∧ n ≤ 0xdbff then
          match r with
          | 0x5c :: 0x75 :: r => (readHex4 r).bind fun (m, r) =>
            if 0xdc00 ≤ m ∧ m ≤ 0xdfff then some (utf8 (0x10000 + (n - 0xd800) * 1024 + (m - 0xdc00)), r) else none
          | _ => none
        else some (utf8 n, r)
    else none

/-- `parse_str`: the content of a string and what follows its closing quote; control characters must be escaped.
(`serde_json::from_str`, used in command_post_transaction.rs:28, 48.) -/
def readChars : (fuel : Nat) → Bytes → Option (Str × Bytes)
  | 0, _ => none
  | _ + 1, [] => none
  | f + 1, b :: r =>
    if b = 0x22 then some ([], r)
    else if b = 0x5c then (readEscape r).bind fun (c, r) => (readChars f r).map fun (s, r) => (c ++ s, r)
    else if b < 0x20 then none
    else (readChars f r).map fun (s, r) => (b :: s, r)

/-- A string after its opening quote. (`serde_json::from_str`, used in command_post_transaction.rs:28, 48.) -/
def readStr (bs : Bytes) : Option (Str × Bytes) :=
  (readChars (bs.length + 1) bs).bind fun (s, r) => if validUtf8 s then some (s, r) else none

/-- A quoted key. (`serde_json::from_str`, used in command_post_transaction.rs:28, 48.) -/
def readKey (bs : Bytes) : Option (Str × Bytes) :=
  match skipWs bs with
  | 0x22 :: r => readStr r
  | _ => none

/-- `SeqAccess`: items separated by commas, to the closing bracket. (`serde_json::from_str`, used in command_post_transaction.rs:28, 48.) -/
def readItems {α : Type} (close : UInt8) (item : Bytes → Option (α × Bytes)) : (fuel : Nat) → Bytes → Option (List α × Bytes)
  | 0, _ => none
  | f + 1, bs => (item bs).bind fun (a, r) =>
    match skipWs r with
    | [] => none
    | b :: r => if b = close then some ([a], r) else if b = 0x2c then (readItems close item f r).map fun (as, r) => (a :: as, r) else none

/-- A container after its opening bracket: empty, or items. (`serde_json::from_str`, used in command_post_transaction.rs:28, 48.) -/
def readContainer {α : Type} (close : UInt8) (item : Bytes → Option (α × Bytes)) (bs : Bytes) : Option (List α × Bytes) :=
  match skipWs bs with
  | [] => none
  | b :: r => if b = close then some ([], r) else readItems close item (bs.length + 1) (b :: r)

/-- An entry of an object. (`serde_json::from_str`, used in command_post_transaction.rs:28, 48.) -/
def readEntry (item : Bytes → Option (Cbor × Bytes)) (bs : Bytes) : Option ((Str × Cbor) × Bytes) :=
  (readKey bs).bind fun (k, r) =>
    match skipWs r with
    | 0x3a :: r => (item r).map fun (v, r) => ((k, v), r)
    | _ => none

/-- A given word. (`serde_json::from_str`, used in command_post_transaction.rs:28, 48.) -/
def readWord (w : Str) (c : Cbor) (bs : Bytes) : Option (Cbor × Bytes) := if w.isPrefixOf bs then some (c, bs.drop w.length) else none

/-- `parse_value`, given how to read the items of a container (`none`: no further nesting allowed). (`serde_json::from_str`, used in command_post_transaction.rs:28, 48.) -/
def readStep (inner : Option (Bytes → Option (Cbor × Bytes))) (bs : Bytes) : Option (Cbor × Bytes) :=
  match skipWs bs with
  | [] => none
  | b :: r =>
    if b = 0x6e then readWord (str "null") .null (b :: r)
    else if b = 0x74 then readWord (str "true") (.bool true) (b :: r)
    else if b = 0x66 then readWord (str "false") (.bool false) (b :: r)
    else if b = 0x22 then (readStr r).map fun (s, r) => (.text s, r)
    else if b = 0x5b then inner.bind fun item => (readContainer 0x5d item r).map fun (l, r) => (.array l, r)
    else if b = 0x7b then inner.bind fun item => (readContainer 0x7d (readEntry item) r).map fun (l, r) => (.map l, r)
    else readNumber (b :: r)

/-- A value; `depth` is the number of nested containers still allowed (`remaining_depth`, 128 at the start and an error at 0, so 127 containers).
(`serde_json::from_str`, used in command_post_transaction.rs:28, 48.) -/
def readValue : (depth : Nat) → Bytes → Option (Cbor × Bytes)
  | 0 => readStep none
  | d + 1 => readStep (some (readValue d))

/-- `serde_json::from_str`, `from_slice`: one value, and nothing but white space after it. -/
def parse (bs : Bytes) : Option Cbor :=
  (readValue 127 bs).bind fun (c, r) => if (skipWs r).isEmpty then some c else none

/-! ## Transactions as JSON values

As `toCbor` (Model/Types.lean), with byte strings as text: serde_json reports itself human readable. -/

/-- Bytes as hexadecimal text, serde_hex.rs:12-28. -/
def hex (b : Bytes) : Cbor := .text (hexEncode b)

/-- `Uuid` as text: five hyphenated groups. (authn.rs:38, 180.) -/
def uuid (u : Uuid) : Cbor :=
  let h := hexEncode u.val
  .text (h.take 8 ++ 0x2d :: ((h.drop 8).take 4 ++ 0x2d :: ((h.drop 12).take 4 ++ 0x2d :: ((h.drop 16).take 4 ++ 0x2d :: h.drop 20))))

/-- trustee.rs:31-44, serde_hex.rs:12-28. -/
def trustee (t : Trustee) : Cbor := .map [(str "public_key", hex t.publicKey.val), (str "index", .u8 t.index)]

/-- authn.rs:36-40. -/
def authenticator (a : Authenticator) : Cbor :=
  .map [(str "id", uuid a.id), (str "public_keys", .map (a.publicKeys.entries.map fun e => (e.1, hex e.2.raw)))]

/-- authn.rs:178-184. -/
def authentication (a : Authentication) : Cbor :=
  .map [(str "authenticator", uuid a.authenticator), (str "signature", hex a.signature)]

/-- vote.rs:34-38. -/
def encryptedVote (v : EncryptedVote) : Cbor :=
  .map [(str "contest_index", .u32 v.contestIndex), (str "selections", .array (v.selections.map fun c => hex c.raw))]

/-- election.rs:8-49. -/
def election (t : ElectionTx) : Cbor :=
  .map [(str "id", .ident t.id), (str "authority_public", hex t.authorityPublic.val),
    (str "trustees", .array (t.trustees.map trustee)), (str "trustees_threshold", .u8 t.trusteesThreshold),
    (str "authenticators", .array (t.authenticators.map authenticator)),
    (str "authenticators_threshold", .u8 t.authenticatorsThreshold),
    (str "mix_config", .opt MixConfig.toCbor t.mixConfig), (str "ballots", .array (t.ballots.map Ballot.toCbor)),
    (str "contests", .array (t.contests.map Contest.toCbor)), (str "properties", .props t.properties)]

/-- keygen.rs:8-19. -/
def keyGenCommitment (t : KeyGenCommitmentTx) : Cbor :=
  .map [(str "id", .ident t.id), (str "election", .ident t.election), (str "trustee_index", .u8 t.trusteeIndex),
    (str "trustee_public_key", hex t.trusteePublicKey.val), (str "x25519_public_key", hex t.x25519PublicKey.val),
    (str "commitment", hex t.commitment.raw)]

/-- keygen.rs:22-32, `EncryptedShare` trustee.rs:331-346. -/
def keyGenShare (t : KeyGenShareTx) : Cbor :=
  .map [(str "id", .ident t.id), (str "election", .ident t.election), (str "trustee_index", .u8 t.trusteeIndex),
    (str "trustee_public_key", hex t.trusteePublicKey.val),
    (str "shares", .array (t.shares.entries.map fun e => .array [.u8 e.1, hex e.2.raw]))]

/-- keygen.rs:35-44. -/
def keyGenPublicKey (t : KeyGenPublicKeyTx) : Cbor :=
  .map [(str "id", .ident t.id), (str "election", .ident t.election), (str "trustee_index", .u8 t.trusteeIndex),
    (str "trustee_public_key", hex t.trusteePublicKey.val), (str "public_key", hex t.publicKey.raw),
    (str "public_key_proof", hex t.publicKeyProof.raw)]

/-- keygen.rs:47-54. -/
def encryptionKey (t : EncryptionKeyTx) : Cbor :=
  .map [(str "id", .ident t.id), (str "election", .ident t.election),
    (str "authority_public_key", hex t.authorityPublicKey.val), (str "encryption_key", hex t.encryptionKey.raw)]

/-- vote.rs:17-32. -/
def vote (t : VoteTx) : Cbor :=
  .map [(str "id", .ident t.id), (str "election", .ident t.election), (str "ballot_id", .text t.ballotId),
    (str "encrypted_votes", .array (t.encryptedVotes.map encryptedVote)),
    (str "anonymous_key", hex t.anonymousKey.val),
    (str "authentication", .array (t.authentication.map authentication))]

/-- voting_end.rs:5-11. -/
def votingEnd (t : VotingEndTx) : Cbor :=
  .map [(str "id", .ident t.id), (str "election", .ident t.election), (str "authority_public_key", hex t.authorityPublicKey.val)]

/-- mix.rs:17-54. -/
def mix (t : MixTx) : Cbor :=
  .map [(str "id", .ident t.id), (str "election_id", .ident t.electionId), (str "prev_mix_id", .opt .ident t.prevMixId),
    (str "trustee_index", .u8 t.trusteeIndex), (str "trustee_public_key", hex t.trusteePublicKey.val),
    (str "mix_index", .u8 t.mixIndex), (str "contest_index", .u32 t.contestIndex), (str "batch", .u32 t.batch),
    (str "vote_ids", .array (t.voteIds.map .ident)),
    (str "mixed_ciphertexts", .array (t.mixedCiphertexts.map fun l => .array (l.map fun c => hex c.raw))),
    (str "proof", hex t.proof.raw)]

/-- decryption.rs:11-31. -/
def partialDecryption (t : PartialDecryptionTx) : Cbor :=
  .map [(str "id", .ident t.id), (str "election_id", .ident t.electionId), (str "upstream_id", .ident t.upstreamId),
    (str "upstream_index", .u16 t.upstreamIndex), (str "contest_index", .u32 t.contestIndex),
    (str "trustee_index", .u8 t.trusteeIndex), (str "trustee_public_key", hex t.trusteePublicKey.val),
    (str "partial_decryption", .array (t.partialDecryption.map fun s => hex s.raw))]

/-- `#[serde(tag = "type")]` on `Signed<T>`, transaction.rs:89-104, 242-248. -/
def signed {T : Type} (f : T → Cbor) (ty : TxType) (s : Signed T) : Cbor :=
  .map [(str "type", .text ty.name), (str "tx", f s.tx), (str "sig", hex s.sig.val)]

/-- `Serialize for SignedTransaction`, transaction.rs:89-104. -/
def ofTx : SignedTx → Cbor
  | .election s => signed election .election s
  | .keyGenCommitment s => signed keyGenCommitment .keyGenCommitment s
  | .keyGenShare s => signed keyGenShare .keyGenShare s
  | .keyGenPublicKey s => signed keyGenPublicKey .keyGenPublicKey s
  | .encryptionKey s => signed encryptionKey .encryptionKey s
  | .vote s => signed vote .vote s
  | .votingEnd s => signed votingEnd .votingEnd s
  | .mix s => signed mix .mix s
  | .partialDecryption s => signed partialDecryption .partialDecryption s
  | .decryption s => signed DecryptionTx.toCbor .decryption s

/-- `serde_json::to_string(&tx)`, `to_string_pretty(&tx)`. -/
def printTx (L : Layout) (t : SignedTx) : Bytes := write L 0 (ofTx t)

/-- The same for a `Vec<SignedTransaction>`. (`serde_json::to_string`, used in command_vote.rs:80, main.rs:342-344.) -/
def printTxs (L : Layout) (ts : List SignedTx) : Bytes := write L 0 (.array (ts.map ofTx))

/-- `serde_json::from_str::<SignedTransaction>`. -/
def readTx (bs : Bytes) : DRes SignedTx := (Res.ofOption (parse bs) .malformed).bind De.signedTx

/-- `serde_json::from_str::<Vec<SignedTransaction>>`. -/
def readTxs (bs : Bytes) : DRes (List SignedTx) := (Res.ofOption (parse bs) .malformed).bind (De.array De.signedTx)

end Json

/-! ## `cryptoballot post` -/

namespace Client

/-- `str::trim`.  (Simplification: only ASCII white space.) (command_post_transaction.rs:24.) -/
def trim (bs : Bytes) : Bytes := ((bs.dropWhile fun b => Json.isWs b || b == 0x0b || b == 0x0c).reverse.dropWhile fun b => Json.isWs b || b == 0x0b || b == 0x0c).reverse

/-- `command_post_transaction`, command_post_transaction.rs:5-65: the transactions posted, in order, for a file's content; an error where the command exits.
(Not modelled: the second of waiting between transactions of different types.) -/
def postFile (content : Bytes) : DRes (List SignedTx) :=
  let text := trim content
  if text.head? = some 0x5b then Json.readTxs text else (Json.readTx text).bind fun t => .ok [t]

/-- `post_transaction`, rest.rs:17-46: what is sent to the node.  (Not modelled: the fresh key pair that signs the Exonum message.) -/
def posted (t : SignedTx) : Exonum.Envelope := Exonum.Envelope.ofTx t

/-- `get_transaction`, rest.rs:49-61, against a node's answer: an error when the node does not answer with a transaction. -/
def getTransaction (s : Exonum.Schema) (id : Identifier) : DRes SignedTx :=
  match Api.getTx s id.toString with
  | .ok t => Json.readTx (Json.printTx .compact t)
  | .err _ => .err .malformed
  | .panic p => .panic p

/-- `get_transactions_by_prefix`, rest.rs:63-75. -/
def getTransactionsByPrefix (s : Exonum.Schema) (pre : Str) : DRes (List SignedTx) :=
  match Api.getAll s (some pre) with
  | .ok ts => Json.readTxs (Json.printTxs .compact ts)
  | .err _ => .err .malformed
  | .panic p => .panic p

/-- `command_e2e` up to `Election verified OK`, command_e2e.rs:5-40, against a node: the answer that cannot be read is unwrapped. -/
def e2e (E : Env) (s : Exonum.Schema) (electionId : Str) : Res E2e.Exit MemStore :=
  (E2e.queryPrefix electionId).bind fun p =>
    match getTransactionsByPrefix s p with
    | .ok ts => E2e.verify E ts
    | .err _ => .panic .unwrapFailed
    | .panic q => .panic q

end Client
end CB
