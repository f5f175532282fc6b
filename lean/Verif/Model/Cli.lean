import Verif.Model.Report
import Verif.Model.Client
import Verif.Model.Authn
/-!
# The command line as a whole (cryptoballot_cli/src/main.rs and the commands), and the node's key (cryptoballot_server/src/main.rs)

A run of the program is a function of the secret key given to it, the command, the answers of the node it talks to, and randomness; its outcome is what it prints on standard
output, writes to the file named by `--secret` and posts to the node, or an exit with status 1, or a panic.

The arguments as typed, environment variables, shell expansion and files are in Verif/Model/Args.lean.  Not modelled: messages on standard error, the text of the serialized RSA secrets
(command_authn.rs:40).
-/

namespace CB
namespace Cli

/-- `std::process::exit(1)` with its message. (main.rs:242, 246; command_election.rs:20-21; command_post_transaction.rs:16, 22, 33, 60; command_e2e.rs:10, 20, 26, 35.) -/
inductive Exit
  | invalidSecretKey
  | missingSecretKey
  | unreadableTransaction
  | e2e (e : E2e.Exit)
  deriving DecidableEq, Repr

/-- main.rs:239-250: the option's text as a secret key. -/
def parseSecretKey (text : Str) : Res Exit SecretKey :=
  match hexDecode text with
  | none => .err .invalidSecretKey
  | some bytes => if h : bytes.length = 32 then .ok ⟨bytes, h⟩ else .err .invalidSecretKey

/-- main.rs:230-250: the option or environment variable, if there is one. -/
def secretKey : Option Str → Res Exit (Option SecretKey)
  | none => .ok none
  | some text => (parseSecretKey text).bind fun sk => .ok (some sk)

/-- What a run leaves behind. (`println!` and the files written by command_trustee.rs:14-41 and command_authn.rs:14-54.) -/
structure Output where
  /-- lines on standard output -/
  printed : List Bytes := []
  /-- the content of the file named by `--secret` -/
  file : Option Bytes := none
  /-- what is sent to the node, in order -/
  posted : List Exonum.Envelope := []

/-- The subcommands with their arguments; `post` is the flag `--post`, `content` that of the file to be posted. (main.rs:16-219.) -/
inductive Command
  | post (content : Bytes)
  | keygen
  | sign
  | get (id : Str) (pretty : Bool)
  | tally (id : Str)
  | e2e (id : Str) (flags : E2e.Flags)
  | trusteeGenerate
  | authnGenerate (keysize : Nat)
  | electionGenerate (post : Bool)
  | voteGenerate (id vote : Str) (post : Bool)
  | votingEndGenerate (id : Str) (post : Bool)

/-- What the random generators produce in a run: a fresh key pair, an election id, an authenticator's id and RSA keys, the randomness of encryption, and the order of hash tables.
(util.rs:6-10, command_vote.rs:20-27, command_election.rs:34.) -/
structure Randomness where
  secret : SecretKey
  election : BArr 15
  uuid : Uuid
  rsa : Nat → Option RsaPrivateKey
  rng : Rng
  /-- tallystick, whose order of totals is that of a hash table (command_e2e.rs:70, 90) -/
  plurality : E2e.Plurality

/-- An error that the program `unwrap`s. (main.rs:336, 339, 353, 356.) -/
def unwrap {ε α : Type} : Res ε α → Res Exit α
  | .ok a => .ok a
  | .err _ => .panic .unwrapFailed
  | .panic p => .panic p

/-- command_election.rs:73-79, command_vote.rs:80-87, command_voting_end.rs:49-55: print the transaction, and post it if asked to. -/
def emit (post : Bool) (t : SignedTx) : Output :=
  { printed := [Json.printTx .pretty t], posted := if post then [Client.posted t] else [] }

/-- command_keygen.rs:1-10. -/
def keygen (N : NodeEnv) (sk : SecretKey) : Output :=
  { printed := [str "secret-key: " ++ hexEncode sk.val, str "public-key: " ++ hexEncode (N.edPublic sk).val] }

/-- `command_trustee_generate`, command_trustee.rs:14-41. -/
def trusteeGenerate (N : NodeEnv) (sk : SecretKey) : Res Exit Output :=
  (Trustee.new N sk 1 1 1).bind fun t => .ok { printed := [Json.write .pretty 0 (Json.trustee t)], file := some (hexEncode sk.val) }

/-- `command_authn_generate`, command_authn.rs:14-54, up to the text of the secrets: the authenticator, of which the JSON is printed, and its secrets. -/
def authnGenerate (N : NodeEnv) (R : Randomness) (keysize : Nat) : Res Exit (Authenticator × IndexMap Str RsaPrivateKey) :=
  unwrap (Authenticator.new N R.uuid R.rsa keysize [str "TEST"])

/-- `command_get_transaction`, main.rs:333-348. -/
def get (s : Exonum.Schema) (id : Str) (pretty : Bool) : Res Exit Output :=
  (unwrap (Identifier.fromStr id)).bind fun i => (unwrap (Client.getTransaction s i)).bind fun t =>
    .ok { printed := [Json.printTx (if pretty then .pretty else .compact) t] }

/-- `command_tally`, main.rs:350-357 (the rest of the function is commented out): the conversion into an election panics on other transactions. -/
def tally (s : Exonum.Schema) (id : Str) : Res Exit Output :=
  (unwrap (Identifier.fromStr id)).bind fun i => (unwrap (Client.getTransaction s i)).bind fun t => (unwrap t.intoElection).bind fun _ => .ok {}

/-- What the node answers to a request for a transaction, for the client. (rest.rs:49-61.) -/
def lookup (s : Exonum.Schema) (id : Identifier) : Option SignedTx :=
  match Client.getTransaction s id with
  | .ok t => some t
  | _ => none

/-- A secret key where one is needed, command_election.rs:18-23 and command_voting_end.rs:13-18. -/
def needKey : Option SecretKey → Res Exit SecretKey
  | none => .err .missingSecretKey
  | some sk => .ok sk

/-- The subcommands, main.rs:252-300.  Simplified: the file written by `authn generate` (the JSON text of the rsa crate's private keys) is left empty.
`sign` asks clap for an argument that does not exist, `value_of("algorithim").unwrap()` (main.rs:305). -/
def command (N : NodeEnv) (s : Exonum.Schema) (R : Randomness) (key : Option SecretKey) : Command → Res Exit Output
  | .post content =>
    match Client.postFile content with
    | .ok ts => .ok { posted := ts.map Client.posted }
    | .err _ => .err .unreadableTransaction
    | .panic p => .panic p
  | .keygen => .ok (keygen N R.secret)
  | .sign => .panic .unwrapFailed
  | .get id pretty => get s id pretty
  | .tally id => tally s id
  | .e2e id flags => (Res.mapErr Exit.e2e (Client.report N.toEnv R.plurality flags s id)).bind fun lines => .ok { printed := lines }
  | .trusteeGenerate => trusteeGenerate N R.secret
  | .authnGenerate keysize => (authnGenerate N R keysize).bind fun a => .ok { printed := [Json.write .pretty 0 (Json.authenticator a.1)], file := some [] }
  | .electionGenerate post => (needKey key).bind fun sk => (Client.electionGenerate N sk R.election).bind fun t => .ok (emit post t)
  | .voteGenerate id text post => (unwrap (Client.voteGenerate N (key.getD R.secret) R.rng (lookup s) id text)).bind fun t => .ok (emit post t)
  | .votingEndGenerate id post => (needKey key).bind fun sk => (Client.votingEndGenerate N sk id).bind fun t => .ok (emit post t)

/-- `main`, main.rs:16-301: the secret key is read first, whether or not the command needs one. -/
def run (N : NodeEnv) (s : Exonum.Schema) (R : Randomness) (key : Option Str) (c : Command) : Res Exit Output :=
  (secretKey key).bind fun sk => command N s R sk c

end Cli

namespace Server

/-- cryptoballot_server/src/main.rs:40-46: the key that the node signs with, from the 64 bytes of the Exonum service key (seed and public key). -/
def serviceSecret (keypair : BArr 64) : SecretKey := ⟨keypair.val.take 32, by simp [keypair.property]⟩

/-- main.rs:49-57: the line that a development node prints (`to_hex()[..64]`). -/
def devLine (keypair : BArr 64) : Str := str "CRYPTOBALLOT_SECRET_KEY=" ++ (hexEncode keypair.val).take 64

end Server
end CB
