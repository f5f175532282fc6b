import Verif.Model.Cli
/-!
# What the program does with its arguments, its environment and its files (cryptoballot_cli/src/main.rs)

`Cli.run` is the program from the point where the arguments have been looked up.  Here is the way there: which node and which key are used, which arguments go through shell expansion,
which files are read and written.

Not modelled: how clap takes the words of the command line apart (main.rs:17-221); its result is `Arguments`.  The shell expansion is that of a crate (`shellexpand::full`), of which the
source is not at hand: it is a parameter.
-/

namespace CB
namespace Cli

/-- The computer that the program runs on. -/
structure World where
  /-- `std::env::var`, main.rs:224, 231 -/
  envVar : Str → Option Str
  /-- `std::fs::read`, command_post_transaction.rs:12 -/
  file : Str → Option Bytes
  /-- where `File::create` and `write_all` succeed, command_trustee.rs:22-36, command_authn.rs:32-50 (simplified: a write succeeds wherever the creation does) -/
  writable : Str → Bool
  /-- `shellexpand::full`, main.rs:385 -/
  expand : Str → Option Str

/-- The subcommands with the texts given for their arguments. (main.rs:32-219.) -/
inductive Subcommand
  | post (input : Str)
  | keygen
  | sign (input secret : Str)
  | get (id : Str) (pretty : Bool)
  | tally (id : Str)
  | e2e (id : Str) (flags : E2e.Flags)
  | trusteeGenerate (secret : Str)
  | authnGenerate (secret : Str) (keysize : Option Str)
  | electionGenerate (post : Bool)
  | voteGenerate (id vote : Str) (post : Bool)
  | votingEndGenerate (id : Str) (post : Bool)

/-- What clap makes of the command line. (main.rs:221.) -/
structure Arguments where
  uri : Option Str := none
  secretKey : Option Str := none
  /-- `none`: no subcommand, the program prints its help (main.rs:298-300) -/
  sub : Option Subcommand := none

/-- The ends of a run other than success and a panic: those of `Cli.Exit`, and (with status 1, too) a text that cannot be expanded (main.rs:386-389), a file that cannot be read
(command_post_transaction.rs:14-17) or written (command_trustee.rs:22-28, command_authn.rs:32-38). -/
inductive MainExit
  | expanding
  | reading
  | writing
  | command (e : Exit)
  deriving DecidableEq, Repr

/-- `expand`, main.rs:384-391. -/
def expand (W : World) (text : Str) : Res MainExit Str :=
  match W.expand text with
  | some t => .ok t
  | none => .err .expanding

/-- `usize::from_str`, for `--keysize` (command_authn.rs:17-21): digits, perhaps after a plus sign, for a number below 2⁶⁴. -/
def parseUsize (text : Str) : Option Nat :=
  let digits := if text.head? = some 43 then text.tail else text
  if digits ≠ [] ∧ digits.all Json.isDigit ∧ Json.ofDigits digits < 2 ^ 64 then some (Json.ofDigits digits) else none

/-- main.rs:225-228. -/
def nodeUri (W : World) (a : Arguments) : Str :=
  match a.uri with
  | some u => u
  | none => (W.envVar (str "CRYPTOBALLOT_URI")).getD (str "http://localhost:8080")

/-- main.rs:232-238. -/
def keyArgument (W : World) (a : Arguments) : Option Str :=
  match a.secretKey with
  | some k => some k
  | none => W.envVar (str "CRYPTOBALLOT_SECRET_KEY")

/-- The command with its arguments as the program works with them, and the file that it writes to.  (command_post_transaction.rs:10-18; main.rs:303-305, 333-336, 350-353;
command_e2e.rs:6; command_trustee.rs:14-16; command_authn.rs:14-21, 146-150 of main.rs for the default; command_election.rs:11-27; command_vote.rs:29-31; command_voting_end.rs:13-18, 34.) -/
def resolve (W : World) (key : Option SecretKey) : Subcommand → Res MainExit (Command × Option Str)
  | .post input => (expand W input).bind fun f =>
    match W.file f with
    | some content => .ok (.post content, none)
    | none => .err .reading
  | .keygen => .ok (.keygen, none)
  | .sign _ _ => .ok (.sign, none)
  | .get id pretty => .ok (.get id pretty, none)
  | .tally id => .ok (.tally id, none)
  | .e2e id flags => (expand W id).bind fun id => .ok (.e2e id flags, none)
  | .trusteeGenerate secret => (expand W secret).bind fun f => .ok (.trusteeGenerate, some f)
  | .authnGenerate secret keysize => (expand W secret).bind fun f =>
    match parseUsize (keysize.getD (str "4096")) with
    | some n => .ok (.authnGenerate n, some f)
    | none => .panic .unwrapFailed
  | .electionGenerate post => .ok (.electionGenerate post, none)
  | .voteGenerate id text post => (expand W id).bind fun id => (expand W text).bind fun text => .ok (.voteGenerate id text post, none)
  | .votingEndGenerate id post => (Res.mapErr .command (needKey key)).bind fun _ => (expand W id).bind fun id => .ok (.votingEndGenerate id post, none)

/-- What a run leaves behind, with the place of the file. -/
structure Done where
  out : Output := {}
  location : Option Str := none

/-- `File::create` and `write_all`, command_trustee.rs:22-36, command_authn.rs:32-50: they come before anything is printed. -/
def save (W : World) (location : Option Str) (out : Output) : Res MainExit Done :=
  match location with
  | none => .ok ⟨out, none⟩
  | some l => if W.writable l then .ok ⟨out, some l⟩ else .err .writing

/-- `main`, main.rs:16-301, where `nodes` tells what the node at an address answers.  The help text is left out. -/
def main (N : NodeEnv) (nodes : Str → Exonum.Schema) (R : Randomness) (W : World) (a : Arguments) : Res MainExit Done :=
  (Res.mapErr .command (secretKey (keyArgument W a))).bind fun key =>
    match a.sub with
    | none => .ok {}
    | some sub => (resolve W key sub).bind fun c => (Res.mapErr .command (command N (nodes (nodeUri W a)) R key c.1)).bind fun out => save W c.2 out

/-- The files after a run: `File::create` empties a file that exists. (command_trustee.rs:22, command_authn.rs:32.) -/
def filesAfter (W : World) (d : Done) (f : Str) : Option Bytes :=
  if d.location = some f then d.out.file else W.file f

end Cli
end CB
