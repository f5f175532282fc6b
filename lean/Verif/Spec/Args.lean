import Verif.Model.Args
import Verif.Spec.JsonText
/-!
# Vocabulary for what the program does with its arguments (C108)
-/

namespace CB
namespace Cli

/-- A text in which a shell would not change anything: no dollar sign, no tilde in front. -/
def Plain (text : Str) : Prop := 0x24 ∉ text ∧ text.head? ≠ some 0x7e

/-- What the documentation of the expansion says: it is about variables (`$`) and the home directory (`~` in front), and leaves other texts alone. -/
def ExpandsLikeAShell (W : World) : Prop := ∀ text, Plain text → W.expand text = some text

/-- The command that a user asks for: the arguments as typed, the content of the file named, the number written for the size of keys (4096 if there is none), and the file to write to. -/
inductive Asked (file : Str → Option Bytes) : Subcommand → Command → Option Str → Prop
  | post {f content} (h : file f = some content) : Asked file (.post f) (.post content) none
  | keygen : Asked file .keygen .keygen none
  | sign {f g} : Asked file (.sign f g) .sign none
  | get {id p} : Asked file (.get id p) (.get id p) none
  | tally {id} : Asked file (.tally id) (.tally id) none
  | e2e {id flags} : Asked file (.e2e id flags) (.e2e id flags) none
  | trustee {f} : Asked file (.trusteeGenerate f) .trusteeGenerate (some f)
  | authnDefault {f} : Asked file (.authnGenerate f none) (.authnGenerate 4096) (some f)
  | authn {f text n} (h : Spec.Decimal text n) (hn : n < 2 ^ 64) : Asked file (.authnGenerate f (some text)) (.authnGenerate n) (some f)
  | election {p} : Asked file (.electionGenerate p) (.electionGenerate p) none
  | vote {id text p} : Asked file (.voteGenerate id text p) (.voteGenerate id text p) none
  | votingEnd {id p} : Asked file (.votingEndGenerate id p) (.votingEndGenerate id p) none

/-- The texts among the arguments that are file names, votes, or identifiers given to `e2e`, `vote` and `voting_end`. -/
def textsOf : Subcommand → List Str
  | .post f => [f]
  | .e2e id _ => [id]
  | .trusteeGenerate f => [f]
  | .authnGenerate f _ => [f]
  | .voteGenerate id text _ => [id, text]
  | .votingEndGenerate id _ => [id]
  | _ => []

/-- The value of a setting: that on the command line, if there is one, otherwise that of the variable of the environment, if it is set. -/
inductive Setting (W : World) (name : Str) : Option Str → Option Str → Prop
  | given {v} : Setting W name (some v) (some v)
  | environment {v} (h : W.envVar name = some v) : Setting W name none (some v)
  | unset (h : W.envVar name = none) : Setting W name none none

end Cli
end CB
