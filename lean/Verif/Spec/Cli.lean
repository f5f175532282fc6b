import Verif.Model.Cli
import Verif.Spec.Text
/-!
# Specification vocabulary for the command line
-/

namespace CB.Spec
open Cli

/-- The second command is the first with the flag `--post`. -/
inductive WithPost : Command → Command → Prop
  | election : WithPost (.electionGenerate false) (.electionGenerate true)
  | vote (id text : Str) : WithPost (.voteGenerate id text false) (.voteGenerate id text true)
  | votingEnd (id : Str) : WithPost (.votingEndGenerate id false) (.votingEndGenerate id true)

/-- The text is the hexadecimal form of 32 bytes, in small or capital letters. -/
def KeyText (text : Str) (sk : SecretKey) : Prop := HexOf text sk.val

/-- The commands that make a transaction. -/
inductive Makes : Command → Prop
  | election (post : Bool) : Makes (.electionGenerate post)
  | vote (id text : Str) (post : Bool) : Makes (.voteGenerate id text post)
  | votingEnd (id : Str) (post : Bool) : Makes (.votingEndGenerate id post)

/-- The transaction is an election or an end of voting of this authority, or a vote with this key. -/
def MadeWith (key : PublicKey) : SignedTx → Prop
  | .election s => s.tx.authorityPublic = key
  | .vote s => s.tx.anonymousKey = key
  | .votingEnd s => s.tx.authorityPublicKey = key
  | _ => False

/-- Reading a trustee from JSON text. -/
def readTrustee (text : Bytes) : DRes Trustee := (Res.ofOption (Json.parse text) .malformed).bind De.trustee

/-- Reading an authenticator from JSON text. -/
def readAuthenticator (text : Bytes) : DRes Authenticator := (Res.ofOption (Json.parse text) .malformed).bind De.authenticator

end CB.Spec
