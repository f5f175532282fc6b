import Verif.Model.MemStore
import Verif.Model.Validate
import Verif.Model.Tally
/-!
# `cryptoballot e2e` (cryptoballot_cli/src/command_e2e.rs)

Not modelled: argument parsing and shell expansion of the election id; what is printed is in Model/Report.  The list of transactions is what the server answered (Model/Json has the
request).
-/

namespace CB
namespace E2e

/-- `std::process::exit(1)` with its message. (command_e2e.rs:8-38.) -/
inductive Exit
  | invalidElectionId
  | noTransactions
  | notAnElection
  | invalid (id : Identifier) (e : ValErr)
  deriving DecidableEq, Repr

/-- command_e2e.rs:8-12: the prefix asked from the server, the first 15 bytes of the text (`&election_id[0..15]` panics inside a character). -/
def queryPrefix (id : Str) : Res Exit Str :=
  if id.length < 15 then .err .invalidElectionId
  else match id[15]? with
    | some b => if 0x80 ≤ b && b < 0xC0 then .panic .sliceLen else .ok (id.take 15)
    | none => .ok (id.take 15)

/-- command_e2e.rs:30-38: validate each transaction against the store so far, then set it. -/
def replay (E : Env) : MemStore → List SignedTx → Res Exit MemStore
  | m, [] => .ok m
  | m, t :: ts => (Res.mapErr (Exit.invalid t.id) (t.validate E m.toStore)).bind fun _ => replay E (m.set t) ts

/-- command_e2e.rs:18-40: the checks up to `Election verified OK`. -/
def verify (E : Env) (txs : List SignedTx) : Res Exit MemStore :=
  match txs with
  | [] => .err .noTransactions
  | t :: _ => (Res.failIf (t.transactionType != .election) .notAnElection).bind fun _ => replay E .empty txs

/-- command_e2e.rs:57-73 and 75-88: `print-tally` and `print-results` count the first selection of every decryption (`vote[0]` panics on an empty vote). -/
def tally (m : MemStore) (election : Identifier) : VRes Tally.Totals :=
  (m.toStore.getMultiple election .decryption).bind fun ds =>
    (Res.mapM' (fun d => d.intoDecryption.bind fun d => Res.unwrap d.tx.decryptedVote.head? .sliceLen) ds).bind fun ss =>
      .ok (ss.foldl (fun t s => t.add s.selection 1) [])

/-- command_e2e.rs:75-92: `print-results` prints `winners[0]`, which panics when there is none; `winners` is `tally.winners().into_unranked()` of tallystick. -/
def printResults (winners : Tally.Totals → List Str) (m : MemStore) (election : Identifier) : VRes Str :=
  (tally m election).bind fun totals => Res.unwrap (winners totals).head? .sliceLen

/-- command_e2e.rs:42-55: `print-votes` prints score and text of every selection of every decryption. -/
def printVotes (m : MemStore) (election : Identifier) : VRes (List (UInt32 × Str)) :=
  (m.toStore.getMultiple election .decryption).bind fun ds =>
    (Res.mapM' (fun d => d.intoDecryption.bind fun d => .ok (d.tx.decryptedVote.map fun s => (s.score, s.selection))) ds).bind fun ls => .ok ls.flatten

end E2e
end CB
