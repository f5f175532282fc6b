import Verif.Model.Json
/-!
# What `cryptoballot e2e` prints (cryptoballot_cli/src/command_e2e.rs:16-93)

Lines on standard output.  tallystick's order of the totals and its choice of winners are arguments.  A panic loses what was printed before it; this is not modelled.
-/

namespace CB
namespace E2e

/-- The flags `--print-votes`, `--print-tally` and `--print-results`, main.rs:88-113. -/
structure Flags where
  votes : Bool := false
  tally : Bool := false
  results : Bool := false
  deriving DecidableEq, Repr

/-- `DefaultPluralityTally`: the order in which `totals()` lists what was added up, and `winners().into_unranked()`; command_e2e.rs:61-91. -/
structure Plurality where
  order : Tally.Totals → Tally.Totals
  winners : Tally.Totals → List Str

/-- `--print-votes`, command_e2e.rs:42-55: a line for each selection, and an empty one. -/
def votesLines (m : MemStore) (election : Identifier) : VRes (List Bytes) :=
  (printVotes m election).bind fun l => .ok (str "Votes:" :: l.flatMap fun s => [str "  " ++ Json.digits s.1.toNat ++ str ":" ++ s.2, []])

/-- `println!("  {} got {} votes", candidate, num_votes)`, command_e2e.rs:71. -/
def totalLine (x : Str × Nat) : Bytes := str "  " ++ x.1 ++ str " got " ++ Json.digits x.2 ++ str " votes"

/-- `--print-tally`, command_e2e.rs:57-73. -/
def tallyLines (P : Plurality) (m : MemStore) (election : Identifier) : VRes (List Bytes) :=
  (tally m election).bind fun t => .ok (str "Tally:" :: (P.order t).map totalLine)

/-- `--print-results`, command_e2e.rs:75-92. -/
def resultsLines (P : Plurality) (m : MemStore) (election : Identifier) : VRes (List Bytes) :=
  (printResults P.winners m election).bind fun w => .ok [str "Results:", str "  The winner is " ++ w]

/-- A part of the report if it was asked for. (command_e2e.rs:42, 57, 75.) -/
def asked (flag : Bool) (part : VRes (List Bytes)) : Res Exit (List Bytes) :=
  if flag then
    match part with
    | .ok l => .ok l
    | .err _ => .panic .unwrapFailed
    | .panic p => .panic p
  else .ok []

/-- `command_e2e` from the answer of the node on, command_e2e.rs:16-93: the election reported on is that of the first transaction (line 28). -/
def report (E : Env) (P : Plurality) (flags : Flags) (txs : List SignedTx) : Res Exit (List Bytes) :=
  match txs with
  | [] => .err .noTransactions
  | t :: _ => (verify E txs).bind fun m =>
    (asked flags.votes (votesLines m t.id)).bind fun votes => (asked flags.tally (tallyLines P m t.id)).bind fun totals =>
      (asked flags.results (resultsLines P m t.id)).bind fun results => .ok (str "> Election verified OK" :: votes ++ totals ++ results)

/-- The text of lines. (`println!`, command_e2e.rs:40-91.) -/
def text (lines : List Bytes) : Bytes := lines.flatMap fun l => l ++ [0x0a]

end E2e

/-- `command_e2e` against a node, command_e2e.rs:5-93. -/
def Client.report (E : Env) (P : E2e.Plurality) (flags : E2e.Flags) (s : Exonum.Schema) (electionId : Str) : Res E2e.Exit (List Bytes) :=
  (E2e.queryPrefix electionId).bind fun p =>
    match getTransactionsByPrefix s p with
    | .ok ts => E2e.report E P flags ts
    | .err _ => .panic .unwrapFailed
    | .panic q => .panic q

end CB
