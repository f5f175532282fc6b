import Verif.Model.Report
/-!
# What an end-to-end report shows
-/

namespace CB
namespace Spec

/-- The figures of a report: score and text of each selection, what each text got, and the winner; each if it was asked for. -/
structure Figures where
  votes : Option (List (UInt32 × Str))
  totals : Option (List (Str × Nat))
  winner : Option Str

/-- The command finds these figures in the transactions. -/
def Finds (E : Env) (P : E2e.Plurality) (flags : E2e.Flags) (txs : List SignedTx) (f : Figures) : Prop :=
  ∃ t ts m, txs = t :: ts ∧ E2e.verify E txs = .ok m ∧
    (match f.votes with | some l => flags.votes = true ∧ E2e.printVotes m t.id = .ok l | none => flags.votes = false) ∧
    (match f.totals with | some l => flags.tally = true ∧ ∃ T, E2e.tally m t.id = .ok T ∧ l = P.order T | none => flags.tally = false) ∧
    (match f.winner with | some w => flags.results = true ∧ E2e.printResults P.winners m t.id = .ok w | none => flags.results = false)

/-- The lines of a report with these figures. -/
def Figures.lines (f : Figures) : List Bytes :=
  [str "> Election verified OK"] ++
  (match f.votes with | some l => str "Votes:" :: l.flatMap fun x => [str "  " ++ Json.digits x.1.toNat ++ str ":" ++ x.2, []] | none => []) ++
  (match f.totals with | some l => str "Tally:" :: l.map fun x => str "  " ++ x.1 ++ str " got " ++ Json.digits x.2 ++ str " votes" | none => []) ++
  (match f.winner with | some w => [str "Results:", str "  The winner is " ++ w] | none => [])

/-- No line breaks in a text. -/
def OneLine (s : Str) : Prop := ∀ b ∈ s, b ≠ 0x0a

/-- No line breaks in what was voted for; counts are 64-bit numbers. -/
def Figures.OneLiners (f : Figures) : Prop :=
  (∀ l, f.votes = some l → ∀ x ∈ l, OneLine x.2) ∧ (∀ l, f.totals = some l → ∀ x ∈ l, OneLine x.1 ∧ x.2 < 2 ^ 64) ∧ (∀ w, f.winner = some w → OneLine w)

end Spec
end CB
