import Verif.Model.Tally
/-!
# Ranks and winners of a tally (cryptoballot/src/tally.rs)

`TallyResult` also carries `results` (`tally.ranked()`) and `winners` (`tally.winners()`) of the crate tallystick.  Its documented behaviour is used: candidates are listed
by decreasing total; candidates with equal totals get the same rank, the next lower total the next rank, counted from zero; winners are taken from that list until there
are `num_winners` of them, and those who tie with the last winner taken win too.  Where candidates tie, tallystick leaves their order open; here a candidate who was named
first is listed first, and the theorems do not depend on that.  Modelled for the contest types whose totals are per candidate (plurality, score, approval and Borda);
not for Condorcet and Schulze contests.
-/

namespace CB
namespace Tally

/-- put a candidate in its place in a list by decreasing totals. (`tally.ranked()`, tally.rs:61, 88, 115, 243, 274, 337.) -/
def insertByTotal (x : Str × Nat) : Totals → Totals
  | [] => [x]
  | y :: ys => if y.2 ≤ x.2 then x :: y :: ys else y :: insertByTotal x ys

/-- the candidates by decreasing totals. (`tally.ranked()`, tally.rs:61, 88, 115, 243, 274, 337.) -/
def byTotal (t : Totals) : Totals := t.foldr insertByTotal []

/-- The ranks of the candidates in a list by decreasing totals; `last` is the total and `rank` the rank of the candidate before. (`RankedCandidate`, tally.rs:21, 61.) -/
def rankFrom (last rank : Nat) : Totals → List (Str × Nat)
  | [] => []
  | (c, n) :: rest => if n < last then (c, rank + 1) :: rankFrom n (rank + 1) rest else (c, rank) :: rankFrom n rank rest

/-- `tally.ranked()`, tally.rs:61, 88, 115, 243, 274 and 337: the candidates with their ranks, the best first. -/
def rankAll (t : Totals) : List (Str × Nat) :=
  match byTotal t with
  | [] => []
  | (c, n) :: rest => (c, 0) :: rankFrom n 0 rest

/-- Take winners off a ranked list: stop at a new rank when there are enough; `taken` are taken, the last of rank `rank`. (`RankedWinners`, tally.rs:22, 62.) -/
def takeWinners (num taken rank : Nat) : List (Str × Nat) → List (Str × Nat)
  | [] => []
  | (c, r) :: rest => if num ≤ taken ∧ r ≠ rank then [] else (c, r) :: takeWinners num (taken + 1) r rest

/-- What is modelled of the whole `TallyResult`, tally.rs:14-24; the identifiers `contest_id` and `contest_index` are those given and are left out. -/
structure Outcome where
  numVotes : Nat
  totals : Totals
  results : List (Str × Nat)
  winners : List (Str × Nat)
  spoiled : List Str
  deriving DecidableEq, Repr

/-- `TallyResult::tally`, tally.rs:27-351, for the contest types that have a total per candidate; `none` for the others.
`spoiled_ballots: IndexMap::new()`, tally.rs:71, 98, 125, 253, 284, 347. -/
def outcome (ct : ContestType) (num : UInt32) (votes : List (List Selection)) : Res Empty (Option Outcome) :=
  match tally ct votes with
  | .ok ⟨n, some t⟩ => .ok (some ⟨n, t, rankAll t, takeWinners num.toNat 0 0 (rankAll t), []⟩)
  | .ok ⟨_, none⟩ => .ok none
  | .err e => .err e
  | .panic p => .panic p

end Tally
end CB
