import Verif.Model.Tally
/-!
# The totals of Condorcet contests (cryptoballot/src/tally.rs)

Head-to-head counts are computed by tallystick, a function argument here (`Tallystick`); what is assumed of it is stated in `Spec/Pairs.lean`.
-/

namespace CB
namespace Tally

/-- `CondorcetTally::totals` after `ranked_add` of every ballot: pairs of candidates, with the number of votes for the first over the second. (tally.rs:129-140.) -/
structure Tallystick where
  pairs : List (List (Str × UInt32)) → List ((Str × Str) × Nat)

/-- `format!("{} > {}", candidate.0, candidate.1)`, tally.rs:141. -/
def pairText (a b : Str) : Str := a ++ str " > " ++ b

/-- `IndexMap::insert`: the value is replaced if the key is there. (tally.rs:141.) -/
def Totals.set (t : Totals) (k : Str) (v : Nat) : Totals :=
  match t with
  | [] => [(k, v)]
  | (k', n) :: r => if k' = k then (k', v) :: r else (k', n) :: Totals.set r k v

/-- The totals of a Condorcet contest, tally.rs:34-43 and 128-142; `Selection` into `(String, u32)`: ballot.rs:195-199. -/
def condorcetTotals (T : Tallystick) (votes : List (List Selection)) : Res Empty Totals :=
  let votes := votes.map sortByScore
  if votes.all (fun v => noDup (v.map (·.selection))) then
    .ok ((T.pairs (votes.map fun v => v.map fun s => (s.selection, s.score))).foldl (fun t p => t.set (pairText p.1.1 p.1.2) p.2) [])
  else .panic .expectFailed

end Tally
end CB
