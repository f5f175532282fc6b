import Verif.Model.Types
/-!
# Tallying (cryptoballot/src/tally.rs)

The counting itself is done by the crate tallystick, whose source is not part of the repository.  Its documented behaviour is used: plurality, score and approval
tallies keep one running total per candidate that occurred; Condorcet, Schulze and Borda tallies refuse a ballot that names a candidate twice.
Borda tallies give points by position, as documented in ballot.rs:76-145.  For `Dowdall` the documentation (ballot.rs:121) says that tallystick panics if the totals are
integers; they are, since tally.rs:301-303 turns them into `Decimal`s with `into`, which exists for integers and not for floating point numbers.
Modelled are the totals of plurality, score, approval and Borda contests, as finite maps (tallystick lists them by decreasing total; the order of ties is
unspecified), and for every contest type whether the tally returns; the pairwise totals of Condorcet contests are in `Model/Pairs.lean`, ranks and winners (except for
Condorcet and Schulze contests) in `Model/Winners.lean`.  Not modelled: the totals of Schulze contests.  Totals are unbounded numbers (tallystick uses `u64`).
-/

namespace CB
namespace Tally

/-- `vote.sort_by(|a, b| a.score.cmp(&b.score))`, tally.rs:40: stable insertion by score. -/
def insertByScore (s : Selection) : List Selection → List Selection
  | [] => [s]
  | x :: xs => if s.score ≤ x.score then s :: x :: xs else x :: insertByScore s xs

/-- the stable sort, tally.rs:36-43 -/
def sortByScore (v : List Selection) : List Selection := v.foldr insertByScore []

/-- a tally's running totals, in order of first occurrence. (tally.rs:57, 84, 111.) -/
abbrev Totals := List (Str × Nat)

/-- `*running_total.entry(candidate).or_insert(0) += weight`. (tally.rs:52, 80, 107.) -/
def Totals.add (t : Totals) (c : Str) (w : Nat) : Totals :=
  match t with
  | [] => [(c, w)]
  | (c', n) :: r => if c' = c then (c', n + w) :: r else (c', n) :: Totals.add r c w

/-- a list names no candidate twice. (tally.rs:135-136.) -/
def noDup : List Str → Bool
  | [] => true
  | c :: cs => !cs.contains c && noDup cs

/-- What is modelled of `TallyResult`, tally.rs:14-24: the number of votes and, for some contest types, the totals. -/
structure Result where
  numVotes : Nat
  totals : Option Totals
  deriving DecidableEq, Repr

/-- `.expect("Unexpected duplicate candidate")` over all ballots. (tally.rs:132-137, 162-167, 192-197.) -/
def ranked (votes : List (List Selection)) (n : Nat) : Res Empty Result :=
  if votes.all (fun v => noDup (v.map (·.selection))) then .ok ⟨n, none⟩ else .panic .expectFailed

/-- the different candidates in a list. (for the number of candidates, ballot.rs:81-141.) -/
def distinct : List Str → List Str
  | [] => []
  | c :: cs => if cs.contains c then distinct cs else c :: distinct cs

/-- The points of the candidate at a position (counted from zero) of a ballot that marks `marked` candidates, when `candidates` occur in all: ballot.rs:81, 100 and 141. -/
def points (ct : ContestType) (candidates marked position : Nat) : Nat :=
  match ct with
  | .borda => candidates - position - 1
  | .bordaClassic => candidates - position
  | _ => marked - position

/-- A Borda tally of ballots listing candidates from the first to the last, tally.rs:225-255, 256-286 and 318-349. -/
def bordaTally (ct : ContestType) (votes : List (List Selection)) (n : Nat) : Res Empty Result :=
  let candidates := (distinct (votes.flatten.map (·.selection))).length
  if votes.all (fun v => noDup (v.map (·.selection))) then
    .ok ⟨n, some (votes.foldl (fun t v => v.zipIdx.foldl (fun t x => t.add x.1.selection (points ct candidates v.length x.2)) t) [])⟩
  else .panic .expectFailed

/-- `TallyResult::tally`, tally.rs:27-351. -/
def tally (ct : ContestType) (votes : List (List Selection)) : Res Empty Result :=
  let n := votes.length
  let votes := votes.map sortByScore
  match ct with
  | .plurality => .ok ⟨n, some (votes.foldl (fun t v => v.foldl (fun t s => t.add s.selection 1) t) [])⟩
  | .score => .ok ⟨n, some (votes.foldl (fun t v => v.foldl (fun t s => t.add s.selection s.score.toNat) t) [])⟩
  | .approval => .ok ⟨n, some (votes.foldl (fun t v => v.foldl (fun t s => t.add s.selection 1) t) [])⟩
  | .condorcet => ranked votes n
  | .schulzeWinning => ranked votes n
  | .schulzeRatio => .panic .todo
  | .schulzeMargin => ranked votes n
  | .borda => bordaTally .borda votes n
  | .bordaClassic => bordaTally .bordaClassic votes n
  | .bordaDowdall => .panic .dependency
  | .bordaModifiedClassic => bordaTally .bordaModifiedClassic votes n

end Tally
end CB
