import Verif.Model.Pairs
/-!
# Specification vocabulary: head-to-head counts
-/

namespace CB.Spec

/-- The ballot, a list of candidates with their ranks (zero is best), ranks `a` strictly before `b`. -/
def Prefers (a b : Str) (ballot : List (Str × UInt32)) : Prop := ∃ r r', (a, r) ∈ ballot ∧ (b, r') ∈ ballot ∧ r < r'

instance (a b : Str) (ballot : List (Str × UInt32)) : Decidable (Prefers a b ballot) :=
  decidable_of_iff (∃ x ∈ ballot, ∃ y ∈ ballot, x.1 = a ∧ y.1 = b ∧ x.2 < y.2) (by
    constructor
    · rintro ⟨⟨_, r⟩, hx, ⟨_, r'⟩, hy, rfl, rfl, h⟩
      exact ⟨r, r', hx, hy, h⟩
    · rintro ⟨r, r', hx, hy, h⟩
      exact ⟨_, hx, _, hy, rfl, rfl, h⟩)

/-- How many ballots rank `a` strictly before `b`. -/
def timesPreferred (a b : Str) (ballots : List (List (Str × UInt32))) : Nat := (ballots.filter fun v => Prefers a b v).length

/-- Every ballot ranks every candidate that is ranked on any, once. -/
def AllRanked (ballots : List (List (Str × UInt32))) : Prop :=
  ∀ v ∈ ballots, (v.map Prod.fst).Nodup ∧ ∀ w ∈ ballots, ∀ c ∈ w.map Prod.fst, c ∈ v.map Prod.fst

/-- What is assumed of tallystick: from ballots that rank all candidates it counts head to head; only pairs of
candidates are listed, each at most once. -/
def CountsPairs (T : Tally.Tallystick) : Prop :=
  ∀ ballots, AllRanked ballots → ((T.pairs ballots).map Prod.fst).Nodup ∧ (∀ p ∈ T.pairs ballots, ∃ v ∈ ballots, p.1.1 ∈ v.map Prod.fst) ∧
    ∀ a b n, 0 < n → (((a, b), n) ∈ T.pairs ballots ↔ n = timesPreferred a b ballots)

/-- What a ballot says: candidates with their ranks. -/
def ranks (votes : List (List Selection)) : List (List (Str × UInt32)) := votes.map fun v => v.map fun s => (s.selection, s.score)

end CB.Spec
