import Verif.Lemmas.Tally
import Verif.Lemmas.Res
import Mathlib.Data.List.Nodup
import Mathlib.Data.Nat.Cast.Basic
/-!
# C52–C54, C61: tallies
-/

namespace CB
namespace Spec

/-- How often a candidate is named on the ballots. -/
def timesNamed (candidate : Str) : List (List Selection) → Nat
  | [] => 0
  | ballot :: rest => (ballot.filter fun s => s.selection = candidate).length + timesNamed candidate rest

/-- The sum of the scores a candidate was given. -/
def scoreOf (candidate : Str) : List (List Selection) → Nat
  | [] => 0
  | ballot :: rest => ((ballot.filter fun s => s.selection = candidate).map fun s => s.score.toNat).sum + scoreOf candidate rest

/-- The candidate is named on some ballot. -/
def Named (candidate : Str) (ballots : List (List Selection)) : Prop := ∃ b ∈ ballots, ∃ s ∈ b, s.selection = candidate

end Spec

open Spec
namespace Tally

theorem timesNamed_sort (c : Str) (votes : List (List Selection)) : timesNamed c (votes.map sortByScore) = timesNamed c votes := by
  induction votes with
  | nil => rfl
  | cons v vs ih =>
    simp only [List.map_cons, timesNamed, ih, ((sortByScore_perm v).filter _).length_eq]

theorem scoreOf_sort (c : Str) (votes : List (List Selection)) : scoreOf c (votes.map sortByScore) = scoreOf c votes := by
  induction votes with
  | nil => rfl
  | cons v vs ih =>
    simp only [List.map_cons, scoreOf, ih, (((sortByScore_perm v).filter _).map _).sum_eq]

theorem named_sort (c : Str) (votes : List (List Selection)) : Named c (votes.map sortByScore) ↔ Named c votes := by
  unfold Named
  constructor
  · rintro ⟨b, hb, s, hs, h⟩
    obtain ⟨v, hv, rfl⟩ := List.mem_map.1 hb
    exact ⟨v, hv, s, (sortByScore_perm v).mem_iff.1 hs, h⟩
  · rintro ⟨b, hb, s, hs, h⟩
    exact ⟨_, List.mem_map.2 ⟨b, hb, rfl⟩, s, (sortByScore_perm b).mem_iff.2 hs, h⟩

theorem timesNamed_eq (c : Str) (votes : List (List Selection)) :
    ((votes.flatten.map fun s => (s.selection, 1)).filter fun x => x.1 = c).map Prod.snd |>.sum |> (· = timesNamed c votes) := by
  induction votes with
  | nil => rfl
  | cons v vs ih =>
    simp only [List.flatten_cons, List.map_append, List.filter_append, List.sum_append, timesNamed] at ih ⊢
    rw [ih]
    congr 1
    induction v with
    | nil => rfl
    | cons s r ihr =>
      simp only [List.map_cons, List.filter_cons]
      split <;> simp_all
      omega

theorem scoreOf_eq (c : Str) (votes : List (List Selection)) :
    (((votes.flatten.map fun s => (s.selection, s.score.toNat)).filter fun x => x.1 = c).map Prod.snd).sum = scoreOf c votes := by
  induction votes with
  | nil => rfl
  | cons v vs ih =>
    simp only [List.flatten_cons, List.map_append, List.filter_append, List.sum_append, scoreOf] at ih ⊢
    rw [ih]
    congr 1
    induction v with
    | nil => rfl
    | cons s r ihr =>
      simp only [List.map_cons, List.filter_cons]
      split <;> simp_all

theorem named_eq (c : Str) (f : Selection → Nat) (votes : List (List Selection)) :
    c ∈ (votes.flatten.map fun s => (s.selection, f s)).map Prod.fst ↔ Named c votes := by
  simp only [List.map_map, List.mem_map, List.mem_flatten, Named, Function.comp]
  constructor
  · rintro ⟨s, ⟨b, hb, hs⟩, h⟩; exact ⟨b, hb, s, hs, h⟩
  · rintro ⟨b, hb, s, hs, h⟩; exact ⟨s, ⟨b, hb, hs⟩, h⟩

/-- **C52** A plurality tally returns; it reports the number of ballots; it lists each candidate at most once, and it lists candidate `c` with total `n` exactly when `c`
is named on some ballot and `n` is how often the ballots name it. -/
theorem C52_plurality_counts (votes : List (List Selection)) :
    ∃ totals, tally .plurality votes = .ok ⟨votes.length, some totals⟩ ∧ (totals.map Prod.fst).Nodup ∧
      ∀ c n, (c, n) ∈ totals ↔ Named c votes ∧ n = timesNamed c votes := by
  refine ⟨count ((votes.map sortByScore).flatten.map fun s => (s.selection, 1)), ?_, count_nodup _, ?_⟩
  · simp only [tally]
    rw [foldl_ballots (fun _ => 1)]
  · intro c n
    rw [count_mem, named_eq c (fun _ => 1), named_sort, timesNamed_eq, timesNamed_sort]

theorem timesNamed_perm (c : Str) {v v' : List (List Selection)} (h : v.Perm v') : timesNamed c v = timesNamed c v' := by
  induction h with
  | nil => rfl
  | cons x _ ih => simp only [timesNamed, ih]
  | swap x y l => simp only [timesNamed]; omega
  | trans _ _ ih1 ih2 => rw [ih1, ih2]

/-- **C52** The totals do not depend on the order of the ballots, nor on the order of the selections inside a ballot. -/
theorem C52_plurality_order_independent (v v' : List (List Selection))
    (h : ∃ w, v.Perm w ∧ List.Forall₂ List.Perm w v') :
    ∃ r r', tally .plurality v = .ok ⟨v.length, some r⟩ ∧ tally .plurality v' = .ok ⟨v.length, some r'⟩ ∧ r.Perm r' := by
  obtain ⟨w, hp, hf⟩ := h
  obtain ⟨r, h1, hn, hr⟩ := C52_plurality_counts v
  obtain ⟨r', h1', hn', hr'⟩ := C52_plurality_counts v'
  have hlen : v'.length = v.length := by rw [← hf.length_eq, hp.length_eq]
  refine ⟨r, r', h1, by rw [h1', hlen], ?_⟩
  rw [List.perm_ext_iff_of_nodup (List.Nodup.of_map _ hn) (List.Nodup.of_map _ hn')]
  rintro ⟨c, n⟩
  have ht : timesNamed c v = timesNamed c v' := by
    rw [timesNamed_perm c hp]
    clear hp h1 h1' hr hr' hlen
    induction hf with
    | nil => rfl
    | cons hxy _ ih => simp only [timesNamed, ih, (hxy.filter _).length_eq]
  have hnm : Named c v ↔ Named c v' := by
    have : Named c v ↔ Named c w := by simp only [Named, hp.mem_iff]
    rw [this]
    clear hp h1 h1' hr hr' hlen this ht
    induction hf with
    | nil => rfl
    | @cons a b l l' hxy _ ih =>
      simp only [Named, List.exists_mem_cons_iff] at ih ⊢
      exact or_congr (by simp only [hxy.mem_iff]) ih
  rw [hr, hr', ht, hnm]

/-- **C61** A score tally lists each candidate named on some ballot, once, with the sum of the scores it was given; an approval tally, with the number of times it is
named. -/
theorem C61_score_and_approval (votes : List (List Selection)) :
    (∃ totals, tally .score votes = .ok ⟨votes.length, some totals⟩ ∧ (totals.map Prod.fst).Nodup ∧
      ∀ c n, (c, n) ∈ totals ↔ Named c votes ∧ n = scoreOf c votes) ∧
    (∃ totals, tally .approval votes = .ok ⟨votes.length, some totals⟩ ∧ (totals.map Prod.fst).Nodup ∧
      ∀ c n, (c, n) ∈ totals ↔ Named c votes ∧ n = timesNamed c votes) := by
  refine ⟨⟨count ((votes.map sortByScore).flatten.map fun s => (s.selection, s.score.toNat)), ?_, count_nodup _, ?_⟩,
    ⟨count ((votes.map sortByScore).flatten.map fun s => (s.selection, 1)), ?_, count_nodup _, ?_⟩⟩
  · simp only [tally]
    rw [foldl_ballots (fun s => s.score.toNat)]
  · intro c n
    rw [count_mem, named_eq c (fun s => s.score.toNat), named_sort, scoreOf_eq, scoreOf_sort]
  · simp only [tally]
    rw [foldl_ballots (fun _ => 1)]
  · intro c n
    rw [count_mem, named_eq c (fun _ => 1), named_sort, timesNamed_eq, timesNamed_sort]

/-! sample ballots -/

/-- three ballots, one of which names two candidates -/
def sampleBallots : List (List Selection) :=
  [[⟨false, 0, str "Barak Obama"⟩], [⟨false, 5, str "John McCain"⟩, ⟨false, 2, str "Barak Obama"⟩], [⟨true, 3, str "Santa Clause"⟩]]

example : tally .plurality sampleBallots = .ok ⟨3, some [(str "Barak Obama", 2), (str "John McCain", 1), (str "Santa Clause", 1)]⟩ ∧
    tally .score sampleBallots = .ok ⟨3, some [(str "Barak Obama", 2), (str "John McCain", 5), (str "Santa Clause", 3)]⟩ := by decide +kernel

/-- **C53 (false)** One ballot can contribute any number of votes to a plurality tally, even to the same candidate. -/
theorem C53_one_ballot_one_vote_false :
    ¬ ∀ (votes : List (List Selection)) (totals : Totals), tally .plurality votes = .ok ⟨votes.length, some totals⟩ →
      (totals.map Prod.snd).sum ≤ votes.length := by
  intro h
  exact absurd (h [[⟨false, 0, str "a"⟩, ⟨false, 0, str "a"⟩]] [(str "a", 2)] (by decide +kernel)) (by decide)

theorem flatten_length_le {votes : List (List Selection)} (h : ∀ b ∈ votes, b.length ≤ 1) : votes.flatten.length ≤ votes.length := by
  induction votes with
  | nil => simp
  | cons v vs ih =>
    have := h v (by simp)
    have := ih fun b hb => h b (by simp [hb])
    simp only [List.flatten_cons, List.length_append, List.length_cons]
    omega

/-- **C53 (partial)** The totals of a plurality tally add up to the number of selections on the ballots; so if no ballot carries more than one selection, to at most the
number of ballots.  Missing: nothing in the tally (or in validation) limits the selections of a ballot. -/
theorem C53_one_ballot_one_vote_partial (votes : List (List Selection)) (totals : Totals)
    (h : tally .plurality votes = .ok ⟨votes.length, some totals⟩) :
    (totals.map Prod.snd).sum = votes.flatten.length ∧ ((∀ b ∈ votes, b.length ≤ 1) → (totals.map Prod.snd).sum ≤ votes.length) := by
  have key : (totals.map Prod.snd).sum = votes.flatten.length := by
    simp only [tally, Res.ok.injEq, Result.mk.injEq, Option.some.injEq, true_and] at h
    rw [foldl_ballots (fun _ => 1)] at h
    rw [← h, sum_count]
    simp only [List.map_map, Function.comp_def, List.map_const', List.sum_replicate, nsmul_eq_mul, Nat.cast_id, Nat.mul_one]
    clear h
    induction votes with
    | nil => rfl
    | cons v vs ih =>
      simp only [List.map_cons, List.flatten_cons, List.length_append, ih, (sortByScore_perm v).length_eq]
  exact ⟨key, fun hb => by rw [key]; exact flatten_length_le hb⟩

example : ∃ totals, tally .plurality sampleBallots = .ok ⟨3, some totals⟩ ∧ (totals.map Prod.snd).sum = 4 :=
  ⟨_, by rfl, by decide +kernel⟩

/-- **C54 (false)** Tallying crashes for every list of ballots of a Schulze (ratio) or Borda (Dowdall) contest, and whenever a ballot of a ranked contest names a candidate twice. -/
theorem C54_tally_total_false : ¬ ∀ (ct : ContestType) (votes : List (List Selection)), ∃ r, tally ct votes = .ok r := by
  intro h
  obtain ⟨r, hr⟩ := h .schulzeRatio []
  simp [tally] at hr

/-- the second cause, and a ranked contest that is tallied -/
example : tally .borda [[⟨false, 1, str "a"⟩, ⟨false, 2, str "a"⟩]] = .panic .expectFailed ∧ (∃ r, tally .borda sampleBallots = .ok r) ∧
    tally .condorcet sampleBallots = .ok ⟨3, none⟩ := ⟨by decide +kernel, ⟨_, rfl⟩, by decide +kernel⟩

/-- **C54 (partial)** The exact condition: a tally returns iff the contest is neither Schulze (ratio) nor Borda (Dowdall) and, unless it is a plurality, score or approval contest, no ballot names a
candidate twice.  When it returns, it reports the number of ballots. -/
theorem C54_tally_total_partial (ct : ContestType) (votes : List (List Selection)) :
    ((∃ r, tally ct votes = .ok r) ↔
      ct ≠ .schulzeRatio ∧ ct ≠ .bordaDowdall ∧ (ct = .plurality ∨ ct = .score ∨ ct = .approval ∨ ∀ b ∈ votes, (b.map (·.selection)).Nodup)) ∧
    ∀ r, tally ct votes = .ok r → r.numVotes = votes.length := by
  have hall : ((votes.map sortByScore).all fun v => noDup (v.map (·.selection))) = true ↔ ∀ b ∈ votes, (b.map (·.selection)).Nodup := by
    simp only [List.all_map, List.all_eq_true, Function.comp, noDup_iff]
    constructor
    · intro h b hb
      exact (((sortByScore_perm b).map _).nodup_iff).1 (h b hb)
    · intro h b hb
      exact (((sortByScore_perm b).map _).nodup_iff).2 (h b hb)
  have hr : (∃ r, ranked (votes.map sortByScore) votes.length = .ok r) ↔ ∀ b ∈ votes, (b.map (·.selection)).Nodup := by
    rw [← hall]
    unfold ranked
    split <;> simp_all
  have hn : ∀ r, ranked (votes.map sortByScore) votes.length = .ok r → r.numVotes = votes.length := by
    intro r h
    unfold ranked at h
    split at h <;> cases h
    rfl
  have hr' : ∀ ct, (∃ r, bordaTally ct (votes.map sortByScore) votes.length = .ok r) ↔ ∀ b ∈ votes, (b.map (·.selection)).Nodup := by
    intro ct
    rw [← hall]
    unfold bordaTally
    dsimp only
    split <;> simp_all
  have hn' : ∀ ct r, bordaTally ct (votes.map sortByScore) votes.length = .ok r → r.numVotes = votes.length := by
    intro ct r h
    unfold bordaTally at h
    dsimp only at h
    split at h <;> cases h
    rfl
  constructor
  · cases ct <;> simp only [tally] <;> first | (rw [hr]; simp) | (rw [hr']; simp) | simp
  · cases ct <;> simp only [tally] <;> first | exact hn | exact hn' _ | (intro r h; cases h; first | rfl | done)

end Tally
end CB
