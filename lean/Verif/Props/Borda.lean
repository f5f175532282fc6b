import Verif.Props.Tally
import Mathlib.Data.List.Dedup
import Mathlib.Data.List.Sort
/-!
# C84: Borda points
-/

namespace CB
namespace Spec

/-- How many candidates are named on the ballots, each counted once. -/
def numCandidates (ballots : List (List Selection)) : Nat := (ballots.flatten.map (·.selection)).dedup.length

/-- How many selections on the ballot are ranked better (that is, have a smaller `score`). -/
def rankedBetter (ballot : List Selection) (s : Selection) : Nat := (ballot.filter fun x => x.score < s.score).length

/-- The points of a candidate, if a selection on a ballot of `marked` selections, of which `better` are ranked better, earns `pts marked better`. -/
def pointsOf (pts : Nat → Nat → Nat) (candidate : Str) : List (List Selection) → Nat
  | [] => 0
  | ballot :: rest => ((ballot.filter fun s => s.selection = candidate).map fun s => pts ballot.length (rankedBetter ballot s)).sum + pointsOf pts candidate rest

/-- The documentation's table of points: with `n` candidates in all. -/
def bordaPoints (ct : ContestType) (n marked better : Nat) : Nat :=
  match ct with
  | .borda => n - better - 1
  | .bordaClassic => n - better
  | .bordaModifiedClassic => marked - better
  | _ => 0

end Spec

open Spec
namespace Tally

theorem distinct_eq (l : List Str) : distinct l = l.dedup := by
  induction l with
  | nil => rfl
  | cons c cs ih =>
    unfold distinct
    by_cases h : c ∈ cs
    · rw [if_pos (by simpa using h), List.dedup_cons_of_mem h, ih]
    · rw [if_neg (by simpa using h), List.dedup_cons_of_notMem h, ih]

theorem distinct_length_perm {l l' : List Str} (h : l.Perm l') : l.dedup.length = l'.dedup.length := h.dedup.length_eq

theorem insert_sorted (s : Selection) {l : List Selection} (h : l.Pairwise fun a b => a.score ≤ b.score) : (insertByScore s l).Pairwise fun a b => a.score ≤ b.score := by
  induction l with
  | nil => simp [insertByScore]
  | cons x xs ih =>
    rw [List.pairwise_cons] at h
    unfold insertByScore
    split
    · rename_i hle
      refine List.pairwise_cons.2 ⟨fun y hy => ?_, List.pairwise_cons.2 h⟩
      rcases List.mem_cons.1 hy with rfl | hy
      · exact hle
      · exact UInt32.le_trans hle (h.1 y hy)
    · rename_i hle
      refine List.pairwise_cons.2 ⟨fun y hy => ?_, ih h.2⟩
      rcases List.mem_cons.1 ((insertByScore_perm s xs).mem_iff.1 hy) with rfl | hy
      · exact UInt32.le_of_lt (UInt32.not_le.1 hle)
      · exact h.1 y hy

theorem sort_sorted (l : List Selection) : (sortByScore l).Pairwise fun a b => a.score ≤ b.score := by
  induction l with
  | nil => exact List.Pairwise.nil
  | cons s l ih => exact insert_sorted s ih

/-- in a strictly sorted ballot, the position of a selection is the number of those ranked better -/
theorem position {l : List Selection} (h : l.Pairwise fun a b => a.score < b.score) {s : Selection} {i : Nat} (hs : (s, i) ∈ l.zipIdx) : rankedBetter l s = i := by
  obtain ⟨hlt, hsi⟩ := List.mem_zipIdx' hs
  have hp := List.pairwise_iff_getElem.1 h
  unfold rankedBetter
  conv_lhs => rw [← List.take_append_drop i l]
  rw [List.filter_append, List.length_append]
  have h1 : (l.take i).filter (fun x => decide (x.score < s.score)) = l.take i := by
    rw [List.filter_eq_self]
    intro a ha
    obtain ⟨j, hj, rfl⟩ := List.getElem_of_mem ha
    rw [List.length_take] at hj
    rw [List.getElem_take]
    rw [hsi]
    exact decide_eq_true (hp j i (by omega) hlt (by omega))
  have h2 : (l.drop i).filter (fun x => decide (x.score < s.score)) = [] := by
    rw [List.filter_eq_nil_iff]
    intro a ha
    obtain ⟨j, hj, rfl⟩ := List.getElem_of_mem ha
    rw [List.length_drop] at hj
    rw [List.getElem_drop]
    rw [hsi]
    simp only [decide_eq_true_eq]
    intro hlt'
    by_cases hj0 : j = 0
    · subst hj0
      exact UInt32.lt_irrefl _ hlt'
    · exact UInt32.lt_asymm hlt' (hp i (i + j) hlt (by omega) (by omega))
  rw [h1, h2, List.length_take]
  simp
  omega

theorem rankedBetter_perm {l l' : List Selection} (h : l.Perm l') (s : Selection) : rankedBetter l s = rankedBetter l' s := (h.filter _).length_eq

theorem foldl_positions (f : Nat → Nat → Nat) (votes : List (List Selection)) :
    votes.foldl (fun t v => v.zipIdx.foldl (fun t x => Totals.add t x.1.selection (f v.length x.2)) t) [] =
      count (votes.flatMap fun v => v.zipIdx.map fun x => (x.1.selection, f v.length x.2)) := by
  unfold count
  rw [List.foldl_flatMap]
  simp only [List.foldl_map]

theorem pointsOf_eq (f : Nat → Nat → Nat) (c : Str) (votes : List (List Selection)) (h : ∀ b ∈ votes, (b.map (·.score)).Nodup) :
    (((votes.map sortByScore).flatMap fun v => v.zipIdx.map fun x => (x.1.selection, f v.length x.2)).filter fun x => x.1 = c).map Prod.snd |>.sum |> (· = pointsOf f c votes) := by
  induction votes with
  | nil => rfl
  | cons v vs ih =>
    have ih := ih fun b hb => h b (by simp [hb])
    simp only [List.map_cons, List.flatMap_cons, List.filter_append, List.map_append, List.sum_append, pointsOf] at ih ⊢
    rw [ih]
    congr 1
    have hp := sortByScore_perm v
    have hs : (sortByScore v).Pairwise fun a b => a.score < b.score := by
      have hn : ((sortByScore v).map (·.score)).Nodup := ((hp.map _).nodup_iff).2 (h v (by simp))
      have hn : (sortByScore v).Pairwise fun a b => a.score ≠ b.score := by
        rw [List.Nodup, List.pairwise_map] at hn
        exact hn
      exact (List.pairwise_and_iff.2 ⟨sort_sorted v, hn⟩).imp fun h => UInt32.lt_of_le_of_ne h.1 h.2
    have h1 : ((sortByScore v).zipIdx.map fun x => (x.1.selection, f (sortByScore v).length x.2)) =
        (sortByScore v).map fun s => (s.selection, f v.length (rankedBetter v s)) := by
      have : (sortByScore v).map (fun s => (s.selection, f v.length (rankedBetter v s))) =
          (sortByScore v).zipIdx.map ((fun s => (s.selection, f v.length (rankedBetter v s))) ∘ Prod.fst) := by
        rw [← List.map_map, List.zipIdx_map_fst]
      rw [this]
      refine List.map_congr_left fun x hx => ?_
      obtain ⟨s, i⟩ := x
      have := position hs hx
      rw [rankedBetter_perm hp] at this
      simp only [Function.comp, this, hp.length_eq]
    rw [h1, List.filter_map, List.map_map]
    exact ((hp.filter _).map _).sum_eq

/-- **C84 (partial)** The totals of a Borda contest are as documented: each candidate named is listed once, with the sum, over the ballots that rank them, of the points for the number of
candidates ranked better on that ballot.  Provided that no ballot names a candidate twice (C54) or gives two candidates the same rank. -/
theorem C84_borda_points_partial (ct : ContestType) (hct : ct = .borda ∨ ct = .bordaClassic ∨ ct = .bordaModifiedClassic) (votes : List (List Selection))
    (hn : ∀ b ∈ votes, (b.map (·.selection)).Nodup) (hs : ∀ b ∈ votes, (b.map (·.score)).Nodup) :
    ∃ totals, tally ct votes = .ok ⟨votes.length, some totals⟩ ∧ (totals.map Prod.fst).Nodup ∧
      ∀ c n, (c, n) ∈ totals ↔ Named c votes ∧ n = pointsOf (bordaPoints ct (numCandidates votes)) c votes := by
  have hc : (distinct ((votes.map sortByScore).flatten.map (·.selection))).length = numCandidates votes := by
    rw [distinct_eq]
    refine distinct_length_perm (List.Perm.map _ ?_)
    clear hn hs
    induction votes with
    | nil => exact List.Perm.refl _
    | cons v vs ih => exact (sortByScore_perm v).append ih
  have hall : ((votes.map sortByScore).all fun v => noDup (v.map (·.selection))) = true := by
    simp only [List.all_map, List.all_eq_true, Function.comp, noDup_iff]
    exact fun b hb => (((sortByScore_perm b).map _).nodup_iff).2 (hn b hb)
  have hb : tally ct votes = bordaTally ct (votes.map sortByScore) votes.length := by rcases hct with rfl | rfl | rfl <;> rfl
  have hpts : points ct (numCandidates votes) = bordaPoints ct (numCandidates votes) := by rcases hct with rfl | rfl | rfl <;> rfl
  refine ⟨_, ?_, count_nodup ((votes.map sortByScore).flatMap fun v => v.zipIdx.map fun x => (x.1.selection, bordaPoints ct (numCandidates votes) v.length x.2)), ?_⟩
  · rw [hb]
    unfold bordaTally
    dsimp only
    rw [if_pos hall, hc, hpts, foldl_positions (bordaPoints ct (numCandidates votes))]
  · intro c n
    rw [count_mem, pointsOf_eq _ c votes hs]
    refine and_congr_left fun _ => ?_
    rw [← named_sort]
    constructor
    · intro h
      obtain ⟨⟨c', w⟩, h1, rfl⟩ := List.mem_map.1 h
      obtain ⟨b, hb, h2⟩ := List.mem_flatMap.1 h1
      obtain ⟨⟨s, i⟩, hi, h⟩ := List.mem_map.1 h2
      cases h
      exact ⟨b, hb, s, List.fst_mem_of_mem_zipIdx hi, rfl⟩
    · rintro ⟨b, hb, s, hs, rfl⟩
      obtain ⟨i, hi, rfl⟩ := List.getElem_of_mem hs
      exact List.mem_map.2 ⟨_, List.mem_flatMap.2 ⟨b, hb, List.mem_map.2 ⟨(b[i], i), List.mk_mem_zipIdx_iff_getElem?.2 (List.getElem?_eq_getElem hi), rfl⟩⟩, rfl⟩

theorem pointsOf_perm (f : Nat → Nat → Nat) (c : Str) {v v' : List (List Selection)} (h : v.Perm v') : pointsOf f c v = pointsOf f c v' := by
  induction h with
  | nil => rfl
  | cons x _ ih => simp only [pointsOf, ih]
  | swap x y l => simp only [pointsOf]; omega
  | trans _ _ ih1 ih2 => rw [ih1, ih2]

/-- **C84** If no ballot gives two candidates the same rank, the points depend neither on the order of the ballots, nor on the order in which the selections are listed on a ballot. -/
theorem C84_order_is_irrelevant_partial (ct : ContestType) (hct : ct = .borda ∨ ct = .bordaClassic ∨ ct = .bordaModifiedClassic) (v v' : List (List Selection))
    (hn : ∀ b ∈ v, (b.map (·.selection)).Nodup) (hs : ∀ b ∈ v, (b.map (·.score)).Nodup) (h : ∃ w, v.Perm w ∧ List.Forall₂ List.Perm w v') :
    ∃ r r', tally ct v = .ok ⟨v.length, some r⟩ ∧ tally ct v' = .ok ⟨v.length, some r'⟩ ∧ r.Perm r' := by
  obtain ⟨w, hp, hf⟩ := h
  have back : ∀ b ∈ v', ∃ a ∈ v, a.Perm b := by
    intro b hb
    have : ∀ {w v' : List (List Selection)}, List.Forall₂ List.Perm w v' → ∀ b ∈ v', ∃ a ∈ w, a.Perm b := by
      intro w v' hf
      induction hf with
      | nil => simp
      | cons hxy _ ih =>
        intro b hb
        rcases List.mem_cons.1 hb with rfl | hb
        · exact ⟨_, by simp, hxy⟩
        · obtain ⟨a, ha, h⟩ := ih b hb
          exact ⟨a, by simp [ha], h⟩
    obtain ⟨a, ha, h⟩ := this hf b hb
    exact ⟨a, hp.mem_iff.2 ha, h⟩
  obtain ⟨r, h1, hrn, hr⟩ := C84_borda_points_partial ct hct v hn hs
  obtain ⟨r', h1', hrn', hr'⟩ := C84_borda_points_partial ct hct v'
    (fun b hb => by obtain ⟨a, ha, h⟩ := back b hb; exact ((h.map _).nodup_iff).1 (hn a ha))
    (fun b hb => by obtain ⟨a, ha, h⟩ := back b hb; exact ((h.map _).nodup_iff).1 (hs a ha))
  have hlen : v'.length = v.length := by rw [← hf.length_eq, hp.length_eq]
  have hflat : v.flatten.Perm v'.flatten := by
    refine hp.flatten.trans ?_
    clear hp h1 h1' hr hr' hlen back hn hs hrn hrn'
    induction hf with
    | nil => exact List.Perm.refl _
    | cons hxy _ ih => exact hxy.append ih
  have hnum : numCandidates v' = numCandidates v := (distinct_length_perm (hflat.map _)).symm
  refine ⟨r, r', h1, by rw [h1', hlen], ?_⟩
  rw [List.perm_ext_iff_of_nodup (List.Nodup.of_map _ hrn) (List.Nodup.of_map _ hrn')]
  rintro ⟨c, n⟩
  have hpts : pointsOf (bordaPoints ct (numCandidates v)) c v = pointsOf (bordaPoints ct (numCandidates v)) c v' := by
    rw [pointsOf_perm _ c hp]
    generalize bordaPoints ct (numCandidates v) = f
    clear hp h1 h1' hr hr' hlen back hn hs hrn hrn' hflat hnum
    induction hf with
    | nil => rfl
    | cons hxy _ ih =>
      simp only [pointsOf, ih, hxy.length_eq, rankedBetter_perm hxy, ((hxy.filter _).map _).sum_eq]
  have hnm : Named c v ↔ Named c v' := by
    have : ∀ u : List (List Selection), Named c u ↔ ∃ s ∈ u.flatten, s.selection = c := by
      intro u
      simp only [Named, List.mem_flatten]
      exact ⟨fun ⟨b, hb, s, hs, h⟩ => ⟨s, ⟨b, hb, hs⟩, h⟩, fun ⟨s, ⟨b, hb, hs⟩, h⟩ => ⟨b, hb, s, hs, h⟩⟩
    simp only [this, hflat.mem_iff]
  rw [hr, hr', hnum, hpts, hnm]

/-- **C84 is false of the code**: two candidates whom all voters give the same rank need not get the same points, although the documentation says that they are of equal preference.
The one whom the ballot lists first gets more. -/
theorem C84_equal_ranks_equal_points_false : ¬ ∀ (votes : List (List Selection)) (totals : Totals), (∀ b ∈ votes, (b.map (·.selection)).Nodup) →
    tally .borda votes = .ok ⟨votes.length, some totals⟩ → ∀ c c' : Str, (∀ b ∈ votes, ∃ s ∈ b, ∃ s' ∈ b, s.selection = c ∧ s'.selection = c' ∧ s.score = s'.score) →
      ∀ n n', (c, n) ∈ totals → (c', n') ∈ totals → n = n' := by
  intro h
  have := h [[⟨false, 0, str "a"⟩, ⟨false, 0, str "b"⟩]] [(str "a", 1), (str "b", 0)] (by decide +kernel) (by decide +kernel) (str "a") (str "b")
    (by intro b hb; rw [List.mem_singleton] at hb; subst hb; exact ⟨⟨false, 0, str "a"⟩, by simp, ⟨false, 0, str "b"⟩, by simp, rfl, rfl, rfl⟩) 1 0 (by simp) (by simp)
  cases this

/-- The documentation's example: four candidates, ranked on one ballot (listed in another order). -/
def bordaExample : List (List Selection) := [[⟨false, 3, str "Dave"⟩, ⟨false, 1, str "Bob"⟩, ⟨false, 0, str "Alice"⟩, ⟨false, 2, str "Carlos"⟩]]

example : (∀ b ∈ bordaExample, (b.map (·.selection)).Nodup) ∧ (∀ b ∈ bordaExample, (b.map (·.score)).Nodup) ∧ numCandidates bordaExample = 4 ∧
    tally .borda bordaExample = .ok ⟨1, some [(str "Alice", 3), (str "Bob", 2), (str "Carlos", 1), (str "Dave", 0)]⟩ ∧
    tally .bordaClassic bordaExample = .ok ⟨1, some [(str "Alice", 4), (str "Bob", 3), (str "Carlos", 2), (str "Dave", 1)]⟩ := by decide +kernel

/-- Two ballots, one of which marks one candidate only: the modified count gives that candidate one point for it. -/
example : tally .bordaModifiedClassic (bordaExample ++ [[⟨false, 0, str "Dave"⟩]]) =
    .ok ⟨2, some [(str "Alice", 4), (str "Bob", 3), (str "Carlos", 2), (str "Dave", 2)]⟩ := by decide +kernel

end Tally
end CB
