import Verif.Spec.Pairs
import Verif.Props.Tally
import Mathlib.Data.List.Dedup
/-!
# C85: head-to-head totals
-/

namespace CB
open Spec
namespace Tally

theorem set_keys (t : Totals) (k : Str) (v : Nat) (x : Str) : x ∈ (t.set k v).map Prod.fst ↔ x ∈ t.map Prod.fst ∨ x = k := by
  induction t with
  | nil => simp [Totals.set]
  | cons a r ih =>
    obtain ⟨k', n⟩ := a
    unfold Totals.set
    split
    · rename_i h
      subst h
      simp only [List.map_cons, List.mem_cons]
      tauto
    · simp only [List.map_cons, List.mem_cons, ih, or_assoc]

theorem set_nodup {t : Totals} (h : (t.map Prod.fst).Nodup) (k : Str) (v : Nat) : ((t.set k v).map Prod.fst).Nodup := by
  induction t with
  | nil => simp [Totals.set]
  | cons a r ih =>
    obtain ⟨k', n⟩ := a
    simp only [List.map_cons, List.nodup_cons] at h
    unfold Totals.set
    split
    · simpa using h
    · rename_i hne
      simp only [List.map_cons, List.nodup_cons, set_keys, not_or]
      exact ⟨⟨h.1, hne⟩, ih h.2⟩

theorem set_new {t : Totals} {k : Str} (h : k ∉ t.map Prod.fst) (v : Nat) : t.set k v = t ++ [(k, v)] := by
  induction t with
  | nil => rfl
  | cons a r ih =>
    obtain ⟨k', n⟩ := a
    simp only [List.map_cons, List.mem_cons, not_or] at h
    unfold Totals.set
    rw [if_neg (fun e => h.1 e.symm), ih h.2]
    rfl

theorem foldl_set_nodup (l : List (Str × Nat)) {t : Totals} (ht : (t.map Prod.fst).Nodup) : ((l.foldl (fun t p => Totals.set t p.1 p.2) t).map Prod.fst).Nodup := by
  induction l generalizing t with
  | nil => exact ht
  | cons x xs ih => exact ih (set_nodup ht _ _)

theorem foldl_set_new {l : List (Str × Nat)} {t : Totals} (h : ((t ++ l).map Prod.fst).Nodup) : l.foldl (fun t p => Totals.set t p.1 p.2) t = t ++ l := by
  induction l generalizing t with
  | nil => simp
  | cons x xs ih =>
    have hx : x.1 ∉ t.map Prod.fst := by
      rw [List.map_append, List.nodup_append] at h
      exact fun hm => h.2.2 _ hm x.1 (by simp) rfl
    rw [List.foldl_cons, set_new hx, ih (by simpa using h)]
    simp

/-- texts without `>` can be told apart -/
theorem pairText_inj {a b a' b' : Str} (ha : 62 ∉ a) (ha' : 62 ∉ a') (h : pairText a b = pairText a' b') : a = a' ∧ b = b' := by
  have hstr : str " > " = [32, 62, 32] := by decide +kernel
  unfold pairText at h
  rw [hstr, List.append_assoc, List.append_assoc] at h
  induction a generalizing a' with
  | nil =>
    cases a' with
    | nil => exact ⟨rfl, by simpa using h⟩
    | cons y ys =>
      simp only [List.nil_append, List.cons_append, List.cons.injEq] at h
      obtain ⟨_, h⟩ := h
      cases ys with
      | nil => simp at h
      | cons z zs =>
        simp only [List.cons_append, List.cons.injEq] at h
        exact absurd (by rw [← h.1]; simp : (62 : UInt8) ∈ y :: z :: zs) ha'
  | cons x xs ih =>
    cases a' with
    | nil =>
      simp only [List.nil_append, List.cons_append, List.cons.injEq] at h
      obtain ⟨_, h⟩ := h
      cases xs with
      | nil => simp at h
      | cons z zs =>
        simp only [List.cons_append, List.cons.injEq] at h
        exact absurd (by rw [h.1]; simp : (62 : UInt8) ∈ x :: z :: zs) ha
    | cons y ys =>
      simp only [List.cons_append, List.cons.injEq] at h
      obtain ⟨rfl, h⟩ := h
      obtain ⟨h1, h2⟩ := ih (fun hm => ha (by simp [hm])) (fun hm => ha' (by simp [hm])) h
      exact ⟨by rw [h1], h2⟩

theorem ranks_sort (votes : List (List Selection)) : List.Forall₂ List.Perm (ranks votes) (ranks (votes.map sortByScore)) := by
  induction votes with
  | nil => exact .nil
  | cons v vs ih => exact .cons ((sortByScore_perm v).symm.map _) ih

theorem prefers_perm {a b : Str} {v v' : List (Str × UInt32)} (h : v.Perm v') : Prefers a b v ↔ Prefers a b v' := by simp only [Prefers, h.mem_iff]

theorem timesPreferred_perm {a b : Str} {l l' : List (List (Str × UInt32))} (h : List.Forall₂ List.Perm l l') : timesPreferred a b l = timesPreferred a b l' := by
  induction h with
  | nil => rfl
  | @cons x y l l' hxy _ ih =>
    unfold timesPreferred at ih ⊢
    rw [List.filter_cons, List.filter_cons]
    by_cases hx : Prefers a b x
    · rw [if_pos (decide_eq_true hx), if_pos (decide_eq_true ((prefers_perm hxy).1 hx))]
      simp [ih]
    · rw [if_neg (by simpa using hx), if_neg (by simpa using fun h => hx ((prefers_perm hxy).2 h)), ih]

theorem forall₂_mem {l l' : List (List (Str × UInt32))} (h : List.Forall₂ List.Perm l l') : ∀ y ∈ l', ∃ x ∈ l, x.Perm y := by
  induction h with
  | nil => simp
  | cons hxy _ ih =>
    intro y hy
    rcases List.mem_cons.1 hy with rfl | hy
    · exact ⟨_, by simp, hxy⟩
    · obtain ⟨x, hx, h⟩ := ih y hy
      exact ⟨x, by simp [hx], h⟩

theorem allRanked_sort {votes : List (List Selection)} (h : AllRanked (ranks votes)) : AllRanked (ranks (votes.map sortByScore)) := by
  intro v hv
  obtain ⟨v', hv', hp⟩ := forall₂_mem (ranks_sort votes) v hv
  refine ⟨((hp.map _).nodup_iff).1 (h v' hv').1, fun w hw c hc => ?_⟩
  obtain ⟨w', hw', hp'⟩ := forall₂_mem (ranks_sort votes) w hw
  exact (hp.map _).mem_iff.1 ((h v' hv').2 w' hw' c ((hp'.map _).mem_iff.2 hc))

theorem noDup_ranks {votes : List (List Selection)} (h : AllRanked (ranks votes)) : (votes.all fun v => noDup (v.map (·.selection))) = true := by
  rw [List.all_eq_true]
  intro v hv
  rw [noDup_iff]
  have := (h _ (List.mem_map.2 ⟨v, hv, rfl⟩)).1
  rwa [List.map_map] at this

theorem condorcet_eq (T : Tallystick) {votes : List (List Selection)} (h : AllRanked (ranks votes)) :
    condorcetTotals T votes = .ok (((T.pairs (ranks (votes.map sortByScore))).map fun p => (pairText p.1.1 p.1.2, p.2)).foldl (fun t p => Totals.set t p.1 p.2) []) := by
  unfold condorcetTotals
  dsimp only
  rw [if_pos (noDup_ranks (allRanked_sort h)), List.foldl_map]
  rfl

/-- **C85 (partial)** If every voter ranks every candidate and no candidate's name contains `>`, then the total shown for "a > b" is the number of voters who rank a before b; equal ranks
count for neither. -/
theorem C85_head_to_head_partial (T : Tallystick) (hT : CountsPairs T) (votes : List (List Selection)) (hv : AllRanked (ranks votes))
    (hname : ∀ c, Named c votes → 62 ∉ c) :
    ∃ totals, condorcetTotals T votes = .ok totals ∧ (totals.map Prod.fst).Nodup ∧
      ∀ a b n, Named a votes → 0 < n → ((pairText a b, n) ∈ totals ↔ n = timesPreferred a b (ranks votes)) := by
  obtain ⟨hnd, hin, hmem⟩ := hT _ (allRanked_sort hv)
  have hpairs : ∀ a b n, ((a, b), n) ∈ T.pairs (ranks (votes.map sortByScore)) → Named a votes := by
    intro a b n h
    obtain ⟨v, hv, ha⟩ := hin _ h
    obtain ⟨w, hw, rfl⟩ := List.mem_map.1 hv
    obtain ⟨r, hr, hra⟩ := List.mem_map.1 ha
    obtain ⟨s, hs, rfl⟩ := List.mem_map.1 hr
    exact (named_sort _ _).1 ⟨w, hw, s, hs, hra⟩
  have hkeys : (((T.pairs (ranks (votes.map sortByScore))).map fun p => (pairText p.1.1 p.1.2, p.2)).map Prod.fst).Nodup := by
    rw [List.map_map]
    rw [List.nodup_map_iff_inj_on (List.Nodup.of_map _ hnd)]
    rintro ⟨⟨a, b⟩, n⟩ hx ⟨⟨a', b'⟩, n'⟩ hy h
    obtain ⟨rfl, rfl⟩ := pairText_inj (hname _ (hpairs _ _ _ hx)) (hname _ (hpairs _ _ _ hy)) h
    exact List.inj_on_of_nodup_map hnd hx hy rfl
  refine ⟨_, condorcet_eq T hv, foldl_set_nodup _ (by simp), fun a b n ha hn => ?_⟩
  rw [foldl_set_new (by simpa using hkeys), List.nil_append, List.mem_map, timesPreferred_perm (ranks_sort votes), ← hmem a b n hn]
  constructor
  · rintro ⟨⟨⟨a', b'⟩, n'⟩, hx, h⟩
    simp only [Prod.mk.injEq] at h
    obtain ⟨h, rfl⟩ := h
    obtain ⟨rfl, rfl⟩ := pairText_inj (hname _ (hpairs _ _ _ hx)) (hname _ ha) h
    exact hx
  · exact fun h => ⟨_, h, rfl⟩

/-- a way to count -/
def plainPairs : Tallystick where
  pairs ballots :=
    let names := (ballots.flatten.map Prod.fst).dedup
    (names.flatMap fun a => names.map fun b => ((a, b), timesPreferred a b ballots)).filter fun p => decide (0 < p.2)

theorem plainPairs_mem {ballots : List (List (Str × UInt32))} {a b : Str} {n : Nat} : ((a, b), n) ∈ plainPairs.pairs ballots ↔ 0 < n ∧ n = timesPreferred a b ballots := by
  unfold plainPairs
  simp only [List.mem_filter, List.mem_flatMap, List.mem_map, Prod.mk.injEq, decide_eq_true_eq, List.mem_dedup]
  constructor
  · rintro ⟨⟨a', _, b', _, ⟨rfl, rfl⟩, rfl⟩, h⟩
    exact ⟨h, rfl⟩
  · rintro ⟨h, rfl⟩
    refine ⟨?_, h⟩
    unfold timesPreferred at h
    obtain ⟨v, hv⟩ := List.exists_mem_of_length_pos h
    obtain ⟨hv, hp⟩ := List.mem_filter.1 hv
    obtain ⟨r, r', h1, h2, _⟩ := of_decide_eq_true hp
    exact ⟨a, ⟨_, List.mem_flatten.2 ⟨v, hv, h1⟩, rfl⟩, b, ⟨_, List.mem_flatten.2 ⟨v, hv, h2⟩, rfl⟩, ⟨rfl, rfl⟩, rfl⟩

theorem plainPairs_counts : CountsPairs plainPairs := by
  intro ballots _
  refine ⟨?_, ?_, fun a b n hn => by rw [plainPairs_mem]; exact ⟨fun h => h.2, fun h => ⟨hn, h⟩⟩⟩
  rotate_left
  · rintro ⟨⟨a, b⟩, n⟩ h
    obtain ⟨h0, h⟩ := plainPairs_mem.1 h
    unfold timesPreferred at h
    rw [h] at h0
    obtain ⟨v, hv⟩ := List.exists_mem_of_length_pos h0
    obtain ⟨hv, hp⟩ := List.mem_filter.1 hv
    obtain ⟨r, r', h1, _, _⟩ := of_decide_eq_true hp
    exact ⟨v, hv, List.mem_map.2 ⟨_, h1, rfl⟩⟩
  unfold plainPairs
  dsimp only
  generalize hN : (ballots.flatten.map Prod.fst).dedup = names
  have hn : names.Nodup := by rw [← hN]; exact List.nodup_dedup _
  refine (List.filter_sublist.map Prod.fst).nodup ?_
  have : (names.flatMap fun a => names.map fun b => ((a, b), timesPreferred a b ballots)).map Prod.fst = names ×ˢ names := by
    rw [List.map_flatMap]
    simp only [List.map_map, Function.comp_def]
    rfl
  rw [this]
  exact hn.product hn

/-- two voters rank four candidates -/
def sneakyNames : List (List Selection) :=
  [[⟨false, 0, str "a > b"⟩, ⟨false, 1, str "c"⟩, ⟨false, 2, str "a"⟩, ⟨true, 3, str "b > c"⟩],
   [⟨false, 0, str "a > b"⟩, ⟨false, 1, str "c"⟩, ⟨false, 3, str "a"⟩, ⟨true, 2, str "b > c"⟩]]

/-- **C85 is false of the code** for other names: the totals of two pairs can be shown under one text, and then the second replaces the first. -/
theorem C85_head_to_head_false : ¬ ∀ (T : Tallystick), CountsPairs T → ∀ (votes : List (List Selection)), AllRanked (ranks votes) →
    ∃ totals, condorcetTotals T votes = .ok totals ∧ ∀ a b n, Named a votes → 0 < n → ((pairText a b, n) ∈ totals ↔ n = timesPreferred a b (ranks votes)) := by
  intro h
  obtain ⟨totals, h1, h2⟩ := h plainPairs plainPairs_counts sneakyNames (by unfold AllRanked; decide +kernel)
  have hn : (totals.map Prod.fst).Nodup := by
    rw [condorcet_eq _ (by unfold AllRanked; decide +kernel)] at h1
    cases h1
    exact foldl_set_nodup _ (by simp)
  have e1 := (h2 (str "a > b") (str "c") 2 ⟨_, List.mem_cons_self, _, List.mem_cons_self, rfl⟩ (by decide)).2 (by decide +kernel)
  have e2 := (h2 (str "a") (str "b > c") 1 ⟨_, List.mem_cons_self, ⟨false, 2, str "a"⟩, by decide +kernel, rfl⟩ (by decide)).2 (by decide +kernel)
  have ht : pairText (str "a > b") (str "c") = pairText (str "a") (str "b > c") := by decide +kernel
  rw [ht] at e1
  have := List.inj_on_of_nodup_map hn e1 e2 rfl
  cases this

/-- three voters and three candidates in a cycle: each wins against the next by 2 to 1 -/
def cycle : List (List Selection) :=
  [[⟨false, 0, str "a"⟩, ⟨false, 1, str "b"⟩, ⟨false, 2, str "c"⟩], [⟨false, 2, str "a"⟩, ⟨false, 0, str "b"⟩, ⟨false, 1, str "c"⟩],
   [⟨false, 1, str "a"⟩, ⟨false, 2, str "b"⟩, ⟨false, 0, str "c"⟩]]

example : CountsPairs plainPairs ∧ AllRanked (ranks cycle) ∧ (∀ v ∈ cycle, ∀ s ∈ v, 62 ∉ s.selection) ∧
    (∃ t, condorcetTotals plainPairs cycle = .ok t ∧ (str "a > b", 2) ∈ t ∧ (str "b > a", 1) ∈ t) :=
  ⟨plainPairs_counts, by unfold AllRanked; decide +kernel, by decide +kernel, ⟨_, rfl, by decide +kernel, by decide +kernel⟩⟩

end Tally
end CB
