import Verif.Model.Tally
import Mathlib.Data.List.Induction
import Mathlib.Algebra.BigOperators.Group.List.Basic
/-!
# Lemmas about running totals
-/

namespace CB
namespace Tally

theorem insertByScore_perm (s : Selection) (l : List Selection) : (insertByScore s l).Perm (s :: l) := by
  induction l with
  | nil => exact List.Perm.refl _
  | cons x xs ih =>
    unfold insertByScore
    split
    · exact List.Perm.refl _
    · exact (List.Perm.cons x ih).trans (List.Perm.swap s x xs)

theorem sortByScore_perm (v : List Selection) : (sortByScore v).Perm v := by
  induction v with
  | nil => exact List.Perm.refl _
  | cons s v ih => exact (insertByScore_perm s _).trans (List.Perm.cons s ih)

theorem add_keys (t : Totals) (c : Str) (w : Nat) (x : Str) : x ∈ (t.add c w).map Prod.fst ↔ x ∈ t.map Prod.fst ∨ x = c := by
  induction t with
  | nil => simp [Totals.add]
  | cons a r ih =>
    obtain ⟨c', n⟩ := a
    unfold Totals.add
    split
    · rename_i h
      subst h
      simp only [List.map_cons, List.mem_cons]
      constructor
      · rintro (h | h)
        · exact .inr h
        · exact .inl (.inr h)
      · rintro ((h | h) | h)
        · exact .inl h
        · exact .inr h
        · exact .inl h
    · simp only [List.map_cons, List.mem_cons, ih, or_assoc]

theorem add_nodup {t : Totals} (h : (t.map Prod.fst).Nodup) (c : Str) (w : Nat) : ((t.add c w).map Prod.fst).Nodup := by
  induction t with
  | nil => simp [Totals.add]
  | cons a r ih =>
    obtain ⟨c', n⟩ := a
    simp only [List.map_cons, List.nodup_cons] at h
    unfold Totals.add
    split
    · simpa using h
    · rename_i hne
      simp only [List.map_cons, List.nodup_cons, add_keys, not_or]
      exact ⟨⟨h.1, hne⟩, ih h.2⟩

theorem add_mem {t : Totals} (h : (t.map Prod.fst).Nodup) (c : Str) (w : Nat) (x : Str) (n : Nat) :
    (x, n) ∈ t.add c w ↔ (x ≠ c ∧ (x, n) ∈ t) ∨ (x = c ∧ ((c ∉ t.map Prod.fst ∧ n = w) ∨ ∃ k, (c, k) ∈ t ∧ n = k + w)) := by
  induction t with
  | nil =>
    simp only [Totals.add, List.mem_singleton, Prod.mk.injEq, List.not_mem_nil, and_false, List.map_nil, not_false_eq_true, true_and, false_and, exists_false,
      or_false, false_or]
  | cons a r ih =>
    obtain ⟨c', m⟩ := a
    simp only [List.map_cons, List.nodup_cons] at h
    have hr : ∀ k, (c', k) ∉ r := fun k hk => h.1 (List.mem_map.2 ⟨_, hk, rfl⟩)
    unfold Totals.add
    split
    · rename_i heq
      subst heq
      simp only [List.mem_cons, Prod.mk.injEq, List.map_cons, true_or, not_true_eq_false, false_and, false_or, true_and]
      constructor
      · rintro (⟨rfl, rfl⟩ | hx)
        · exact .inr ⟨rfl, m, .inl rfl, rfl⟩
        · by_cases hxc : x = c'
          · subst hxc; exact absurd hx (hr n)
          · exact .inl ⟨hxc, .inr hx⟩
      · rintro (⟨hxc, (⟨rfl, _⟩ | hx)⟩ | ⟨rfl, k, (rfl | hk), rfl⟩)
        · exact absurd rfl hxc
        · exact .inr hx
        · exact .inl ⟨rfl, rfl⟩
        · exact absurd hk (hr k)
    · rename_i hne
      simp only [List.mem_cons, Prod.mk.injEq, List.map_cons, ih h.2, not_or]
      constructor
      · rintro (⟨rfl, rfl⟩ | ⟨hxc, hx⟩ | ⟨rfl, (⟨hk, rfl⟩ | ⟨k, hk, rfl⟩)⟩)
        · exact .inl ⟨hne, .inl ⟨rfl, rfl⟩⟩
        · exact .inl ⟨hxc, .inr hx⟩
        · exact .inr ⟨rfl, .inl ⟨⟨fun h => hne h.symm, hk⟩, rfl⟩⟩
        · exact .inr ⟨rfl, .inr ⟨k, .inr hk, rfl⟩⟩
      · rintro (⟨hxc, (hx | hx)⟩ | ⟨rfl, (⟨⟨_, hk⟩, rfl⟩ | ⟨k, (⟨hk, _⟩ | hk), rfl⟩)⟩)
        · exact .inl hx
        · exact .inr (.inl ⟨hxc, hx⟩)
        · exact .inr (.inr ⟨rfl, .inl ⟨hk, rfl⟩⟩)
        · exact absurd hk.symm hne
        · exact .inr (.inr ⟨rfl, .inr ⟨k, hk, rfl⟩⟩)

/-- Running totals over a list of weighted candidates. -/
def count (l : List (Str × Nat)) : Totals := l.foldl (fun t x => t.add x.1 x.2) []

theorem count_snoc (l : List (Str × Nat)) (x : Str × Nat) : count (l ++ [x]) = (count l).add x.1 x.2 := by
  unfold count; rw [List.foldl_append]; rfl

theorem count_nodup (l : List (Str × Nat)) : ((count l).map Prod.fst).Nodup := by
  induction l using List.reverseRecOn with
  | nil => simp [count]
  | append_singleton l x ih => rw [count_snoc]; exact add_nodup ih _ _

theorem count_keys (l : List (Str × Nat)) (c : Str) : c ∈ (count l).map Prod.fst ↔ c ∈ l.map Prod.fst := by
  induction l using List.reverseRecOn with
  | nil => simp [count]
  | append_singleton l x ih => rw [count_snoc, add_keys, ih]; simp [eq_comm]

/-- Each candidate that occurs is listed once, with the sum of its weights. -/
theorem count_mem (l : List (Str × Nat)) (c : Str) (n : Nat) :
    (c, n) ∈ count l ↔ c ∈ l.map Prod.fst ∧ n = ((l.filter fun x => x.1 = c).map Prod.snd).sum := by
  induction l using List.reverseRecOn generalizing n with
  | nil => simp [count]
  | append_singleton l x ih =>
    obtain ⟨y, w⟩ := x
    rw [count_snoc, add_mem (count_nodup l), count_keys]
    simp only [ih, List.map_append, List.map_cons, List.map_nil, List.mem_append, List.mem_singleton, List.filter_append, List.sum_append]
    by_cases hc : c = y
    · subst hc
      simp only [ne_eq, not_true_eq_false, false_and, true_and, false_or, or_true, decide_true, List.filter_cons_of_pos, List.filter_nil, List.map_cons,
        List.map_nil, List.sum_cons, List.sum_nil, Nat.add_zero]
      constructor
      · rintro (⟨hn, rfl⟩ | ⟨k, hk, rfl⟩)
        · have : l.filter (fun x => decide (x.1 = c)) = [] := by
            rw [List.filter_eq_nil_iff]
            intro a ha h
            exact hn (List.mem_map.2 ⟨a, ha, by simpa using h⟩)
          rw [this]; simp
        · rw [((ih k).1 hk).2]
      · rintro rfl
        by_cases hn : c ∈ l.map Prod.fst
        · exact .inr ⟨_, (ih _).2 ⟨hn, rfl⟩, rfl⟩
        · refine .inl ⟨hn, ?_⟩
          have : l.filter (fun x => decide (x.1 = c)) = [] := by
            rw [List.filter_eq_nil_iff]
            intro a ha h
            exact hn (List.mem_map.2 ⟨a, ha, by simpa using h⟩)
          rw [this]; simp
    · have hf : List.filter (fun x : Str × Nat => decide (x.1 = c)) [(y, w)] = [] := by
        rw [List.filter_eq_nil_iff]
        intro a ha h
        simp only [List.mem_singleton] at ha
        subst ha
        exact hc (of_decide_eq_true h).symm
      simp [hc, hf]

theorem foldl_ballots (f : Selection → Nat) (votes : List (List Selection)) :
    votes.foldl (fun t v => v.foldl (fun t s => Totals.add t s.selection (f s)) t) [] = count (votes.flatten.map fun s => (s.selection, f s)) := by
  unfold count
  rw [List.foldl_map, List.foldl_flatten]

theorem sum_count (l : List (Str × Nat)) : ((count l).map Prod.snd).sum = (l.map Prod.snd).sum := by
  have hadd : ∀ (t : Totals) c w, ((t.add c w).map Prod.snd).sum = (t.map Prod.snd).sum + w := by
    intro t c w
    induction t with
    | nil => simp [Totals.add]
    | cons a r ih =>
      obtain ⟨c', n⟩ := a
      unfold Totals.add
      split
      · simp only [List.map_cons, List.sum_cons]; omega
      · simp only [List.map_cons, List.sum_cons, ih]; omega
  induction l using List.reverseRecOn with
  | nil => simp [count]
  | append_singleton l x ih => rw [count_snoc, hadd, ih]; simp

theorem noDup_iff (l : List Str) : noDup l = true ↔ l.Nodup := by
  induction l with
  | nil => simp [noDup]
  | cons c cs ih => simp [noDup, ih]

end Tally
end CB
