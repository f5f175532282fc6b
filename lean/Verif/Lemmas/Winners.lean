import Verif.Model.Winners
import Mathlib.Data.List.Basic
/-!
# Lemmas about ranks and winners
-/

namespace CB
namespace Tally

theorem insertByTotal_perm (x : Str × Nat) (l : Totals) : (insertByTotal x l).Perm (x :: l) := by
  induction l with
  | nil => exact List.Perm.refl _
  | cons y ys ih =>
    rw [insertByTotal]
    split
    · exact List.Perm.refl _
    · exact (ih.cons y).trans (List.Perm.swap x y ys)

theorem byTotal_perm (t : Totals) : (byTotal t).Perm t := by
  induction t with
  | nil => exact List.Perm.refl _
  | cons x xs ih => exact (insertByTotal_perm x (byTotal xs)).trans (ih.cons x)

theorem insertByTotal_sorted (x : Str × Nat) {l : Totals} (h : l.Pairwise fun a b => b.2 ≤ a.2) : (insertByTotal x l).Pairwise fun a b => b.2 ≤ a.2 := by
  induction l with
  | nil => simp [insertByTotal]
  | cons y ys ih =>
    obtain ⟨h1, h2⟩ := List.pairwise_cons.1 h
    rw [insertByTotal]
    split
    · rename_i hle
      refine List.pairwise_cons.2 ⟨fun z hz => ?_, h⟩
      rcases List.mem_cons.1 hz with rfl | hz
      · exact hle
      · exact Nat.le_trans (h1 z hz) hle
    · rename_i hle
      refine List.pairwise_cons.2 ⟨fun z hz => ?_, ih h2⟩
      rcases List.mem_cons.1 ((insertByTotal_perm x ys).mem_iff.1 hz) with rfl | hz
      · omega
      · exact h1 z hz

theorem byTotal_sorted (t : Totals) : (byTotal t).Pairwise fun a b => b.2 ≤ a.2 := by
  induction t with
  | nil => exact List.Pairwise.nil
  | cons x xs ih => exact insertByTotal_sorted x ih

/-- a candidate with total and rank -/
structure Placed where
  c : Str
  n : Nat
  r : Nat

/-- the candidate and the total -/
def Placed.total (j : Placed) : Str × Nat := (j.c, j.n)
/-- the candidate and the rank -/
def Placed.rank (j : Placed) : Str × Nat := (j.c, j.r)

/-- the earlier and the later in a ranked list -/
def Before (a b : Placed) : Prop := b.n ≤ a.n ∧ a.r ≤ b.r ∧ (a.n = b.n ↔ a.r = b.r)

theorem rankFrom_placed (l : Totals) (last rank : Nat) (hs : l.Pairwise fun a b => b.2 ≤ a.2) (hl : ∀ x ∈ l, x.2 ≤ last) :
    ∃ J : List Placed, J.map Placed.total = l ∧ J.map Placed.rank = rankFrom last rank l ∧ J.Pairwise Before ∧
      (∀ j ∈ J, j.n ≤ last ∧ rank ≤ j.r ∧ (last = j.n ↔ rank = j.r)) ∧ ∀ j ∈ J, ∀ k, rank < k → k < j.r → ∃ i ∈ J, i.r = k := by
  induction l generalizing last rank with
  | nil => exact ⟨[], rfl, rfl, List.Pairwise.nil, by simp, by simp⟩
  | cons x xs ih =>
    obtain ⟨c, n⟩ := x
    obtain ⟨h1, h2⟩ := List.pairwise_cons.1 hs
    have hn : n ≤ last := hl (c, n) (by simp)
    by_cases hlt : n < last
    · obtain ⟨J, e1, e2, hp, hb, hg⟩ := ih n (rank + 1) h2 h1
      refine ⟨⟨c, n, rank + 1⟩ :: J, by rw [List.map_cons, e1]; rfl, by rw [List.map_cons, e2, rankFrom, if_pos hlt]; rfl, List.pairwise_cons.2 ⟨fun j hj => hb j hj, hp⟩, ?_, ?_⟩
      · intro j hj
        rcases List.mem_cons.1 hj with rfl | hj
        · dsimp only; omega
        · have := hb j hj
          omega
      · intro j hj k hk hkj
        rcases List.mem_cons.1 hj with rfl | hj
        · dsimp only at hkj; omega
        · by_cases hk1 : k = rank + 1
          · exact ⟨_, List.mem_cons_self, hk1.symm⟩
          · obtain ⟨i, hi, h⟩ := hg j hj k (by omega) hkj
            exact ⟨i, List.mem_cons_of_mem _ hi, h⟩
    · have hnl : n = last := by omega
      subst hnl
      obtain ⟨J, e1, e2, hp, hb, hg⟩ := ih n rank h2 h1
      refine ⟨⟨c, n, rank⟩ :: J, by rw [List.map_cons, e1]; rfl, by rw [List.map_cons, e2, rankFrom, if_neg hlt]; rfl, List.pairwise_cons.2 ⟨fun j hj => hb j hj, hp⟩, ?_, ?_⟩
      · intro j hj
        rcases List.mem_cons.1 hj with rfl | hj
        · exact ⟨Nat.le_refl _, Nat.le_refl _, Iff.intro (fun _ => rfl) fun _ => rfl⟩
        · exact hb j hj
      · intro j hj k hk hkj
        rcases List.mem_cons.1 hj with rfl | hj
        · dsimp only at hkj; omega
        · obtain ⟨i, hi, h⟩ := hg j hj k hk hkj
          exact ⟨i, List.mem_cons_of_mem _ hi, h⟩

theorem rankAll_placed (t : Totals) : ∃ J : List Placed, (J.map Placed.total).Perm t ∧ J.map Placed.rank = rankAll t ∧ J.Pairwise Before ∧
    ∀ j ∈ J, ∀ k, k < j.r → ∃ i ∈ J, i.r = k := by
  have hp := byTotal_perm t
  have hs := byTotal_sorted t
  unfold rankAll
  revert hp hs
  cases byTotal t with
  | nil => exact fun hp _ => ⟨[], hp, rfl, List.Pairwise.nil, by simp⟩
  | cons x l =>
    intro hp hs
    obtain ⟨c, n⟩ := x
    obtain ⟨h1, h2⟩ := List.pairwise_cons.1 hs
    obtain ⟨J, e1, e2, hp', hb, hg⟩ := rankFrom_placed l n 0 h2 h1
    refine ⟨⟨c, n, 0⟩ :: J, by rw [List.map_cons, e1]; exact hp, by rw [List.map_cons, e2]; rfl, List.pairwise_cons.2 ⟨fun j hj => hb j hj, hp'⟩, ?_⟩
    intro j hj k hk
    rcases List.mem_cons.1 hj with rfl | hj
    · dsimp only at hk; omega
    · by_cases hk0 : k = 0
      · exact ⟨_, List.mem_cons_self, hk0.symm⟩
      · obtain ⟨i, hi, h⟩ := hg j hj k (by omega) hk
        exact ⟨i, List.mem_cons_of_mem _ hi, h⟩

theorem placed_order {J : List Placed} (h : J.Pairwise Before) {a b : Placed} (ha : a ∈ J) (hb : b ∈ J) : (a.r < b.r ↔ b.n < a.n) ∧ (a.r = b.r ↔ a.n = b.n) := by
  induction J with
  | nil => cases ha
  | cons x xs ih =>
    obtain ⟨h1, h2⟩ := List.pairwise_cons.1 h
    rcases List.mem_cons.1 ha with ea | ma <;> rcases List.mem_cons.1 hb with eb | mb
    · subst ea; subst eb; simp
    · subst ea
      have := h1 b mb; unfold Before at this; omega
    · subst eb
      have := h1 a ma; unfold Before at this; omega
    · exact ih h2 ma mb

/-- how many have a higher total -/
def aheadOf (J : List Placed) (j : Placed) : Nat := (J.filter fun i => j.n < i.n).length

theorem aheadOf_mono (J : List Placed) {a b : Placed} (h : b.n ≤ a.n) : aheadOf J a ≤ aheadOf J b := by
  unfold aheadOf
  rw [← List.countP_eq_length_filter, ← List.countP_eq_length_filter]
  exact List.countP_mono_left fun x _ hx => decide_eq_true (Nat.lt_of_le_of_lt h (of_decide_eq_true hx))

theorem takeWinners_eq (num : Nat) (hnum : 0 < num) (J pre : List Placed) (rank : Nat) (hp : (pre ++ J).Pairwise Before)
    (hpre : pre = [] ∨ ∃ q y, pre = q ++ [y] ∧ y.r = rank ∧ aheadOf (pre ++ J) y < num) :
    takeWinners num pre.length rank (J.map Placed.rank) = (J.filter fun j => aheadOf (pre ++ J) j < num).map Placed.rank := by
  induction J generalizing pre rank with
  | nil => rfl
  | cons x xs ih =>
    have hJ : pre ++ x :: xs = (pre ++ [x]) ++ xs := by simp
    obtain ⟨hp1, hp2, hp3⟩ := List.pairwise_append.1 hp
    obtain ⟨hx1, -⟩ := List.pairwise_cons.1 hp2
    have key : (num ≤ pre.length ∧ x.r ≠ rank) ↔ ¬ aheadOf (pre ++ x :: xs) x < num := by
      rcases hpre with rfl | ⟨q, y, rfl, hyr, hya⟩
      · have : aheadOf ([] ++ x :: xs) x = 0 := by
          unfold aheadOf
          rw [List.length_eq_zero_iff, List.filter_eq_nil_iff]
          intro z hz
          rcases List.mem_cons.1 hz with rfl | hz
          · simp
          · have := (hx1 z hz).1
            simp only [decide_eq_true_eq]; omega
        rw [this]
        simp only [List.length_nil]; omega
      · have hyx : Before y x := hp3 y (by simp) x (by simp)
        by_cases hxr : x.r = rank
        · have hn : y.n = x.n := hyx.2.2.2 (by omega)
          have : aheadOf ((q ++ [y]) ++ x :: xs) x = aheadOf ((q ++ [y]) ++ x :: xs) y := by unfold aheadOf; rw [hn]
          rw [this]
          constructor
          · exact fun h => absurd hxr h.2
          · exact fun h => absurd hya h
        · have hn : x.n < y.n := by
            have := hyx.1
            have := hyx.2.2
            omega
          have hall : aheadOf ((q ++ [y]) ++ x :: xs) x = (q ++ [y]).length := by
            unfold aheadOf
            rw [List.filter_append]
            have e1 : (q ++ [y]).filter (fun i => decide (x.n < i.n)) = q ++ [y] := by
              rw [List.filter_eq_self]
              intro z hz
              rcases List.mem_append.1 hz with hz | hz
              · have := ((List.pairwise_append.1 hp1).2.2 z hz y (by simp)).1
                exact decide_eq_true (by omega)
              · rw [List.mem_singleton.1 hz]; exact decide_eq_true hn
            have e2 : (x :: xs).filter (fun i => decide (x.n < i.n)) = [] := by
              rw [List.filter_eq_nil_iff]
              intro z hz
              rcases List.mem_cons.1 hz with rfl | hz
              · simp
              · have := (hx1 z hz).1
                simp only [decide_eq_true_eq]; omega
            rw [e1, e2, List.append_nil]
          rw [hall]
          constructor
          · exact fun h => by omega
          · exact fun h => ⟨by omega, hxr⟩
    rw [List.map_cons]
    unfold Placed.rank
    rw [takeWinners]
    by_cases hx : aheadOf (pre ++ x :: xs) x < num
    · rw [if_neg (fun h => key.1 h hx), List.filter_cons_of_pos (by exact decide_eq_true hx), List.map_cons]
      have := ih (pre ++ [x]) x.r (by rw [← hJ]; exact hp) (Or.inr ⟨pre, x, rfl, rfl, by rw [← hJ]; exact hx⟩)
      rw [← hJ, List.length_append, List.length_singleton] at this
      exact congrArg _ this
    · rw [if_pos (key.2 hx)]
      symm
      rw [List.map_eq_nil_iff, List.filter_eq_nil_iff]
      intro z hz
      simp only [decide_eq_true_eq]
      rcases List.mem_cons.1 hz with rfl | hz
      · exact hx
      · have := aheadOf_mono (pre ++ x :: xs) (hx1 z hz).1
        omega

theorem takeWinners_prefix (num taken rank : Nat) (l : List (Str × Nat)) : takeWinners num taken rank l <+: l := by
  induction l generalizing taken rank with
  | nil => exact List.prefix_refl _
  | cons x xs ih =>
    obtain ⟨c, r⟩ := x
    rw [takeWinners]
    split
    · exact List.nil_prefix
    · exact List.cons_prefix_cons.2 ⟨rfl, ih _ _⟩

theorem takeWinners_enough (num taken rank : Nat) (l : List (Str × Nat)) : min (num - taken) l.length ≤ (takeWinners num taken rank l).length := by
  induction l generalizing taken rank with
  | nil => simp [takeWinners]
  | cons x xs ih =>
    obtain ⟨c, r⟩ := x
    rw [takeWinners]
    split
    · omega
    · have := ih (taken + 1) r
      simp only [List.length_cons]; omega

theorem takeWinners_exact (num taken rank : Nat) (l : List (Str × Nat)) (hd : (rank :: l.map Prod.snd).Nodup) :
    (takeWinners num taken rank l).length = min (num - taken) l.length := by
  induction l generalizing taken rank with
  | nil => simp [takeWinners]
  | cons x xs ih =>
    obtain ⟨c, r⟩ := x
    rw [List.map_cons, List.nodup_cons] at hd
    have hr : r ≠ rank := fun h => hd.1 (by rw [h]; exact List.mem_cons_self)
    have := ih (taken + 1) r hd.2
    rw [takeWinners]
    split
    · simp only [List.length_nil, List.length_cons]; omega
    · simp only [List.length_cons]; omega

end Tally
end CB
