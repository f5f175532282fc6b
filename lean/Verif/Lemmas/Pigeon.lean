/-!
# Pigeonhole on lists
-/

namespace CB

theorem perm_of_nodup_subset {α : Type} [DecidableEq α] {l l' : List α} (hl : l.Nodup) (hsub : ∀ x ∈ l, x ∈ l')
    (hlen : l'.length ≤ l.length) : l.Perm l' := by
  induction l generalizing l' with
  | nil =>
    cases l' with
    | nil => exact .nil
    | cons => simp at hlen
  | cons a l ih =>
    rw [List.nodup_cons] at hl
    have ha : a ∈ l' := hsub a (by simp)
    have hp := List.perm_cons_erase ha
    refine List.Perm.trans (List.Perm.cons a (ih hl.2 ?_ ?_)) hp.symm
    · intro x hx
      have hne : x ≠ a := fun h => hl.1 (h ▸ hx)
      exact (List.mem_erase_of_ne hne).2 (hsub x (by simp [hx]))
    · rw [List.length_erase_of_mem ha]
      simp at hlen
      omega

end CB
