import Verif.Model.IndexMap
/-!
# Looking up what was inserted
-/

namespace CB.IndexMap
variable {κ ν : Type} [DecidableEq κ]

theorem lookup_insertList (k k' : κ) (v : ν) (l : List (κ × ν)) : lookup k' (insertList k v l) = if k' = k then some v else lookup k' l := by
  induction l with
  | nil => simp only [insertList, lookup, eq_comm]
  | cons e es ih =>
    obtain ⟨k₁, v₁⟩ := e
    by_cases h1 : k₁ = k
    · subst h1
      by_cases h2 : k' = k₁
      · subst h2; simp [insertList, lookup]
      · simp [insertList, lookup, h2, Ne.symm h2]
    · simp only [insertList, h1, if_false, lookup, ih]
      by_cases h2 : k₁ = k'
      · subst h2; simp [h1]
      · simp [h2]

theorem get_insert (m : IndexMap κ ν) (k k' : κ) (v : ν) : (m.insert k v).get k' = if k' = k then some v else m.get k' :=
  lookup_insertList k k' v m.entries

@[simp] theorem get_empty (k : κ) : (empty : IndexMap κ ν).get k = none := rfl

end CB.IndexMap
