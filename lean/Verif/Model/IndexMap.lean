import Verif.Model.Basic
/-!
# `indexmap::IndexMap`: insertion-ordered map with unique keys
-/

namespace CB

/-- `IndexMap<K, V>`: entries in insertion order, keys unique (guaranteed by the crate). (crate indexmap; used in keygen.rs:31, 182-210, authn.rs:39, 101-123.) -/
structure IndexMap (κ ν : Type) where
  entries : List (κ × ν)
  nodup : (entries.map Prod.fst).Nodup

namespace IndexMap
variable {κ ν : Type} [DecidableEq κ]

/-- `IndexMap::new()`. (crate indexmap; used in keygen.rs:31, 182-210, authn.rs:39, 101-123.) -/
def empty : IndexMap κ ν := ⟨[], by simp⟩

/-- `len()`. (crate indexmap; used in keygen.rs:31, 182-210, authn.rs:39, 101-123.) -/
def len (m : IndexMap κ ν) : Nat := m.entries.length

/-- lookup in an association list, first entry with the key (keys are unique). (crate indexmap; used in keygen.rs:31, 182-210, authn.rs:39, 101-123.) -/
def lookup (k : κ) : List (κ × ν) → Option ν
  | [] => none
  | (k', v) :: es => if k' = k then some v else lookup k es

/-- `get(&k)`. (crate indexmap; used in keygen.rs:31, 182-210, authn.rs:39, 101-123.) -/
def get (m : IndexMap κ ν) (k : κ) : Option ν := lookup k m.entries

/-- `contains_key(&k)`. (crate indexmap; used in keygen.rs:31, 182-210, authn.rs:39, 101-123.) -/
def containsKey (m : IndexMap κ ν) (k : κ) : Bool := (m.get k).isSome

/-- replace the value at `k` in place, or append a new entry. (crate indexmap; used in keygen.rs:31, 182-210, authn.rs:39, 101-123.) -/
def insertList (k : κ) (v : ν) : List (κ × ν) → List (κ × ν)
  | [] => [(k, v)]
  | (k', v') :: es => if k' = k then (k, v) :: es else (k', v') :: insertList k v es

theorem mem_keys_insertList (k : κ) (v : ν) (l : List (κ × ν)) (x : κ) :
    x ∈ (insertList k v l).map Prod.fst ↔ x = k ∨ x ∈ l.map Prod.fst := by
  induction l with
  | nil => simp [insertList]
  | cons e es ih =>
    obtain ⟨k', v'⟩ := e
    simp only [insertList]
    split
    · rename_i h; subst h; simp
    · rw [List.map_cons, List.mem_cons, ih, List.map_cons, List.mem_cons]
      constructor
      · rintro (h | h | h)
        · exact .inr (.inl h)
        · exact .inl h
        · exact .inr (.inr h)
      · rintro (h | h | h)
        · exact .inr (.inl h)
        · exact .inl h
        · exact .inr (.inr h)

theorem nodup_insertList (k : κ) (v : ν) (l : List (κ × ν)) (h : (l.map Prod.fst).Nodup) :
    ((insertList k v l).map Prod.fst).Nodup := by
  induction l with
  | nil => simp [insertList]
  | cons e es ih =>
    obtain ⟨k', v'⟩ := e
    rw [List.map_cons, List.nodup_cons] at h
    simp only [insertList]
    split
    · rename_i hk; subst hk; simpa [List.nodup_cons] using h
    · rename_i hk
      rw [List.map_cons, List.nodup_cons]
      refine ⟨fun hm => ?_, ih h.2⟩
      rcases (mem_keys_insertList k v es k').1 hm with h' | h'
      · exact hk h'
      · exact h.1 h'

/-- `insert(k, v)`: replaces the value in place if the key exists, else appends. (crate indexmap; used in keygen.rs:31, 182-210, authn.rs:39, 101-123.) -/
def insert (m : IndexMap κ ν) (k : κ) (v : ν) : IndexMap κ ν :=
  ⟨insertList k v m.entries, nodup_insertList k v m.entries m.nodup⟩

/-- building a map by inserting pairs in order (what deserialization does). (crate indexmap; used in keygen.rs:31, 182-210, authn.rs:39, 101-123.) -/
def ofList (l : List (κ × ν)) : IndexMap κ ν := l.foldl (fun m e => m.insert e.1 e.2) empty

end IndexMap
end CB
