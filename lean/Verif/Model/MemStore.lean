import Verif.Model.Store
import Verif.Lemmas.Bytes
/-!
# `BTreeMap<String, V>` operations and `MemStore` (store.rs:135-186)
-/

namespace CB
namespace OMap
variable {ν : Type}

theorem mem_insertList {k : Str} {v : ν} {l : List (Str × ν)} {e : Str × ν} (h : e ∈ insertList k v l) :
    e = (k, v) ∨ e ∈ l := by
  induction l with
  | nil => simpa [insertList] using h
  | cons a es ih =>
    obtain ⟨k', v'⟩ := a
    simp only [insertList] at h
    split at h
    · simpa using h
    · rcases List.mem_cons.1 h with h | h
      · exact .inl h
      · exact .inr (List.mem_cons_of_mem _ h)
    · rcases List.mem_cons.1 h with h | h
      · exact .inr (h ▸ List.mem_cons_self)
      · rcases ih h with h | h
        · exact .inl h
        · exact .inr (List.mem_cons_of_mem _ h)

theorem ascKeys_insertList (k : Str) (v : ν) (l : List (Str × ν)) (hl : AscKeys l) : AscKeys (insertList k v l) := by
  induction l with
  | nil => simp [insertList, AscKeys]
  | cons a es ih =>
    obtain ⟨k', v'⟩ := a
    have hl' := hl
    unfold AscKeys at hl
    rw [List.pairwise_cons] at hl
    simp only [insertList]
    split
    · rename_i hlt
      unfold AscKeys
      rw [List.pairwise_cons]
      refine ⟨fun e he => ?_, hl'⟩
      rcases List.mem_cons.1 he with h | h
      · rw [h]; exact hlt
      · exact cmpBytes_lt_trans hlt (hl.1 e h)
    · rename_i heq
      have := (cmpBytes_eq_iff k k').1 heq
      subst this
      unfold AscKeys
      rw [List.pairwise_cons]
      exact ⟨hl.1, hl.2⟩
    · rename_i hgt
      unfold AscKeys
      rw [List.pairwise_cons]
      refine ⟨fun e he => ?_, ih hl.2⟩
      rcases mem_insertList he with h | h
      · rw [h]; exact (cmpBytes_gt_iff k k').1 hgt
      · exact hl.1 e h

/-- `BTreeMap::default()`. (store.rs:180.) -/
def empty : OMap ν := ⟨[], by simp [AscKeys]⟩

/-- `BTreeMap::insert` / `MapIndex::put`: replaces an existing entry. (store.rs:143; cryptoballot_exonum/src/lib.rs:175.) -/
def insert (m : OMap ν) (k : Str) (v : ν) : OMap ν := ⟨insertList k v m.entries, ascKeys_insertList k v m.entries m.sorted⟩

/-- `BTreeMap::get` / `MapIndex::get`. (store.rs:150; cryptoballot_exonum/src/lib.rs:90, 141.) -/
def get (m : OMap ν) (k : Str) : Option ν := lookup k m.entries

/-- `BTreeMap::range(start..=stop)`: panics if `start > stop`, else the entries with keys between, ascending. (store.rs:171.) -/
def range {ε : Type} (m : OMap ν) (start stop : Str) : Res ε (List (Str × ν)) :=
  if cmpBytes start stop = .gt then .panic .rangeInverted
  else .ok (m.entries.filter fun e => cmpBytes start e.1 != .gt && cmpBytes e.1 stop != .gt)

/-- `MapIndex::iter_from(start)`: the entries with keys `≥ start`, ascending. (cryptoballot_exonum/src/lib.rs:104; cryptoballot_server/src/api.rs:51.) -/
def iterFrom (m : OMap ν) (start : Str) : List (Str × ν) := m.entries.filter fun e => cmpBytes start e.1 != .gt

end OMap

/-- `MemStore`, store.rs:136-139. -/
structure MemStore where
  inner : OMap SignedTx

namespace MemStore

/-- `MemStore::default()`, store.rs:136. -/
def empty : MemStore := ⟨OMap.empty⟩

/-- `MemStore::set`, store.rs:142-144. -/
def set (m : MemStore) (tx : SignedTx) : MemStore := ⟨m.inner.insert tx.id.toString tx⟩

/-- `MemStore::get_transaction`, store.rs:148-151. -/
def getTransaction (m : MemStore) (id : Identifier) : Option SignedTx := m.inner.get id.toString

/-- `MemStore::range`, store.rs:153-175. -/
def range (m : MemStore) (start stop : Identifier) : VRes (List SignedTx) :=
  (m.inner.range start.toString stop.toString).bind fun es => .ok (es.map Prod.snd)

/-- `impl Store for MemStore`, store.rs:147-176. -/
def toStore (m : MemStore) : Store := { getTransaction := m.getTransaction, range := m.range }

/-- `From<Vec<SignedTransaction>>`, store.rs:178-186. -/
def ofList (txs : List SignedTx) : MemStore := txs.foldl set empty

end MemStore
end CB
