import Verif.Props.Server
import Verif.Spec.Laws
/-!
# C67: trustees find their own record in the election
-/

namespace CB
open Spec Server

theorem filter_key_nil {l : List Trustee} {key : PublicKey} (h : ∀ x ∈ l, x.publicKey ≠ key) : (l.filter fun x => x.publicKey == key) = [] :=
  List.filter_eq_nil_iff.2 fun x hx hk => h x hx (beq_iff_eq.1 hk)

theorem filter_key_last {l before after : List Trustee} {tr : Trustee} {key : PublicKey} (h1 : l = before ++ tr :: after) (h2 : tr.publicKey = key)
    (h3 : ∀ x ∈ after, x.publicKey ≠ key) : (l.filter fun x => x.publicKey == key).getLast? = some tr := by
  rw [h1, List.filter_append, List.filter_cons_of_pos (p := fun x : Trustee => x.publicKey == key) (beq_iff_eq.2 h2), filter_key_nil h3, List.getLast?_append]
  rfl

/-- **C67** The library's lookup returns the last trustee with the key, with the election's number of trustees and threshold, if its index is not 0. -/
theorem C67_own_record (ε : Type) (e : ElectionTx) (key : PublicKey) (tr : Trustee) :
    (Trustee.fromElectionTx e key : Res ε Trustee) = .ok tr ↔
      ∃ before tr0 after, e.trustees = before ++ tr0 :: after ∧ tr0.publicKey = key ∧ (∀ x ∈ after, x.publicKey ≠ key) ∧ tr0.index ≠ 0 ∧
        tr.publicKey = key ∧ tr.index = tr0.index ∧ tr.numTrustees = e.trustees.length ∧ tr.threshold = e.trusteesThreshold := by
  have hlast : ∀ tr0, (e.trustees.filter fun x => x.publicKey == key).getLast? = some tr0 ↔
      ∃ before after, e.trustees = before ++ tr0 :: after ∧ tr0.publicKey = key ∧ ∀ x ∈ after, x.publicKey ≠ key := by
    intro tr0
    constructor
    · intro h
      rw [List.getLast?_eq_some_iff] at h
      obtain ⟨l, h⟩ := h
      rw [List.filter_eq_append_iff] at h
      obtain ⟨l1, l2, h1, -, h2⟩ := h
      rw [List.filter_eq_cons_iff] at h2
      obtain ⟨a, b, rfl, -, h3, h4⟩ := h2
      refine ⟨l1 ++ a, b, by rw [h1, List.append_assoc], beq_iff_eq.1 h3, fun x hx hk => ?_⟩
      rw [List.filter_eq_nil_iff] at h4
      exact h4 x hx (beq_iff_eq.2 hk)
    · rintro ⟨before, after, h1, h2, h3⟩
      exact filter_key_last h1 h2 h3
  unfold Trustee.fromElectionTx
  constructor
  · intro h
    split at h
    · rename_i tr0 h0
      obtain ⟨before, after, h1, h2, h3⟩ := (hlast tr0).1 h0
      split at h
      · cases h
      · rename_i hi
        cases h
        exact ⟨before, tr0, after, h1, h2, h3, hi, h2, rfl, rfl, rfl⟩
    · cases h
  · rintro ⟨before, tr0, after, h1, h2, h3, h4, h5, h6, h7, h8⟩
    rw [(hlast tr0).2 ⟨before, after, h1, h2, h3⟩]
    simp only [if_neg h4, Res.ok.injEq]
    obtain ⟨a, b, c, d⟩ := tr
    simp only at h5 h6 h7 h8
    simp [h2, h5, h6, h7, h8]

/-- **C67** It never fails in another way than by crashing, and does so for every key that is not a trustee's. -/
theorem C67_strangers_crash (ε : Type) (e : ElectionTx) (key : PublicKey) :
    (Trustee.fromElectionTx e key : Res ε Trustee) = .panic .expectFailed ↔
      (∀ tr ∈ e.trustees, tr.publicKey ≠ key) ∨
      ∃ before tr0 after, e.trustees = before ++ tr0 :: after ∧ tr0.publicKey = key ∧ (∀ x ∈ after, x.publicKey ≠ key) ∧ tr0.index = 0 := by
  by_cases hk : ∀ tr ∈ e.trustees, tr.publicKey ≠ key
  · refine ⟨fun _ => .inl hk, fun _ => ?_⟩
    unfold Trustee.fromElectionTx
    rw [filter_key_nil hk]
    rfl
  · obtain ⟨before, tr0, after, h1, h2, h3⟩ : ∃ before tr0 after, e.trustees = before ++ tr0 :: after ∧ tr0.publicKey = key ∧ ∀ x ∈ after, x.publicKey ≠ key := by
      generalize e.trustees = l at hk
      induction l with
      | nil => exact absurd (by simp) hk
      | cons a l ih =>
        by_cases hl : ∀ tr ∈ l, tr.publicKey ≠ key
        · refine ⟨[], a, l, rfl, ?_, hl⟩
          exact Classical.byContradiction fun ha => hk (by simpa [ha] using hl)
        · obtain ⟨b, t, af, h1, h2, h3⟩ := ih hl
          exact ⟨a :: b, t, af, by rw [h1]; rfl, h2, h3⟩
    have hok := C67_own_record ε e key { tr0 with numTrustees := e.trustees.length, threshold := e.trusteesThreshold }
    by_cases hi : tr0.index = 0
    · refine ⟨fun _ => .inr ⟨before, tr0, after, h1, h2, h3, hi⟩, fun _ => ?_⟩
      unfold Trustee.fromElectionTx
      rw [filter_key_last h1 h2 h3]
      exact if_pos hi
    · have := hok.2 ⟨before, tr0, after, h1, h2, h3, hi, h2, rfl, rfl, rfl⟩
      rw [this]
      refine ⟨fun h => (by cases h), ?_⟩
      rintro (h | ⟨b', t', a', h1', h2', h3', h4'⟩)
      · exact absurd h hk
      · have h5 : (e.trustees.filter fun x => x.publicKey == key).getLast? = some tr0 := filter_key_last h1 h2 h3
        have h6 : (e.trustees.filter fun x => x.publicKey == key).getLast? = some t' := filter_key_last h1' h2' h3'
        rw [h5] at h6
        cases h6
        exact absurd h4' hi

/-- **C67** Where no two trustees share a key and no index is 0, the library and the node find the same record. -/
theorem C67_library_and_node_agree (ε : Type) (e : ElectionTx) (hk : (e.trustees.map (·.publicKey)).Nodup) (h0 : ∀ tr ∈ e.trustees, tr.index ≠ 0) (key : PublicKey) (tr : Trustee) :
    (Trustee.fromElectionTx e key : Res ε Trustee) = .ok tr ↔ trusteeFromElection e key = some tr := by
  rw [C67_own_record]
  constructor
  · rintro ⟨before, tr0, after, h1, h2, h3, h4, h5, h6, h7, h8⟩
    unfold trusteeFromElection ElectionTx.getFullTrustees
    rw [List.find?_map, Option.map_eq_some_iff]
    refine ⟨tr0, ?_, ?_⟩
    · rw [List.find?_eq_some_iff_append]
      refine ⟨beq_iff_eq.2 h2, before, after, h1, fun a ha => ?_⟩
      rw [h1, List.map_append, List.map_cons, List.nodup_append] at hk
      have := hk.2.2 _ (List.mem_map_of_mem ha) tr0.publicKey (by simp)
      rw [h2] at this
      rw [Bool.not_eq_true', ← Bool.not_eq_true]
      exact fun h => this (beq_iff_eq.1 h)
    · obtain ⟨a, b, c, d⟩ := tr
      simp only at h5 h6 h7 h8
      simp [h2, h5, h6, h7, h8]
  · intro h
    unfold trusteeFromElection ElectionTx.getFullTrustees at h
    rw [List.find?_map, Option.map_eq_some_iff] at h
    obtain ⟨tr0, h, rfl⟩ := h
    rw [List.find?_eq_some_iff_append] at h
    obtain ⟨h2, before, after, h1, -⟩ := h
    have h2 : tr0.publicKey = key := beq_iff_eq.1 h2
    refine ⟨before, tr0, after, h1, h2, fun x hx hxk => ?_, h0 _ (by rw [h1]; simp), h2, rfl, rfl, rfl⟩
    rw [h1, List.map_append, List.map_cons, List.nodup_append, List.nodup_cons] at hk
    exact hk.2.1.1 (by rw [h2, ← hxk]; exact List.mem_map_of_mem hx)

/-- **C67** Where trustees share a key they may not: elections do not check this. -/
theorem C67_library_and_node_agree_false :
    ∃ (E : Env) (S : Store) (t : Signed ElectionTx) (key : PublicKey) (a b : Trustee), (SignedTx.election t).validate E S = .ok () ∧
      (Trustee.fromElectionTx t.tx key : Res Empty Trustee) = .ok a ∧ trusteeFromElection t.tx key = some b ∧ a.index ≠ b.index := by
  refine ⟨Toy.env, MemStore.empty.toStore, ⟨{ Toy.election with trustees := [Toy.trustee 1 11, Toy.trustee 2 11] }, Toy.sig 1⟩, Toy.key 11,
    ⟨Toy.key 11, 2, 2, _⟩, ⟨Toy.key 11, 1, 2, _⟩, ?_, rfl, rfl, by decide⟩
  decide +kernel

/-- **C67** A new trustee carries the public half of the returned key and the given numbers; index 0 crashes. -/
theorem C67_new_trustee (ε : Type) (N : NodeEnv) (sk : SecretKey) (index : UInt8) (n : Nat) (threshold : UInt8) :
    (∀ tr, (Trustee.new N sk index n threshold : Res ε Trustee) = .ok tr ↔
      index ≠ 0 ∧ tr.publicKey = N.edPublic sk ∧ tr.index = index ∧ tr.numTrustees = n ∧ tr.threshold = threshold) ∧
    ((Trustee.new N sk index n threshold : Res ε Trustee) = .panic .expectFailed ↔ index = 0) := by
  by_cases h : index = 0
  · subst h
    have : (Trustee.new N sk 0 n threshold : Res ε Trustee) = .panic .expectFailed := rfl
    rw [this]
    exact ⟨fun tr => ⟨fun h => (by cases h), fun h => absurd rfl h.1⟩, fun _ => rfl, fun _ => rfl⟩
  · have : (Trustee.new N sk index n threshold : Res ε Trustee) = .ok ⟨N.edPublic sk, index, n, threshold⟩ := if_neg h
    rw [this]
    refine ⟨fun tr => ⟨fun h' => ?_, ?_⟩, fun h' => (by cases h'), fun h' => absurd h' h⟩
    · cases h'; exact ⟨h, rfl, rfl, rfl, rfl⟩
    · obtain ⟨a, b, c, d⟩ := tr
      rintro ⟨-, rfl, rfl, rfl, rfl⟩
      rfl

example : ∃ tr, (Trustee.fromElectionTx Toy.election (Toy.key 12) : Res Empty Trustee) = .ok tr ∧ tr.index = 2 ∧ tr.numTrustees = 2 := ⟨_, rfl, rfl, rfl⟩

example : (Toy.election.trustees.map (·.publicKey)).Nodup ∧ ∀ tr ∈ Toy.election.trustees, tr.index ≠ 0 := by decide +kernel

end CB
