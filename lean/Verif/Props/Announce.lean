import Verif.Spec.Announce
import Verif.Props.Sawtooth
import Mathlib.Data.List.Induction
/-!
# C115: announcements on the Sawtooth ledger
-/

namespace CB
open Spec

namespace Sawtooth

theorem applyAll_last (E : Env) (pre : Str) (s : State) (l : List Bytes) (p : Bytes) :
    applyAll E pre s (l ++ [p]) = match apply E pre (applyAll E pre s l) p with | .ok s' => s' | _ => applyAll E pre s l := by
  unfold applyAll
  rw [List.foldl_append]
  rfl

theorem election_anywhere (E : Env) (S S' : Store) (a : Signed ElectionTx) : (SignedTx.election a).validate E S = (SignedTx.election a).validate E S' := by
  rw [SignedTx.validate_eq, SignedTx.validate_eq]
  rfl

/-- **C115** Under the id of an election the Sawtooth ledger holds, after every history, the last acceptable announcement with this id, whoever made it and whatever has
happened in between. -/
theorem C115_last_announcement_counts (E : Env) (pre : Str) (l : List Bytes) (id : Identifier) (hid : id.txType = .election) :
    getTransaction pre (applyAll E pre OMap.empty l) id = (l.filterMap (announces E id)).getLast? := by
  induction l using List.reverseRecOn with
  | nil => rfl
  | append_singleton l p ih =>
    rw [applyAll_last, List.filterMap_append]
    have hget : ∀ (s : State) (t : SignedTx), SignedTx.fromBytes p = .ok t →
        getTransaction pre (s.insert (address pre t.id) t.asBytes) id = if id = t.id then some (forget t) else getTransaction pre s id := by
      intro s t ht
      unfold getTransaction
      rw [OMap.get_insert]
      by_cases h : id = t.id
      · subst h
        rw [if_pos rfl, if_pos rfl]
        simp only [C47_serialization_roundtrip t (rustData_of_fromBytes ht)]
      · rw [if_neg fun he => h (address_injective he), if_neg h]
    have skip : announces E id p = none → (l.filterMap (announces E id) ++ [p].filterMap (announces E id)).getLast? = (l.filterMap (announces E id)).getLast? := by
      intro h
      simp [h]
    have take : ∀ t, announces E id p = some t → (l.filterMap (announces E id) ++ [p].filterMap (announces E id)).getLast? = some t := by
      intro t h
      simp [h]
    cases hap : apply E pre (applyAll E pre OMap.empty l) p with
    | ok s' =>
      obtain ⟨t, ht, _, hv, rfl⟩ := apply_ok.1 hap
      simp only
      rw [hget _ t ht]
      have hty := (SignedTx.validate_ok.1 hv).1
      by_cases h : id = t.id
      · rw [if_pos h]
        cases t with
        | election a =>
          refine (take _ ?_).symm
          unfold announces
          rw [ht]
          simp only
          rw [if_pos ⟨h.symm, (election_anywhere E _ _ a).trans hv⟩]
        | _ => rw [← h, hid] at hty; cases hty
      · rw [if_neg h, ih]
        refine (skip ?_).symm
        unfold announces
        rw [ht]
        cases t with
        | election a => exact if_neg fun hc => h hc.1.symm
        | _ => rfl
    | err e =>
      simp only
      rw [ih]
      refine (skip ?_).symm
      unfold announces
      split
      · rename_i a ha
        refine if_neg fun hc => ?_
        have := apply_ok.2 ⟨_, ha, .inl rfl, (election_anywhere E (toStore pre (applyAll E pre OMap.empty l)) _ a).trans hc.2, rfl⟩
        rw [hap] at this
        cases this
      · rfl
    | panic e =>
      simp only
      rw [ih]
      refine (skip ?_).symm
      unfold announces
      split
      · rename_i a ha
        refine if_neg fun hc => ?_
        have := apply_ok.2 ⟨_, ha, .inl rfl, (election_anywhere E (toStore pre (applyAll E pre OMap.empty l)) _ a).trans hc.2, rfl⟩
        rw [hap] at this
        cases this
      · rfl

/-- So an acceptable announcement takes effect whenever it is sent: one that has been replaced can be put back at any time by anybody who kept a copy, without any key. -/
theorem C115_old_announcements_come_back (E : Env) (pre : Str) (l : List Bytes) (p : Bytes) (id : Identifier) (t : SignedTx) (h : announces E id p = some t)
    (hid : id.txType = .election) : getTransaction pre (applyAll E pre OMap.empty (l ++ [p])) id = some t := by
  rw [C115_last_announcement_counts E pre _ id hid, List.filterMap_append]
  simp [h]

/-- **C115** The state can be rebuilt from what was applied, in the same order. -/
theorem C115_rebuilt_is_same (E : Env) (pre : Str) (s : State) (l : List Bytes) : applyAll E pre s (applied E pre s l) = applyAll E pre s l := by
  induction l generalizing s with
  | nil => rfl
  | cons p ps ih =>
    have hc : ∀ ps, applyAll E pre s (p :: ps) = applyAll E pre (match apply E pre s p with | .ok s' => s' | _ => s) ps := fun _ => rfl
    rw [hc]
    cases h : apply E pre s p with
    | ok s' =>
      rw [show applied E pre s (p :: ps) = p :: applied E pre s' ps by rw [applied, h], hc, h]
      exact ih s'
    | err e =>
      rw [show applied E pre s (p :: ps) = applied E pre s ps by rw [applied, h]]
      exact ih s
    | panic e =>
      rw [show applied E pre s (p :: ps) = applied E pre s ps by rw [applied, h]]
      exact ih s

/-- Unlike on Exonum the order matters: the same announcements, applied in another order, leave another state. -/
theorem C115_order_is_irrelevant_false : ¬ ∀ (E : Env) (pre : Str) (l l' : List Bytes), (∀ p, p ∈ applied E pre OMap.empty l ↔ p ∈ applied E pre OMap.empty l') →
    applyAll E pre OMap.empty l = applyAll E pre OMap.empty l' := by
  intro h
  have ha : applied Toy.env (str "abc123") OMap.empty [Toy.electionTx.asBytes, stolen.asBytes] = [Toy.electionTx.asBytes, stolen.asBytes] := by decide +kernel
  have hb : applied Toy.env (str "abc123") OMap.empty [stolen.asBytes, Toy.electionTx.asBytes] = [stolen.asBytes, Toy.electionTx.asBytes] := by decide +kernel
  have := h Toy.env (str "abc123") [Toy.electionTx.asBytes, stolen.asBytes] [stolen.asBytes, Toy.electionTx.asBytes] fun p => by
    rw [ha, hb]
    simp [or_comm]
  have := congrArg (fun s => (getTransaction (str "abc123") s Toy.eid).bind SignedTx.pub) this
  revert this
  decide +kernel

/-- the sample election, replaced and put back by whoever kept the announcement -/
example : (announces Toy.env Toy.eid Toy.electionTx.asBytes).isSome = true ∧ (announces Toy.env Toy.eid stolen.asBytes).isSome = true ∧
    ((getTransaction (str "abc123") (applyAll Toy.env (str "abc123") OMap.empty [Toy.electionTx.asBytes, stolen.asBytes]) Toy.eid).bind SignedTx.pub) = some (Toy.key 99) ∧
    ((getTransaction (str "abc123") (applyAll Toy.env (str "abc123") OMap.empty [Toy.electionTx.asBytes, stolen.asBytes, Toy.electionTx.asBytes]) Toy.eid).bind SignedTx.pub) =
      some (Toy.key 1) := by decide +kernel

end Sawtooth
end CB
