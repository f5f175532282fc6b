import Verif.Spec.Retry
import Verif.Props.Order
import Verif.Lemmas.Rest
/-!
# C113: sending again until it is accepted
-/

namespace CB
open Spec

namespace Exonum

theorem labelled_all {l : List Envelope} {ts : List SignedTx} (hl : ∀ x ∈ l, Labelled x) (hr : ∀ t ∈ ts, RustData t) :
    ∀ x ∈ l ++ ts.map Envelope.ofTx, Labelled x := by
  intro x hx
  rcases List.mem_append.1 hx with h | h
  · exact hl x h
  · obtain ⟨t, ht, rfl⟩ := List.mem_map.1 h
    exact (C37_envelope_roundtrip t (hr t ht)).2.2.1

/-- what is stored after some submissions was stored before or is one of them -/
theorem stored_from (E : Env) {l : List Envelope} (hl : ∀ x ∈ l, Labelled x) (ts : List SignedTx) (hr : ∀ t ∈ ts, RustData t ∧ forget t = t) (id : Identifier)
    (u : SignedTx) (h : getTransaction (deliverAll E OMap.empty (l ++ ts.map Envelope.ofTx)) id = some u) :
    getTransaction (deliverAll E OMap.empty l) id = some u ∨ (u ∈ ts ∧ u.id = id) := by
  induction ts using List.reverseRecOn generalizing u with
  | nil => exact .inl (by simpa using h)
  | append_singleton ts x ih =>
    have hr' : ∀ t ∈ ts, RustData t ∧ forget t = t := fun t ht => hr t (by simp [ht])
    rw [List.map_append, List.map_singleton, ← List.append_assoc, deliverAll_snoc,
      deliver_iff (hr x (by simp)).1 (hr x (by simp)).2 (wf_deliverAll (labelled_all hl fun t ht => (hr' t ht).1))] at h
    rcases h with h | ⟨_, rfl, h, _⟩
    · rcases ih hr' u h with h | h
      · exact .inl h
      · exact .inr ⟨by simp [h.1], h.2⟩
    · exact .inr ⟨by simp, h⟩

/-- in the order in which all are accepted, each is stored -/
theorem inOrder_stored {E : Env} {l : List Envelope} {goal : List SignedTx} (hl : ∀ x ∈ l, Labelled x) (hr : ∀ t ∈ goal, RustData t ∧ forget t = t)
    (hgoal : AcceptedInOrder E l goal) {before : List SignedTx} {t : SignedTx} {after : List SignedTx} (h : goal = before ++ t :: after) :
    getTransaction (deliverAll E OMap.empty (l ++ before.map Envelope.ofTx)) t.id = none ∧
      t.validate E (toStore (deliverAll E OMap.empty (l ++ before.map Envelope.ofTx))) = .ok () := by
  obtain ⟨s, hs⟩ := hgoal before t after h
  have ht := hr t (by simp [h])
  obtain ⟨hn, t', hd, hv, _⟩ := verifyAndStore_ok.1 hs
  have := (C37_envelope_roundtrip t ht.1).1
  rw [ht.2] at this
  rw [show SignedTx.fromBytes (Envelope.ofTx t).data = .ok t from this] at hd
  cases hd
  refine ⟨?_, hv⟩
  have hn : (deliverAll E OMap.empty (l ++ before.map Envelope.ofTx)).get t.id.toString = none := hn
  unfold getTransaction
  rw [hn]

theorem ordered_stored {E : Env} {l : List Envelope} {goal : List SignedTx} (hl : ∀ x ∈ l, Labelled x) (hr : ∀ t ∈ goal, RustData t ∧ forget t = t)
    (hgoal : AcceptedInOrder E l goal) {before : List SignedTx} {t : SignedTx} {after : List SignedTx} (h : goal = before ++ t :: after) :
    getTransaction (deliverAll E OMap.empty (l ++ (before ++ [t]).map Envelope.ofTx)) t.id = some t := by
  obtain ⟨hn, hv⟩ := inOrder_stored hl hr hgoal h
  have ht := hr t (by simp [h])
  rw [List.map_append, List.map_singleton, ← List.append_assoc, deliverAll_snoc,
    deliver_iff ht.1 ht.2 (wf_deliverAll (labelled_all hl fun u hu => (hr u (by simp [h, hu])).1))]
  exact .inr ⟨hn, rfl, rfl, hv⟩

/-- **C113** Whoever sends transactions that fit together gets all of them stored, in whatever order and between whatever else they are sent, as long as they are sent often enough
that the right order is among the attempts: refused attempts do no harm, and neither does what others send, unless it gets in the way. -/
theorem C113_persistence_pays (E : Env) (l : List Envelope) (hl : ∀ x ∈ l, Labelled x) (goal sent : List SignedTx) (hr : ∀ t ∈ sent, RustData t ∧ forget t = t)
    (hgoal : AcceptedInOrder E l goal) (hsub : goal.Sublist sent) (hno : NothingInTheWay goal sent) :
    ∀ t ∈ goal, getTransaction (deliverAll E OMap.empty (l ++ sent.map Envelope.ofTx)) t.id = some t := by
  have hrg : ∀ t ∈ goal, RustData t ∧ forget t = t := fun t ht => hr t (hsub.subset ht)
  suffices h : ∀ p : List SignedTx, (∀ u ∈ p, u ∈ sent) → ∀ g rest, goal = g ++ rest → g.Sublist p →
      ∀ t ∈ g, getTransaction (deliverAll E OMap.empty (l ++ p.map Envelope.ofTx)) t.id = some t from
    h sent (fun _ h => h) goal [] (by simp) hsub
  intro p
  induction p using List.reverseRecOn with
  | nil =>
    intro _ g rest _ hs t ht
    rw [List.sublist_nil.1 hs] at ht
    cases ht
  | append_singleton p x ih =>
    intro hp g rest hg hs t ht
    have ih := ih fun u hu => hp u (by simp [hu])
    have hrp : ∀ t ∈ p, RustData t ∧ forget t = t := fun t ht => hr t (hp t (by simp [ht]))
    have hx := hr x (hp x (by simp))
    have hwp : WF (deliverAll E OMap.empty (l ++ p.map Envelope.ofTx)) := wf_deliverAll (labelled_all hl fun t ht => (hrp t ht).1)
    rw [List.map_append, List.map_singleton, ← List.append_assoc, deliverAll_snoc, deliver_iff hx.1 hx.2 hwp]
    obtain ⟨g0, g1, rfl, hs0, hs1⟩ := List.sublist_append_iff.1 hs
    rcases List.sublist_singleton.1 hs1 with rfl | rfl
    · exact .inl (ih g0 rest (by simpa using hg) hs0 t (by simpa using ht))
    · have ih := ih g0 ([x] ++ rest) (by simp [hg]) hs0
      rcases List.mem_append.1 ht with ht | ht
      · exact .inl (ih t ht)
      · rw [List.mem_singleton.1 ht]
        have hg : goal = g0 ++ x :: rest := by simp [hg]
        have hr0 : ∀ t ∈ g0, RustData t ∧ forget t = t := fun t ht => hrg t (by simp [hg, ht])
        have hw0 : WF (deliverAll E OMap.empty (l ++ g0.map Envelope.ofTx)) := wf_deliverAll (labelled_all hl fun t ht => (hr0 t ht).1)
        obtain ⟨hfree, hval⟩ := inOrder_stored hl hrg hgoal hg
        have hkeep : Keeps (toStore (deliverAll E OMap.empty (l ++ g0.map Envelope.ofTx))) (toStore (deliverAll E OMap.empty (l ++ p.map Envelope.ofTx))) := by
          intro id u hu
          rcases stored_from E hl g0 hr0 id u hu with h | ⟨h, rfl⟩
          · rw [deliverAll_append]
            exact getTransaction_keeps h
          · exact ih u h
        have hnew : ∀ u, InStore (toStore (deliverAll E OMap.empty (l ++ p.map Envelope.ofTx))) u →
            (toStore (deliverAll E OMap.empty (l ++ g0.map Envelope.ofTx))).getTransaction u.id = none → u ≠ x → u.id ≠ x.id ∧ ¬ Conflicts x u := by
          intro u hu hn hux
          rcases stored_from E hl p hrp u.id u hu with h | ⟨h, _⟩
          · have : getTransaction (deliverAll E OMap.empty (l ++ g0.map Envelope.ofTx)) u.id = some u := by
              rw [deliverAll_append]
              exact getTransaction_keeps h
            rw [show getTransaction _ u.id = none from hn] at this
            cases this
          · refine hno g0 x rest hg u (hp u (by simp [h])) (fun hm => ?_) hux
            obtain ⟨a, b, rfl⟩ := List.append_of_mem hm
            have := ordered_stored hl hrg hgoal (before := a) (t := u) (after := b ++ x :: rest) (by simp [hg])
            have : getTransaction (deliverAll E OMap.empty (l ++ (a ++ u :: b).map Envelope.ofTx)) u.id = some u := by
              rw [show l ++ (a ++ u :: b).map Envelope.ofTx = (l ++ (a ++ [u]).map Envelope.ofTx) ++ b.map Envelope.ofTx by simp, deliverAll_append]
              exact getTransaction_keeps this
            rw [show getTransaction _ u.id = none from hn] at this
            cases this
        cases hst : getTransaction (deliverAll E OMap.empty (l ++ p.map Envelope.ofTx)) x.id with
        | some u =>
          by_cases hux : u = x
          · exact .inl (by rw [hux])
          · have hid : u.id = x.id := (lawful hwp).keyed _ _ hst
            exact absurd hid (hnew u (by rw [InStore, hid]; exact hst) (by rw [hid]; exact hfree) hux).1
        | none =>
          refine .inr ⟨rfl, rfl, rfl, C75_acceptance_is_stable E _ _ (lawful hw0) (lawful hwp) hkeep x hval fun u hu hn => ?_⟩
          refine (hnew u hu hn ?_).2
          rintro rfl
          rw [show getTransaction _ u.id = some u from hu] at hst
          cases hst

theorem sublist_rounds (g : List SignedTx) (rs : List (List SignedTx)) (h : ∀ r ∈ rs, ∀ t ∈ g, t ∈ r) (hn : g.length ≤ rs.length) : g.Sublist rs.flatten := by
  induction g generalizing rs with
  | nil => exact List.nil_sublist _
  | cons t g ih =>
    cases rs with
    | nil => simp at hn
    | cons r rs =>
      rw [List.flatten_cons]
      exact (List.singleton_sublist.2 (h r (by simp) t (by simp))).append (ih rs (fun r hr u hu => h r (by simp [hr]) u (by simp [hu])) (by simpa using hn))

/-- In particular: sending all of them as many times over as there are transactions, in any order whatsoever and in another one each time, is always enough. -/
theorem C113_rounds_suffice (E : Env) (l : List Envelope) (hl : ∀ x ∈ l, Labelled x) (goal : List SignedTx) (rounds : List (List SignedTx)) (hrs : Rounds goal rounds)
    (hn : goal.length ≤ rounds.length) (hr : ∀ t ∈ goal, RustData t ∧ forget t = t) (hgoal : AcceptedInOrder E l goal) (hno : goal.Pairwise fun t u => ¬ Conflicts t u) :
    ∀ t ∈ goal, getTransaction (deliverAll E OMap.empty (l ++ rounds.flatten.map Envelope.ofTx)) t.id = some t := by
  have hmem : ∀ u ∈ rounds.flatten, u ∈ goal := by
    intro u hu
    obtain ⟨o, ho, hu⟩ := List.mem_flatten.1 hu
    exact (hrs o ho u).1 hu
  refine C113_persistence_pays E l hl goal _ (fun t ht => hr t (hmem t ht)) hgoal (sublist_rounds _ _ (fun r h t ht => (hrs r h t).2 ht) hn) ?_
  intro before t after hg u hu hb hut
  have hu := hmem u hu
  rw [hg, List.mem_append, List.mem_cons] at hu
  have ha : u ∈ after := by
    rcases hu with h | h | h
    · exact absurd h hb
    · exact absurd h hut
    · exact h
  constructor
  · intro hid
    obtain ⟨a, b, rfl⟩ := List.append_of_mem ha
    have h1 := ordered_stored hl hr hgoal hg
    have h2 := (inOrder_stored hl hr hgoal (before := before ++ t :: a) (t := u) (after := b) (by simp [hg])).1
    rw [show l ++ (before ++ t :: a).map Envelope.ofTx = (l ++ (before ++ [t]).map Envelope.ofTx) ++ a.map Envelope.ofTx by simp, deliverAll_append, hid,
      getTransaction_keeps h1] at h2
    cases h2
  · rw [hg] at hno
    exact (List.pairwise_cons.1 (List.pairwise_append.1 hno).2.1).1 u ha

/-! ### The sample election -/

/-- whether the call succeeds -/
def succeeds {ε α : Type} : Res ε α → Bool
  | .ok _ => true
  | _ => false

theorem inOrder_of_check {E : Env} {l : List Envelope} {goal : List SignedTx}
    (h : (List.range goal.length).all (fun i => (goal[i]?.map fun t =>
      succeeds (verifyAndStore E (deliverAll E OMap.empty (l ++ (goal.take i).map Envelope.ofTx)) (Envelope.ofTx t))).getD false) = true) : AcceptedInOrder E l goal := by
  rintro before t after rfl
  have := List.all_eq_true.1 h before.length (by simp)
  simp only [List.getElem?_append_right (Nat.le_refl _), Nat.sub_self, List.getElem?_cons_zero, Option.map_some, Option.getD_some, List.take_left] at this
  revert this
  cases verifyAndStore E (deliverAll E OMap.empty (l ++ before.map Envelope.ofTx)) (Envelope.ofTx t) with
  | ok s => exact fun _ => ⟨s, rfl⟩
  | _ => intro h; cases h

theorem toySetup_inOrder : AcceptedInOrder Toy.env [] Toy.setup := inOrder_of_check (by decide +kernel)

theorem toySetup_forget : ∀ t ∈ Toy.setup, forget t = t := by
  simp only [Toy.setup, List.mem_cons, List.not_mem_nil, or_false, forall_eq_or_imp, forall_eq]
  refine ⟨rfl, rfl, rfl, rfl, rfl, rfl, rfl, rfl⟩

/-- the set-up of the sample election, always sent in the wrong order -/
example : ∀ t ∈ Toy.setup, getTransaction (deliverAll Toy.env OMap.empty ((List.replicate 8 Toy.setup.reverse).flatten.map Envelope.ofTx)) t.id = some t :=
  C113_rounds_suffice Toy.env [] (by simp) Toy.setup (List.replicate 8 Toy.setup.reverse) (fun r hr t => by rw [List.eq_of_mem_replicate hr, List.mem_reverse]) (by decide)
    (fun t ht => ⟨toy_rustData t (by simp [Toy.complete, ht]), toySetup_forget t ht⟩) toySetup_inOrder
    (by simp [Toy.setup, Conflicts, Toy.electionTx, Toy.commitTx, Toy.shareTx, Toy.pkTx, Toy.encTx])

/-- a vote and the end of voting, after the set-up -/
def toyVoteEnd : List SignedTx := [Toy.voteTx 31 "a", Toy.endTx]

/-- The last condition cannot be left out: a vote that is sent again and again is never stored once somebody has ended the voting before it. -/
theorem C113_late_votes_are_lost : ¬ ∀ (E : Env) (l : List Envelope) (goal sent : List SignedTx), (∀ x ∈ l, Labelled x) → (∀ t ∈ sent, RustData t ∧ forget t = t) →
    AcceptedInOrder E l goal → goal.Sublist sent →
    ∀ t ∈ goal, getTransaction (deliverAll E OMap.empty (l ++ sent.map Envelope.ofTx)) t.id = some t := by
  intro h
  have := h Toy.env (Toy.setup.map Envelope.ofTx) toyVoteEnd [Toy.endTx, Toy.voteTx 31 "a", Toy.endTx] (fun x hx => by
      obtain ⟨t, ht, rfl⟩ := List.mem_map.1 hx
      exact (C37_envelope_roundtrip t (toy_rustData t (by simp [Toy.complete, ht]))).2.2.1)
    (by
      simp only [List.mem_cons, List.not_mem_nil, or_false, forall_eq_or_imp, forall_eq]
      refine ⟨⟨toy_rustData _ (by simp [Toy.complete]), rfl⟩, ⟨toy_rustData _ (by simp [Toy.complete]), rfl⟩, ⟨toy_rustData _ (by simp [Toy.complete]), rfl⟩⟩)
    (inOrder_of_check (by decide +kernel)) (List.sublist_cons_self _ _) (Toy.voteTx 31 "a") (by simp [toyVoteEnd])
  have hs := congrArg Option.isSome this
  revert hs
  decide +kernel

end Exonum
end CB
