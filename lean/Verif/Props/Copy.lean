import Verif.Spec.Copy
import Verif.Props.Retry
import Verif.Props.Api
import Verif.Props.E2e
import Verif.Props.Isolation
import Verif.Lemmas.Network
import Verif.Lemmas.SerdeFits
/-!
# C114: elections can be carried from one ledger to another
-/

namespace CB
open Spec

namespace Exonum

/-- **C114** A ledger can be rebuilt from what it accepted: submitted again, in the same order, to an empty ledger (or to any state the ledger was in before), it gives the very same
ledger, entry by entry, whatever else had been submitted and refused. -/
theorem C114_rebuilt_is_same (E : Env) (s : Schema) (l : List Envelope) : deliverAll E s (kept E s l) = deliverAll E s l ∧ kept E s (kept E s l) = kept E s l := by
  induction l generalizing s with
  | nil => exact ⟨rfl, rfl⟩
  | cons x xs ih =>
    rw [show deliverAll E s (x :: xs) = deliverAll E (deliver E s x) xs from rfl]
    cases h : verifyAndStore E s x with
    | ok s' =>
      have hx : deliver E s x = s' := by rw [deliver, h]
      have hk : ∀ ys, kept E s (x :: ys) = x :: kept E s' ys := fun ys => by rw [kept, h]
      rw [hk, hk, show deliverAll E s (x :: kept E s' xs) = deliverAll E (deliver E s x) (kept E s' xs) from rfl, hx]
      exact ⟨(ih s').1, congrArg _ (ih s').2⟩
    | err e =>
      rw [show deliver E s x = s by rw [deliver, h], show kept E s (x :: xs) = kept E s xs by rw [kept, h]]
      exact ih s
    | panic p =>
      rw [show deliver E s x = s by rw [deliver, h], show kept E s (x :: xs) = kept E s xs by rw [kept, h]]
      exact ih s

/-- Submitting again what is stored, in any order and as often as one likes, changes nothing. -/
theorem C114_again_changes_nothing (E : Env) (s : Schema) (again : List Envelope) (h : ∀ x ∈ again, (s.get x.id).isSome) : deliverAll E s again = s := by
  induction again with
  | nil => rfl
  | cons x xs ih =>
    have hx : deliver E s x = s := by
      unfold deliver verifyAndStore
      rw [if_pos (h x (by simp))]
    rw [show deliverAll E s (x :: xs) = deliverAll E (deliver E s x) xs from rfl, hx]
    exact ih fun y hy => h y (by simp [hy])

theorem get_kept (E : Env) (s : Schema) (l : List Envelope) (k : Str) (x : Envelope) :
    (deliverAll E s l).get k = some x ↔ s.get k = some x ∨ (x ∈ kept E s l ∧ x.id = k) := by
  induction l generalizing s with
  | nil => simp [kept, deliverAll]
  | cons y ys ih =>
    rw [show deliverAll E s (y :: ys) = deliverAll E (deliver E s y) ys from rfl]
    cases h : verifyAndStore E s y with
    | ok s' =>
      rw [show deliver E s y = s' by rw [deliver, h], show kept E s (y :: ys) = y :: kept E s' ys by rw [kept, h], ih s']
      obtain ⟨hn, _, _, _, rfl⟩ := verifyAndStore_ok.1 h
      rw [OMap.get_insert, List.mem_cons]
      by_cases hk : k = y.id
      · subst hk
        rw [if_pos rfl, hn]
        constructor
        · rintro (h | h)
          · cases h
            exact .inr ⟨.inl rfl, rfl⟩
          · exact .inr ⟨.inr h.1, h.2⟩
        · rintro (h | ⟨rfl | h, hk⟩)
          · cases h
          · exact .inl rfl
          · exact .inr ⟨h, hk⟩
      · rw [if_neg hk]
        constructor
        · rintro (h | h)
          · exact .inl h
          · exact .inr ⟨.inr h.1, h.2⟩
        · rintro (h | ⟨rfl | h, hk'⟩)
          · exact .inl h
          · exact absurd hk'.symm hk
          · exact .inr ⟨h, hk'⟩
    | err e =>
      rw [show deliver E s y = s by rw [deliver, h], show kept E s (y :: ys) = kept E s ys by rw [kept, h]]
      exact ih s
    | panic p =>
      rw [show deliver E s y = s by rw [deliver, h], show kept E s (y :: ys) = kept E s ys by rw [kept, h]]
      exact ih s

/-- The state of a ledger is what it accepted and nothing else: two ledgers that accepted the same submissions, in whatever order and between whatever refused ones, are equal
(and so are the hashes of their states). -/
theorem C114_state_is_what_was_accepted (E E' : Env) (l l' : List Envelope) :
    (∀ x, x ∈ kept E OMap.empty l ↔ x ∈ kept E' OMap.empty l') ↔ deliverAll E OMap.empty l = deliverAll E' OMap.empty l' := by
  have he : ∀ (E : Env) (l : List Envelope) k x, (deliverAll E OMap.empty l).get k = some x ↔ x ∈ kept E OMap.empty l ∧ x.id = k := by
    intro E l k x
    rw [get_kept, OMap.get_empty]
    simp
  constructor
  · intro h
    refine OMap.ext fun k => Option.ext fun x => ?_
    rw [he, he, h]
  · intro h x
    have h1 := he E l x.id x
    rw [h, he E' l' x.id x] at h1
    simpa using h1.symm

theorem mem_of_ofList {l : List SignedTx} {id : Identifier} {u : SignedTx} (h : (MemStore.ofList l).getTransaction id = some u) : u ∈ l ∧ u.id = id := by
  induction l using List.reverseRecOn with
  | nil => cases h
  | append_singleton l t ih =>
    rw [Server.Network.ofList_append, MemStore.get_set] at h
    split at h
    · cases h
      rename_i hid
      exact ⟨by simp, hid.symm⟩
    · exact ⟨by simp [(ih h).1], (ih h).2⟩

/-- What passes end-to-end verification can be posted, in the order in which it was listed, to any other ledger that holds nothing that takes its place or gets in its way:
each transaction is accepted, and afterwards the ledger holds exactly what it held before and what was posted. -/
theorem C114_verified_can_be_posted (E : Env) (txs : List SignedTx) (m : MemStore) (hv : E2e.verify E txs = .ok m) (hnd : (txs.map SignedTx.id).Nodup)
    (hr : ∀ t ∈ txs, RustData t ∧ forget t = t) (l : List Envelope) (hl : ∀ x ∈ l, Labelled x)
    (hno : ∀ u, getTransaction (deliverAll E OMap.empty l) u.id = some u → ∀ t ∈ txs, u.id ≠ t.id ∧ ¬ Conflicts t u) :
    AcceptedInOrder E l txs ∧
    ∀ id u, getTransaction (deliverAll E OMap.empty (l ++ txs.map Envelope.ofTx)) id = some u ↔ getTransaction (deliverAll E OMap.empty l) id = some u ∨ (u ∈ txs ∧ u.id = id) := by
  obtain ⟨_, _, hval⟩ := (E2e.C40_e2e_replays E txs m).1 hv
  have hw := wf_deliverAll (E := E) hl
  -- what is stored after a part of the list
  have key : ∀ before after, txs = before ++ after →
      (∀ id u, getTransaction (deliverAll E OMap.empty (l ++ before.map Envelope.ofTx)) id = some u ↔
        getTransaction (deliverAll E OMap.empty l) id = some u ∨ (u ∈ before ∧ u.id = id)) → ∀ t rest, after = t :: rest →
      getTransaction (deliverAll E OMap.empty (l ++ before.map Envelope.ofTx)) t.id = none ∧
        t.validate E (toStore (deliverAll E OMap.empty (l ++ before.map Envelope.ofTx))) = .ok () := by
    intro before after htx hst t rest hrest
    subst hrest
    have hwb : WF (deliverAll E OMap.empty (l ++ before.map Envelope.ofTx)) := wf_deliverAll (labelled_all hl fun u hu => (hr u (by simp [htx, hu])).1)
    have hnd' : (before.map SignedTx.id).Nodup := by
      rw [htx, List.map_append] at hnd
      exact (List.nodup_append.1 hnd).1
    have hnt : ∀ u ∈ before, u.id ≠ t.id := by
      intro u hu he
      rw [htx, List.map_append] at hnd
      exact (List.nodup_append.1 hnd).2.2 u.id (List.mem_map_of_mem hu) t.id (by simp) he
    refine ⟨?_, ?_⟩
    · cases hg : getTransaction (deliverAll E OMap.empty (l ++ before.map Envelope.ofTx)) t.id with
      | none => rfl
      | some u =>
        rcases (hst _ _).1 hg with h | ⟨h, hid⟩
        · have hid : u.id = t.id := (lawful hw).keyed _ _ h
          exact absurd hid (hno u (by rw [hid]; exact h) t (by simp [htx])).1
        · exact absurd hid (hnt u h)
    · refine C75_acceptance_is_stable E (MemStore.ofList before).toStore _ (MemStore.lawful (MemStore.wf_ofList _)) (lawful hwb) ?_ t (hval before t rest htx) ?_
      · intro id u hu
        exact (hst id u).2 (.inr (mem_of_ofList hu))
      · intro u hu hn
        rcases (hst _ _).1 hu with h | ⟨h, _⟩
        · exact (hno u h t (by simp [htx])).2
        · have := (Server.Network.stored_iff_mem hnd' u).2 h
          rw [show (MemStore.ofList before).getTransaction u.id = none from hn] at this
          cases this
  have all : ∀ before after, txs = before ++ after → ∀ id u, getTransaction (deliverAll E OMap.empty (l ++ before.map Envelope.ofTx)) id = some u ↔
        getTransaction (deliverAll E OMap.empty l) id = some u ∨ (u ∈ before ∧ u.id = id) := by
    intro before
    induction before using List.reverseRecOn with
    | nil => intro after _ id u; simp
    | append_singleton before t ih =>
      intro after htx id u
      have htx' : txs = before ++ t :: after := by simp [htx]
      have ih := ih (t :: after) htx'
      have hk := key before (t :: after) htx' ih t after rfl
      have ht := hr t (by simp [htx'])
      rw [List.map_append, List.map_singleton, ← List.append_assoc, deliverAll_snoc,
        deliver_iff ht.1 ht.2 (wf_deliverAll (labelled_all hl fun u hu => (hr u (by simp [htx', hu])).1)), ih id u]
      constructor
      · rintro ((h | h) | ⟨_, rfl, h, _⟩)
        · exact .inl h
        · exact .inr ⟨by simp [h.1], h.2⟩
        · exact .inr ⟨by simp, h⟩
      · rintro (h | ⟨h, rfl⟩)
        · exact .inl (.inl h)
        · rcases List.mem_append.1 h with h | h
          · exact .inl (.inr ⟨h, rfl⟩)
          · rw [List.mem_singleton.1 h]
            exact .inr ⟨hk.1, rfl, rfl, hk.2⟩
  refine ⟨?_, all txs [] (by simp)⟩
  intro before t after htx
  obtain ⟨hn, hv⟩ := key before (t :: after) htx (all before (t :: after) htx) t after rfl
  have ht := hr t (by simp [htx])
  have hd := (C37_envelope_roundtrip t ht.1).1
  rw [ht.2] at hd
  have hwb : WF (deliverAll E OMap.empty (l ++ before.map Envelope.ofTx)) := wf_deliverAll (labelled_all hl fun u hu => (hr u (by simp [htx, hu])).1)
  refine ⟨_, verifyAndStore_ok.2 ⟨?_, t, hd, hv, rfl⟩⟩
  show (deliverAll E OMap.empty (l ++ before.map Envelope.ofTx)).get t.id.toString = none
  cases hg : (deliverAll E OMap.empty (l ++ before.map Envelope.ofTx)).get t.id.toString with
  | none => rfl
  | some e =>
    obtain ⟨x, hx, _⟩ := hwb _ _ hg
    rw [getTransaction, hg] at hn
    simp [decoded_eq_some.2 hx] at hn

/-- From node to node: when what a node lists for an election passes verification, posting that listing to another node's ledger makes that node list exactly the same, so
whoever verifies the election there sees the same report. -/
theorem C114_listing_is_carried_over (E : Env) (source target : List Envelope) (hs : ∀ x ∈ source, Labelled x) (ht : ∀ x ∈ target, Labelled x) (p : Str)
    (txs : List SignedTx) (hlist : Api.getAll (deliverAll E OMap.empty source) (some p) = .ok txs) (m : MemStore) (hv : E2e.verify E txs = .ok m)
    (hf : ∀ t ∈ txs, forget t = t)
    (hno : ∀ u, getTransaction (deliverAll E OMap.empty target) u.id = some u → ¬ p <+: u.id.toString ∧ ∀ t ∈ txs, ¬ Conflicts t u) :
    Api.getAll (deliverAll E OMap.empty (target ++ txs.map Envelope.ofTx)) (some p) = .ok txs := by
  obtain ⟨l1, h1, h2, h3⟩ := (Api.C39_prefix_query_exact_partial E source hs).1 p
  rw [hlist] at h1
  cases h1
  have hr : ∀ t ∈ txs, RustData t ∧ forget t = t := by
    intro t h
    obtain ⟨x, _, hx⟩ := getTransaction_eq_some.1 ((h2 t).1 h).1
    exact ⟨rustData_of_fromBytes hx, hf t h⟩
  obtain ⟨l2, h4, h5, h6⟩ := (Api.C39_prefix_query_exact_partial E _ (labelled_all ht fun t h => (hr t h).1)).1 p
  rw [h4]
  refine congrArg Res.ok (MemStore.idLt_ext h6 h3 fun t => ?_)
  rw [h5, (C114_verified_can_be_posted E txs m hv (idLt_nodup h3) hr target ht fun u hu t h =>
    ⟨fun he => (hno u hu).1 (he ▸ ((h2 t).1 h).2), (hno u hu).2 t h⟩).2]
  constructor
  · rintro ⟨h | h, hp⟩
    · exact absurd hp (hno t h).1
    · exact h.1
  · intro h
    exact ⟨.inr ⟨h, rfl⟩, ((h2 t).1 h).2⟩

/-- The set-up of the sample election, sent twice, and with the trustees in the other order: the same eight submissions are accepted. -/
example : (kept Toy.env OMap.empty ((Toy.setup ++ Toy.setup).map Envelope.ofTx)).length = 8 ∧
    (kept Toy.env OMap.empty ((Toy.setup.take 1 ++ [Toy.pkTx 2 12, Toy.encTx, Toy.commitTx 2 12] ++ Toy.setup).map Envelope.ofTx)).length = 8 := by decide +kernel

/-! ### The sample election is carried to a ledger that holds another election -/

theorem toy_forget : ∀ t ∈ Toy.complete, forget t = t := by
  intro t ht
  rcases List.mem_append.1 ht with h | h
  · exact toySetup_forget t h
  · refine forget_of_not_election t ?_
    clear ht
    revert t
    decide +kernel

theorem toyOther_rust : RustData Toy.otherTx := fits_of_check _ _ (by decide +kernel)

theorem toy_elsewhere (t u : SignedTx) (ht : t ∈ Toy.complete) (hu : getTransaction (deliverAll Toy.env OMap.empty [Envelope.ofTx Toy.otherTx]) u.id = some u) :
    u = Toy.otherTx ∧ u.id ≠ t.id ∧ ¬ Conflicts t u := by
  rcases stored_from Toy.env (l := []) (by simp) [Toy.otherTx] (by simpa using ⟨toyOther_rust, rfl⟩) u.id u hu with h | ⟨h, _⟩
  · cases h
  · rw [List.mem_singleton] at h
    subst h
    refine ⟨rfl, ?_, ?_⟩
    · revert t
      decide +kernel
    · intro hc
      cases t <;> simp [Conflicts, Toy.otherTx, SignedTx.id, Toy.eid2, Toy.election, singleId] at hc

example : Toy.complete.length = 19 ∧ AcceptedInOrder Toy.env [Envelope.ofTx Toy.otherTx] Toy.complete := by
  refine ⟨by decide, ?_⟩
  have hok : (match E2e.verify Toy.env Toy.complete with | .ok _ => true | _ => false) = true := by decide +kernel
  cases hm : E2e.verify Toy.env Toy.complete with
  | ok m =>
    refine (C114_verified_can_be_posted Toy.env Toy.complete m hm (by decide +kernel) (fun t ht => ⟨toy_rustData t ht, toy_forget t ht⟩) _ ?_ ?_).1
    · intro x hx
      rw [List.mem_singleton.1 hx]
      exact (C37_envelope_roundtrip _ toyOther_rust).2.2.1
    · intro u hu t ht
      exact (toy_elsewhere t u ht hu).2
  | err e => rw [hm] at hok; cases hok
  | panic p => rw [hm] at hok; cases hok

/-- The same election, from the listing of one node to a node that holds another election: there is such a listing, and it is carried over. -/
example : ∃ txs, txs.length = 19 ∧ Api.getAll (deliverAll Toy.env OMap.empty (Toy.complete.map Envelope.ofTx)) (some Toy.eid.electionIdString) = .ok txs ∧
    Api.getAll (deliverAll Toy.env OMap.empty (Envelope.ofTx Toy.otherTx :: txs.map Envelope.ofTx)) (some Toy.eid.electionIdString) = .ok txs := by
  have hsrc : ∀ x ∈ Toy.complete.map Envelope.ofTx, Labelled x := fun x hx => by
    obtain ⟨t, ht, rfl⟩ := List.mem_map.1 hx
    exact (C37_envelope_roundtrip t (toy_rustData t ht)).2.2.1
  obtain ⟨txs, h1, h2, _⟩ := (Api.C39_prefix_query_exact_partial Toy.env _ hsrc).1 Toy.eid.electionIdString
  have hlen : (match Api.getAll (deliverAll Toy.env OMap.empty (Toy.complete.map Envelope.ofTx)) (some Toy.eid.electionIdString) with
    | .ok l => decide (l.length = 19) && (match E2e.verify Toy.env l with | .ok _ => true | _ => false) | _ => false) = true := by decide +kernel
  rw [h1] at hlen
  simp only [Bool.and_eq_true, decide_eq_true_eq] at hlen
  have hmem : ∀ t ∈ txs, t ∈ Toy.complete := by
    intro t ht
    rcases stored_from Toy.env (l := []) (by simp) Toy.complete (fun t ht => ⟨toy_rustData t ht, toy_forget t ht⟩) t.id t ((h2 t).1 ht).1 with h | h
    · cases h
    · exact h.1
  refine ⟨txs, hlen.1, h1, ?_⟩
  cases hm : E2e.verify Toy.env txs with
  | ok m =>
    refine C114_listing_is_carried_over Toy.env _ [Envelope.ofTx Toy.otherTx] hsrc ?_ _ txs h1 m hm (fun t ht => toy_forget t (hmem t ht)) ?_
    · intro x hx
      rw [List.mem_singleton.1 hx]
      exact (C37_envelope_roundtrip _ toyOther_rust).2.2.1
    · intro u hu
      refine ⟨?_, fun t ht => (toy_elsewhere t u (hmem t ht) hu).2.2⟩
      rw [(toy_elsewhere Toy.endTx u (by simp [Toy.complete]) hu).1]
      decide +kernel
  | err e => rw [hm] at hlen; cases hlen.2
  | panic p => rw [hm] at hlen; cases hlen.2

end Exonum
end CB
