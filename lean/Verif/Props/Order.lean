import Verif.Spec.Order
import Verif.Props.Exonum
import Verif.Props.ServerDec
/-!
# C75, C76: what may come in between, and in which order
-/

namespace CB
open Spec

/-! ## Scans of two stores -/

theorem scan_congr {S S' : Store} (hS : Lawful S) (hS' : Lawful S') (hk : Keeps S S') {el : Identifier} {ty : TxType} {l : List SignedTx}
    (hl : S.getMultiple el ty = .ok l) (hn : ∀ u, InStore S' u → S.getTransaction u.id = none → ¬ (u.id.electionId = el.electionId ∧ u.id.txType = ty)) :
    S'.getMultiple el ty = .ok l := by
  obtain ⟨a, ha, ha1, ha2⟩ := hS.getMultiple el ty
  obtain ⟨b, hb, hb1, hb2⟩ := hS'.getMultiple el ty
  rw [hl] at ha
  cases ha
  rw [hb]
  refine congrArg Res.ok ?_
  refine MemStore.idLt_ext ?_ ?_ fun t => ?_
  · exact hb2
  · exact ha2
  · rw [ha1, hb1]
    constructor
    · rintro ⟨h1, h2, h3⟩
      refine ⟨?_, h2, h3⟩
      cases hg : S.getTransaction t.id with
      | none => exact absurd ⟨h2, h3⟩ (hn t h1 hg)
      | some x =>
        have := hk _ _ hg
        rw [show S'.getTransaction t.id = some t from h1] at this
        rw [InStore, hg, this]
    · rintro ⟨h1, h2, h3⟩
      exact ⟨hk _ _ h1, h2, h3⟩

/-- a scan of the later store that has the same length finds nothing new -/
theorem scan_nothing_new {S S' : Store} (hS : Lawful S) (hS' : Lawful S') (hk : Keeps S S') {el : Identifier} {ty : TxType} {l l' : List SignedTx}
    (hl : S.getMultiple el ty = .ok l) (hl' : S'.getMultiple el ty = .ok l') (hlen : l'.length ≤ l.length) :
    ∀ u, InStore S' u → S.getTransaction u.id = none → ¬ (u.id.electionId = el.electionId ∧ u.id.txType = ty) := by
  obtain ⟨a, ha, ha1, ha2⟩ := hS.getMultiple el ty
  obtain ⟨b, hb, hb1, hb2⟩ := hS'.getMultiple el ty
  rw [hl] at ha
  cases ha
  rw [hl'] at hb
  cases hb
  intro u hu hn hty
  have hsub : ∀ t ∈ l, t ∈ l' := fun t ht => (hb1 t).2 ⟨hk _ _ ((ha1 t).1 ht).1, ((ha1 t).1 ht).2⟩
  have hnd : l.Nodup := (idLt_nodup ha2).of_map _
  have hp : l.Subperm l' := List.subperm_of_subset hnd hsub
  have hmem : u ∈ l := (hp.perm_of_length_le hlen).mem_iff.2 ((hb1 u).2 ⟨hu, hty⟩)
  have := ((ha1 u).1 hmem).1
  rw [InStore, hn] at this
  cases this

theorem upstream_keeps {S S' : Store} (h : Keeps S S') {up : Identifier} {n : UInt16} {c : UInt32} {cfg : Option MixConfig} {cts : List Ciphertext}
    (hi : encryptedVoteFromUpstream S up n c cfg = .ok cts) : encryptedVoteFromUpstream S' up n c cfg = .ok cts := by
  unfold encryptedVoteFromUpstream at hi ⊢
  split at hi
  · simp only [Res.bind_def, Res.bind_eq_ok, Res.exists_unit, Store.getVote_ok] at hi ⊢
    obtain ⟨h1, h2, s, hs, h3⟩ := hi
    exact ⟨h1, h2, s, h _ _ hs, h3⟩
  · simp only [Res.bind_def, Res.bind_eq_ok, Store.getMix_ok] at hi ⊢
    obtain ⟨s, hs, h3⟩ := hi
    exact ⟨s, h _ _ hs, h3⟩
  · cases hi

theorem allVotes_congr {S S' : Store} (hk : Keeps S S') {el : Identifier} {votes : List (Signed VoteTx)} (hv : AllVotes S el votes)
    (hn : ∀ u, InStore S' u → S.getTransaction u.id = none → ¬ (u.id.electionId = el.electionId ∧ u.id.txType = .vote)) : AllVotes S' el votes := by
  refine ⟨fun t => ?_, hv.2⟩
  rw [← hv.1 t]
  constructor
  · rintro ⟨h1, h2, h3⟩
    refine ⟨?_, h2, h3⟩
    cases hg : S.getTransaction t.id with
    | none => exact absurd ⟨h2, h3⟩ (hn t h1 hg)
    | some x =>
      have := hk _ _ hg
      rw [show S'.getTransaction t.id = some t from h1] at this
      rw [InStore, hg, this]
  · rintro ⟨h1, h2⟩
    exact ⟨hk _ _ h1, h2⟩

theorem mixInputs_congr {S S' : Store} (hk : Keeps S S') {t : MixTx} {inputs : List (List Ciphertext)} (h : MixInputs S t inputs)
    (hn : t.prevMixId = none → ∀ u, InStore S' u → S.getTransaction u.id = none → ¬ (u.id.electionId = t.electionId.electionId ∧ u.id.txType = .vote)) :
    MixInputs S' t inputs := by
  cases h with
  | first h1 h2 h3 h4 => exact .first h1 h2 (allVotes_congr hk h3 (hn h1)) h4
  | next h1 h2 h3 h4 h5 h6 h7 => exact .next h1 (hk _ _ h2) h3 h4 h5 h6 h7

theorem electionAt_keeps {S S' : Store} (h : Keeps S S') {id : Identifier} {e : ElectionTx} (he : ElectionAt S id e) : ElectionAt S' id e := by
  obtain ⟨sig, he⟩ := he
  exact ⟨sig, h _ _ he⟩

theorem slot_keeps {S S' : Store} (h : Keeps S S') {id : Identifier} {ty : TxType} (he : SlotFilled S id ty) : SlotFilled S' id ty := by
  obtain ⟨x, he⟩ := he
  exact ⟨x, h _ _ he⟩

/-! ## C75 -/

/-- **C75** What is acceptable stays acceptable, whatever else is accepted in the meantime, unless it is one of the few transactions that get in its way. -/
theorem C75_acceptance_is_stable (E : Env) (S S' : Store) (hS : Lawful S) (hS' : Lawful S') (hk : Keeps S S') (t : SignedTx) (h : t.validate E S = .ok ())
    (hc : ∀ u, InStore S' u → S.getTransaction u.id = none → ¬ Conflicts t u) : t.validate E S' = .ok () := by
  obtain ⟨h1, h2, h3⟩ := SignedTx.validate_ok.1 h
  refine SignedTx.validate_ok.2 ⟨h1, h2, ?_⟩
  cases t with
  | election s => exact h3
  | keyGenCommitment s =>
    obtain ⟨e, he, h⟩ := KeyGenCommitmentTx.validateTx_ok.1 h3
    exact KeyGenCommitmentTx.validateTx_ok.2 ⟨e, electionAt_keeps hk he, h⟩
  | keyGenShare s =>
    obtain ⟨e, he, h⟩ := KeyGenShareTx.validateTx_ok.1 h3
    exact KeyGenShareTx.validateTx_ok.2 ⟨e, electionAt_keeps hk he, h⟩
  | keyGenPublicKey s =>
    obtain ⟨e, he, h⟩ := KeyGenPublicKeyTx.validateTx_ok.1 h3
    exact KeyGenPublicKeyTx.validateTx_ok.2 ⟨e, electionAt_keeps hk he, h⟩
  | encryptionKey s =>
    obtain ⟨e, he, ha, pks, hp, h⟩ := EncryptionKeyTx.validateTx_ok.1 h3
    exact EncryptionKeyTx.validateTx_ok.2 ⟨e, electionAt_keeps hk he, ha, pks, scan_congr hS hS' hk hp hc, h⟩
  | vote s =>
    obtain ⟨hid, e, he, hcol, hkey, hend, hau, hb⟩ := (VoteTx.validateTx_ok hS).1 h3
    refine (VoteTx.validateTx_ok hS').2 ⟨hid, e, electionAt_keeps hk he, ?_, slot_keeps hk hkey, ?_, hau, hb⟩
    · cases hg : S'.getTransaction (collisionId s.tx.election s.tx.anonymousKey) with
      | none => rfl
      | some u =>
        have hu := hS'.keyed _ _ hg
        refine absurd (.inr ⟨?_, ?_, ?_⟩) (hc u (by rw [InStore, hu]; exact hg) (by rw [hu]; exact hcol)) <;> rw [hu] <;> rfl
    · rintro ⟨u, hg⟩
      have hu := hS'.keyed _ _ hg
      refine hc u (by rw [InStore, hu]; exact hg) ?_ (.inl hu)
      rw [hu]
      cases hg : S.getTransaction (singleId s.tx.election .votingEnd) with
      | none => rfl
      | some x => exact absurd ⟨x, hg⟩ hend
  | votingEnd s =>
    obtain ⟨e, he, h⟩ := VotingEndTx.validateTx_ok.1 h3
    exact VotingEndTx.validateTx_ok.2 ⟨e, electionAt_keeps hk he, h⟩
  | mix s =>
    obtain ⟨hid, e, he, hcfg, htr, hov, hidx, hlen, inputs, hin, hov2, key, sig, hkey, hver⟩ := (MixTx.validateTx_ok hS).1 h3
    refine (MixTx.validateTx_ok hS').2 ⟨hid, e, electionAt_keeps hk he, hcfg, htr, hov, hidx, hlen, inputs,
      mixInputs_congr hk hin (fun hp u hu hn hty => hc u hu hn ⟨hp, hty⟩), ?_, key, sig, hk _ _ hkey, hver⟩
    intro pid prev psig hp hg
    cases hin with
    | first h0 => rw [h0] at hp; cases hp
    | next h0 hg0 =>
      rw [hp] at h0
      cases h0
      have := hk _ _ hg0
      rw [hg] at this
      cases this
      exact hov2 _ _ _ hp hg0
  | partialDecryption s =>
    obtain ⟨e, he, htr, hid, hend, cts, hcts, pk, sig, hpk, h⟩ := PartialDecryptionTx.validateTx_ok.1 h3
    exact PartialDecryptionTx.validateTx_ok.2 ⟨e, electionAt_keeps hk he, htr, hid, slot_keeps hk hend, cts, upstream_keeps hk hcts, pk, sig, hk _ _ hpk, h⟩
  | decryption s =>
    obtain ⟨hid, e, he, cts, hcts, pks, hpks, ps, hlen, hps, h⟩ := DecryptionTx.validateTx_ok.1 h3
    exact DecryptionTx.validateTx_ok.2 ⟨hid, e, electionAt_keeps hk he, cts, upstream_keeps hk hcts, pks, scan_congr hS hS' hk hpks hc, ps, hlen,
      fun n i p hi hp => ⟨(hps n i p hi hp).1, hk _ _ (hps n i p hi hp).2⟩, h⟩

/-- Those that get in its way do: once one of them is accepted, the transaction is refused for good.  (For decryptions this need not be so.) -/
theorem C75_conflicts_are_real (E : Env) (S S' : Store) (hS : Lawful S) (hS' : Lawful S') (hk : Keeps S S') (t u : SignedTx) (h : t.validate E S = .ok ())
    (hu : InStore S' u) (hn : S.getTransaction u.id = none) (hc : Conflicts t u) (ht : kindOf t ≠ .decryption) : t.validate E S' ≠ .ok () := by
  intro h'
  have h3 := (SignedTx.validate_ok.1 h).2.2
  have h3' := (SignedTx.validate_ok.1 h').2.2
  cases t with
  | encryptionKey s =>
    obtain ⟨e, he, ha, pks, hp, hl, _⟩ := EncryptionKeyTx.validateTx_ok.1 h3
    obtain ⟨e', he', ha', pks', hp', hl', _⟩ := EncryptionKeyTx.validateTx_ok.1 h3'
    obtain ⟨sig, he⟩ := he
    obtain ⟨sig', he'⟩ := he'
    rw [hk _ _ he] at he'
    cases he'
    exact scan_nothing_new hS hS' hk hp hp' (by rw [List.length_map, List.length_map, hl, hl']; exact Nat.le_refl _) u hu hn hc
  | vote s =>
    obtain ⟨_, _, _, hcol, _, hend, _, _⟩ := (VoteTx.validateTx_ok hS').1 h3'
    rcases hc with hc | ⟨h1, h2, h3⟩
    · exact hend ⟨u, hc ▸ hu⟩
    · have : u.id = collisionId s.tx.election s.tx.anonymousKey := by
        rw [show u.id = ⟨u.id.electionId, u.id.txType, u.id.uniqueInfo⟩ from rfl, h1, h2]
        exact congrArg (Identifier.mk _ _) (Subtype.ext h3)
      rw [← this, show S'.getTransaction u.id = some u from hu] at hcol
      cases hcol
  | mix s =>
    obtain ⟨hp, hc⟩ := hc
    obtain ⟨_, _, _, _, _, _, _, _, inputs, hin, _⟩ := (MixTx.validateTx_ok hS).1 h3
    obtain ⟨_, _, _, _, _, _, _, _, inputs', hin', _⟩ := (MixTx.validateTx_ok hS').1 h3'
    cases hin with
    | next h0 => rw [hp] at h0; cases h0
    | first _ _ hall hids =>
      cases hin' with
      | next h0 => rw [hp] at h0; cases h0
      | first _ _ hall' hids' =>
        obtain ⟨v, hv, rfl⟩ := (hall'.1 u).1 ⟨hu, hc⟩
        have hm : v.tx.id ∈ s.tx.voteIds := by
          rw [hids']
          exact List.mem_map.2 ⟨v, hv, rfl⟩
        rw [hids] at hm
        obtain ⟨w, hw, hwid⟩ := List.mem_map.1 hm
        have hw' := ((hall.1 (.vote w)).2 ⟨w, hw, rfl⟩).1
        have e1 : (SignedTx.vote w).id = (SignedTx.vote v).id := hwid
        rw [InStore, e1, hn] at hw'
        cases hw'
  | decryption s => exact ht rfl
  | _ => exact hc

/-- Each of these conflicts occurs: a vote and the end of voting; a first mix and a vote; an encryption key and a public key. -/
example : Conflicts (Toy.voteTx 31 "a") Toy.endTx ∧ Conflicts Toy.mix1Tx (Toy.voteTx 31 "a") ∧ Conflicts Toy.encTx (Toy.pkTx 1 11) ∧ ¬ Conflicts (Toy.voteTx 31 "a") (Toy.voteTx 32 "b") := by
  refine ⟨.inl rfl, ⟨rfl, rfl, rfl⟩, ⟨rfl, rfl⟩, ?_⟩
  rintro (h | ⟨_, _, h⟩)
  · exact absurd (congrArg Identifier.txType h) (by decide)
  · exact absurd h (by decide +kernel)

/-- A vote acceptable when the sample election is set up is acceptable after another vote, and no longer after the end of voting. -/
example : (Toy.voteTx 31 "a").validate Toy.env (MemStore.ofList Toy.setup).toStore = .ok () ∧
    (Toy.voteTx 31 "a").validate Toy.env (MemStore.ofList (Toy.setup ++ [Toy.voteTx 32 "b"])).toStore = .ok () ∧
    (Toy.voteTx 31 "a").validate Toy.env (MemStore.ofList (Toy.setup ++ [Toy.voteTx 32 "b", Toy.endTx])).toStore ≠ .ok () := by decide +kernel

/-! ## C76 -/

namespace Exonum

theorem deliver_iff {E : Env} {s : Schema} {t : SignedTx} (hr : RustData t) (hf : forget t = t) (hs : WF s) (id : Identifier) (u : SignedTx) :
    getTransaction (deliver E s (Envelope.ofTx t)) id = some u ↔ getTransaction s id = some u ∨
      (getTransaction s id = none ∧ u = t ∧ t.id = id ∧ t.validate E (toStore s) = .ok ()) := by
  have hd : SignedTx.fromBytes (Envelope.ofTx t).data = .ok t := by
    have := (C37_envelope_roundtrip t hr).1
    rw [hf] at this
    exact this
  have hnone : ∀ id : Identifier, getTransaction s id = none ↔ s.get id.toString = none := by
    intro id
    unfold getTransaction
    cases hg : s.get id.toString with
    | none => simp
    | some e =>
      obtain ⟨x, hx, _⟩ := hs _ _ hg
      simp [decoded_eq_some.2 hx]
  by_cases hacc : s.get t.id.toString = none ∧ t.validate E (toStore s) = .ok ()
  · have : deliver E s (Envelope.ofTx t) = s.insert t.id.toString (Envelope.ofTx t) := by
      unfold deliver
      rw [verifyAndStore_ok.2 ⟨hacc.1, t, hd, hacc.2, rfl⟩]
      rfl
    rw [this]
    unfold getTransaction
    rw [OMap.get_insert]
    simp only [Identifier.toString_inj]
    by_cases hi : id = t.id
    · subst hi
      rw [if_pos rfl, hacc.1]
      simp only [decoded_eq_some, hd, Res.ok.injEq, reduceCtorEq, false_or, true_and]
      exact ⟨fun h => ⟨h.symm, hacc.2⟩, fun h => h.1.symm⟩
    · rw [if_neg hi]
      refine ⟨.inl, ?_⟩
      rintro (h | ⟨_, _, h, _⟩)
      · exact h
      · exact absurd h.symm hi
  · have : deliver E s (Envelope.ofTx t) = s := by
      rcases deliver_cases E s (Envelope.ofTx t) with h | ⟨h1, t', h2, h3, _⟩
      · exact h
      · rw [hd] at h2
        cases h2
        exact absurd ⟨h1, h3⟩ hacc
    rw [this]
    refine ⟨.inl, ?_⟩
    rintro (h | ⟨h1, _, h2, h3⟩)
    · exact h
    · exact absurd ⟨(hnone _).1 (h2 ▸ h1), h3⟩ hacc

theorem vote_rejected_before {E : Env} {S S' : Store} (hS : Lawful S) (hS' : Lawful S') (hk : Keeps S S') (hnew : ∀ u, InStore S' u → S.getTransaction u.id = none → ∃ w, u = .vote w ∧ w.tx.id.txType = .vote)
    {v : Signed VoteTx} (h : (SignedTx.vote v).validate E S' = .ok ()) : (SignedTx.vote v).validate E S = .ok () := by
  obtain ⟨h1, h2, h3⟩ := SignedTx.validate_ok.1 h
  obtain ⟨hid, e, ⟨sig, he⟩, hcol, ⟨x, hkey⟩, hend, hau, hb⟩ := (VoteTx.validateTx_ok hS').1 h3
  have old : ∀ id u, S'.getTransaction id = some u → (∀ w, u = .vote w → id.txType ≠ .vote) → S.getTransaction id = some u := by
    intro id u hu hne
    have hi := hS'.keyed _ _ hu
    cases hg : S.getTransaction id with
    | none =>
      obtain ⟨w, rfl, hw⟩ := hnew u (by rw [InStore, hi]; exact hu) (by rw [hi]; exact hg)
      exact absurd (by rw [← hi]; exact hw) (hne w rfl)
    | some y =>
      have := hk _ _ hg
      rw [hu] at this
      exact this.symm
  refine SignedTx.validate_ok.2 ⟨h1, h2, (VoteTx.validateTx_ok hS).2 ⟨hid, e, ⟨sig, old _ _ he (by rintro w ⟨⟩)⟩, ?_, ⟨x, old _ _ hkey (by intro w _ h; cases h)⟩,
    fun hs => hend (slot_keeps hk hs), hau, hb⟩⟩
  cases hg : S.getTransaction (collisionId v.tx.election v.tx.anonymousKey) with
  | none => rfl
  | some y => rw [hk _ _ hg] at hcol; cases hcol

/-- **C76** Which votes get in does not depend on the order (or on repetitions) in which they arrive: of votes submitted one after the other, those are filed that would have been
acceptable at the beginning.  (Provided that no two of them, for one election, are of voters whose keys begin with the same ten bytes.) -/
theorem C76_order_of_votes_is_irrelevant_partial (E : Env) (l : List Envelope) (hl : ∀ x ∈ l, Labelled x) (vs : List (Signed VoteTx)) (hr : ∀ v ∈ vs, RustData (.vote v))
    (hfar : ∀ v ∈ vs, ∀ w ∈ vs, v = w ∨ FarApart v.tx w.tx) (id : Identifier) (t : SignedTx) :
    getTransaction (deliverAll E OMap.empty (l ++ vs.map fun v => Envelope.ofTx (.vote v))) id = some t ↔
      getTransaction (deliverAll E OMap.empty l) id = some t ∨
      (getTransaction (deliverAll E OMap.empty l) id = none ∧ t.id = id ∧ (∃ v ∈ vs, t = .vote v) ∧ t.validate E (toStore (deliverAll E OMap.empty l)) = .ok ()) := by
  have hlab : ∀ ws : List (Signed VoteTx), (∀ v ∈ ws, RustData (.vote v)) → ∀ x ∈ l ++ ws.map (fun v => Envelope.ofTx (.vote v)), Labelled x := by
    intro ws hws x hx
    rcases List.mem_append.1 hx with hx | hx
    · exact hl x hx
    · obtain ⟨v, hv, rfl⟩ := List.mem_map.1 hx
      exact (C37_envelope_roundtrip _ (hws v hv)).2.2.1
  have hw := wf_deliverAll (E := E) hl
  induction vs using List.reverseRecOn generalizing id t with
  | nil => simp
  | append_singleton ws v ih =>
    have hws : ∀ w ∈ ws, RustData (.vote w) := fun w hw => hr w (by simp [hw])
    have ih := ih hws (fun a ha b hb => hfar a (by simp [ha]) b (by simp [hb]))
    have hw' := wf_deliverAll (E := E) (hlab ws hws)
    rw [List.map_append, List.map_singleton, ← List.append_assoc, deliverAll_snoc, deliver_iff (hr v (by simp)) rfl hw', show _ ↔ _ from ih id t]
    generalize deliverAll E OMap.empty l = s at *
    generalize deliverAll E OMap.empty (l ++ ws.map fun v => Envelope.ofTx (.vote v)) = s' at *
    have hk : Keeps (toStore s) (toStore s') := fun i u hu => (ih i u).2 (.inl hu)
    have hnew : ∀ u, InStore (toStore s') u → (toStore s).getTransaction u.id = none → (∃ w ∈ ws, u = .vote w) ∧ u.validate E (toStore s) = .ok () := by
      intro u hu hn
      rcases (ih u.id u).1 hu with h | ⟨_, _, h⟩
      · rw [show getTransaction s u.id = none from hn] at h
        cases h
      · exact h
    have hval : getTransaction s' v.tx.id = none → ((SignedTx.vote v).validate E (toStore s') = .ok () ↔ (SignedTx.vote v).validate E (toStore s) = .ok ()) := by
      intro hfree
      constructor
      · refine vote_rejected_before (lawful hw) (lawful hw') hk fun u hu hn => ?_
        obtain ⟨⟨w, _, rfl⟩, hv⟩ := hnew u hu hn
        exact ⟨w, rfl, (SignedTx.validate_ok.1 hv).1⟩
      · intro hv
        refine C75_acceptance_is_stable E _ _ (lawful hw) (lawful hw') hk _ hv fun u hu hn hc => ?_
        obtain ⟨⟨w, hwm, rfl⟩, hwv⟩ := hnew u hu hn
        obtain ⟨hwt, _, h3⟩ := SignedTx.validate_ok.1 hwv
        obtain ⟨hwid, _⟩ := (VoteTx.validateTx_ok (lawful hw)).1 h3
        rcases hc with hc | ⟨h1, h2, h3⟩
        · rw [hc] at hwt
          cases hwt
        · have h1 : w.tx.id.electionId = v.tx.election.electionId := h1
          have h3 : w.tx.id.uniqueInfo.val = v.tx.anonymousKey.val.take 10 ++ List.replicate 6 0 := h3
          rw [hwid] at h1 h3
          have h1 : w.tx.election.electionId = v.tx.election.electionId := h1
          have h3 : w.tx.anonymousKey.val.take 16 = v.tx.anonymousKey.val.take 10 ++ List.replicate 6 0 := h3
          rcases hfar w (by simp [hwm]) v (by simp) with rfl | hf | hf
          · rw [show getTransaction s' w.tx.id = some (.vote w) from hu] at hfree
            cases hfree
          · exact hf h1
          · apply hf
            have := congrArg (List.take 10) h3
            rw [List.take_take, List.take_append_of_le_length (by simp [v.tx.anonymousKey.property]), List.take_take] at this
            simpa using this
    constructor
    · rintro ((h | ⟨h1, h2, ⟨w, hw1, hw2⟩, h4⟩) | ⟨h1, rfl, h3, h4⟩)
      · exact .inl h
      · exact .inr ⟨h1, h2, ⟨w, by simp [hw1], hw2⟩, h4⟩
      · have h3 : v.tx.id = id := h3
        subst h3
        refine .inr ⟨?_, rfl, ⟨v, by simp, rfl⟩, (hval h1).1 h4⟩
        cases hg : getTransaction s v.tx.id with
        | none => rfl
        | some y => rw [show getTransaction s' v.tx.id = some y from hk _ _ hg] at h1; cases h1
    · rintro (h | ⟨h1, h2, ⟨w, hw1, hw2⟩, h4⟩)
      · exact .inl (.inl h)
      · rcases List.mem_append.1 hw1 with hw1 | hw1
        · exact .inl (.inr ⟨h1, h2, ⟨w, hw1, hw2⟩, h4⟩)
        · rw [List.mem_singleton] at hw1
          subst hw1
          subst hw2
          have h2 : w.tx.id = id := h2
          subst h2
          cases hg : getTransaction s' w.tx.id with
          | none => exact .inr ⟨rfl, rfl, rfl, (hval hg).2 h4⟩
          | some y =>
            have := (ih _ _).1 hg
            rcases this with h | ⟨_, h2, ⟨x, hx, rfl⟩, h5⟩
            · rw [h1] at h; cases h
            · refine .inl (.inr ⟨h1, rfl, ⟨w, ?_, rfl⟩, h4⟩)
              rcases hfar x (by simp [hx]) w (by simp) with rfl | hf
              · exact hx
              · exfalso
                obtain ⟨hxid, _⟩ := (VoteTx.validateTx_ok (lawful hw)).1 (SignedTx.validate_ok.1 h5).2.2
                obtain ⟨hwid, _⟩ := (VoteTx.validateTx_ok (lawful hw)).1 (SignedTx.validate_ok.1 h4).2.2
                have h2 : x.tx.id = w.tx.id := h2
                rw [hxid, hwid] at h2
                have e1 : x.tx.election.electionId = w.tx.election.electionId := congrArg (·.electionId) h2
                have e2 : x.tx.anonymousKey.val.take 16 = w.tx.anonymousKey.val.take 16 := congrArg (fun i => i.uniqueInfo.val) h2
                rcases hf with hf | hf
                · exact hf e1
                · apply hf
                  have := congrArg (List.take 10) e2
                  rw [List.take_take, List.take_take] at this
                  simpa using this

/-- So whoever fixes the order of a block does not decide thereby which votes get in. -/
theorem C76_votes_in_any_order_partial (E : Env) (l : List Envelope) (hl : ∀ x ∈ l, Labelled x) (vs ws : List (Signed VoteTx)) (hp : vs.Perm ws) (hr : ∀ v ∈ vs, RustData (.vote v))
    (hfar : ∀ v ∈ vs, ∀ w ∈ vs, v = w ∨ FarApart v.tx w.tx) (id : Identifier) :
    getTransaction (deliverAll E OMap.empty (l ++ vs.map fun v => Envelope.ofTx (.vote v))) id =
      getTransaction (deliverAll E OMap.empty (l ++ ws.map fun v => Envelope.ofTx (.vote v))) id := by
  refine Option.ext fun t => ?_
  rw [C76_order_of_votes_is_irrelevant_partial E l hl vs hr hfar, C76_order_of_votes_is_irrelevant_partial E l hl ws (fun v hv => hr v (hp.mem_iff.2 hv))
    (fun v hv w hw => hfar v (hp.mem_iff.2 hv) w (hp.mem_iff.2 hw))]
  simp only [hp.mem_iff]

/-- two voters whose keys begin with the same ten bytes, one of them going on with zeros -/
def zerosVote : Signed VoteTx :=
  let k : PublicKey := ⟨List.replicate 10 3 ++ List.replicate 22 0, rfl⟩
  ⟨Toy.vote k [Toy.auth 21 k] [⟨0, [Toy.ct "a"]⟩], Toy.sigOf k⟩
def onesVote : Signed VoteTx :=
  let k : PublicKey := ⟨List.replicate 10 3 ++ List.replicate 22 1, rfl⟩
  ⟨Toy.vote k [Toy.auth 21 k] [⟨0, [Toy.ct "b"]⟩], Toy.sigOf k⟩

/-- **C76 is false of the code** for voters whose keys begin alike: whether the second vote gets in depends on the order. -/
theorem C76_order_of_votes_is_irrelevant_false : ¬ ∀ (E : Env) (l : List Envelope) (vs ws : List (Signed VoteTx)), (∀ x ∈ l, Labelled x) → (∀ v ∈ vs, RustData (.vote v)) →
    vs.Perm ws → ∀ id, getTransaction (deliverAll E OMap.empty (l ++ vs.map fun v => Envelope.ofTx (.vote v))) id =
      getTransaction (deliverAll E OMap.empty (l ++ ws.map fun v => Envelope.ofTx (.vote v))) id := by
  intro h
  have := congrArg Option.isSome (h Toy.env (Toy.setup.map Envelope.ofTx) [zerosVote, onesVote] [onesVote, zerosVote] ?_ ?_ (List.Perm.swap _ _ _) onesVote.tx.id)
  · revert this
    decide +kernel
  · intro x hx
    obtain ⟨t, ht, rfl⟩ := List.mem_map.1 hx
    refine (C37_envelope_roundtrip t (toy_rustData t ?_)).2.2.1
    rw [Toy.complete]
    exact List.mem_append_left _ ht
  · intro v hv
    simp only [List.mem_cons, List.not_mem_nil, or_false] at hv
    rcases hv with rfl | rfl <;> exact fits_of_check _ _ (by decide +kernel)

/-- the two votes of the sample election, in either order: the hypotheses hold and both get in -/
example : (∀ v ∈ [Toy.voteTx 31 "a", Toy.voteTx 32 "b"], RustData v) ∧
    (match Toy.voteTx 31 "a", Toy.voteTx 32 "b" with
    | .vote v, .vote w => decide (v.tx.anonymousKey.val.take 10 ≠ w.tx.anonymousKey.val.take 10)
    | _, _ => false) = true ∧
    ((getTransaction (deliverAll Toy.env OMap.empty ((Toy.setup ++ [Toy.voteTx 32 "b", Toy.voteTx 31 "a"]).map Envelope.ofTx)) (Toy.voteTx 31 "a").id).isSome &&
      (getTransaction (deliverAll Toy.env OMap.empty ((Toy.setup ++ [Toy.voteTx 32 "b", Toy.voteTx 31 "a"]).map Envelope.ofTx)) (Toy.voteTx 32 "b").id).isSome) = true := by
  refine ⟨?_, by decide +kernel, by decide +kernel⟩
  intro v hv
  refine toy_rustData v ?_
  rw [Toy.complete]
  refine List.mem_append_right _ ?_
  simp only [List.mem_cons, List.not_mem_nil, or_false] at hv ⊢
  rcases hv with rfl | rfl <;> simp

end Exonum
end CB
