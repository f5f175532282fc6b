import Verif.Lemmas.NetSetup
/-!
# Networks of honest nodes complete the set-up
-/

namespace CB
open Spec Server

namespace Setup

variable {N : NodeEnv} {K : List SecretKey} {e : ElectionTx} {sk : UInt8 → SecretKey} {run : KeyGenRun N} {key : ElGamalKey}

/-- all slots of the set-up are filled -/
structure Complete (e : ElectionTx) (s : Network) : Prop where
  commitments : ∀ tr ∈ e.getFullTrustees, slot e .keyGenCommitment tr ∈ s.ledger.map SignedTx.id
  shares : ∀ tr ∈ e.getFullTrustees, slot e .keyGenShare tr ∈ s.ledger.map SignedTx.id
  publicKeys : ∀ tr ∈ e.getFullTrustees, slot e .keyGenPublicKey tr ∈ s.ledger.map SignedTx.id
  encryptionKey : singleId e.id .encryptionKey ∈ s.ledger.map SignedTx.id

theorem Inv.stepDone (hN : Nodes N K e sk) {s : Network} (h : Inv N e sk run key s) {ty : TxType} (hty : ty = .keyGenCommitment ∨ ty = .keyGenShare ∨ ty = .keyGenPublicKey)
    (hs : ∀ tr ∈ e.getFullTrustees, slot e ty tr ∈ s.ledger.map SignedTx.id) : StepDone s.store.toStore e ty := by
  intro tr htr
  let tr' : Trustee := { tr with numTrustees := e.trustees.length, threshold := e.trusteesThreshold }
  have htr' : tr' ∈ e.getFullTrustees := full_iff.2 ⟨tr, htr, rfl⟩
  obtain ⟨t, ht, hid⟩ := List.mem_map.1 (hs tr' htr')
  have hk := h.orderly.in_slot ht hid
  have hf : t.id.electionId = e.id.electionId := by rw [hid]; rfl
  have hh := h.orderly.honest t ht hf
  refine ⟨t, (Network.stored_iff_mem h.orderly.sound.nodup t).2 ht, hf, hk, ?_⟩
  have hin : ∀ tr2 ∈ e.getFullTrustees, t.id = slot e ty tr2 → tr2 = tr' := fun tr2 h2 h3 => full_inj hN.trustees h2 htr' (slot_inj (h3.symm.trans hid))
  rcases hty with rfl | rfl | rfl
  · cases t with
    | keyGenCommitment s' => obtain ⟨tr2, h2, rfl⟩ := hh; rw [hin tr2 h2 rfl]; rfl
    | _ => simp [kindOf] at hk
  · cases t with
    | keyGenShare s' => obtain ⟨tr2, h2, p, -, rfl⟩ := hh; rw [hin tr2 h2 rfl]; rfl
    | _ => simp [kindOf] at hk
  · cases t with
    | keyGenPublicKey s' => obtain ⟨tr2, h2, rfl⟩ := hh; rw [hin tr2 h2 rfl]; rfl
    | _ => simp [kindOf] at hk

/-- When the slots are filled the election is set up. -/
theorem Inv.setUp (hN : Nodes N K e sk) {s : Network} (h : Inv N e sk run key s) (hc : Complete e s) : SetUp s.store.toStore e key where
  commitments := h.stepDone hN (.inl rfl) hc.commitments
  shares := h.stepDone hN (.inr (.inl rfl)) hc.shares
  publicKeys := h.stepDone hN (.inr (.inr rfl)) hc.publicKeys
  agreed p hp hf := by
    obtain ⟨tr, -, hs⟩ := h.orderly.honest _ ((Network.stored_iff_mem h.orderly.sound.nodup _).1 hp) hf
    rw [hs]
    rfl
  encryptionKey := by
    obtain ⟨t, ht, hid⟩ := List.mem_map.1 hc.encryptionKey
    have hin : InStore s.store.toStore t := (Network.stored_iff_mem h.orderly.sound.nodup t).2 ht
    have hty := h.orderly.sound.whole.replay.typedStore t hin
    rw [hid] at hty
    cases t with
    | encryptionKey x =>
      refine ⟨x, by rw [← hid]; exact hin, ?_⟩
      have hf : (SignedTx.encryptionKey x).id.electionId = e.id.electionId := by rw [hid]; rfl
      obtain ⟨k, hx⟩ := h.orderly.honest _ ht hf
      obtain ⟨m0, hl0, hfresh, hv, hsteps⟩ := h.orderly.sound.whole.accepted hin
      have hext : Extends m0 s.store := (Extends.set_fresh hfresh).trans hsteps.extends
      obtain ⟨-, -, hv⟩ := SignedTx.validate_ok.1 hv
      have hxe : x.tx.election = e.id := by rw [hx]; rfl
      obtain ⟨e', he', -, pks, hm, hlen, hall, heqk⟩ := EncryptionKeyTx.validateTx_ok.1 hv
      rw [hxe] at he' hm
      obtain ⟨tr, htr⟩ : ∃ tr, tr ∈ e.trustees := List.exists_mem_of_length_pos (by have := hN.trustees.threshold; have := hN.trustees.enough; omega)
      have : e' = e := h.orderly.uniq e' (by obtain ⟨sg, hg⟩ := he'; exact ⟨sg, hext _ _ hg⟩)
      subst this
      obtain ⟨p, hp, -⟩ := hall tr htr
      rw [← heqk p hp]
      obtain ⟨l, hl, hmem, -⟩ := hl0.lawful.getMultiple e'.id .keyGenPublicKey
      have : l = pks.map .keyGenPublicKey := Res.ok.inj (hl.symm.trans hm)
      subst this
      obtain ⟨h1, h2, -⟩ := (hmem _).1 (List.mem_map_of_mem hp)
      obtain ⟨tr2, -, hs⟩ := h.orderly.honest _ ((Network.stored_iff_mem h.orderly.sound.nodup _).1 (hext _ _ h1)) h2
      rw [hs]
      rfl
    | _ => simp [kindOf, singleId] at hty

/-- a duty's trigger is not empty, and is made of set-up transactions -/
theorem Duty.ne_nil (hN : Nodes N K e sk) {T : List Identifier} {k : SecretKey} {target : Identifier} (h : Duty N e sk T k target) : T ≠ [] := by
  have : e.getFullTrustees ≠ [] := by
    intro h0
    have h1 := hN.trustees.threshold
    have h2 := hN.trustees.enough
    rw [← full_length, h0, List.length_nil] at h2
    omega
  cases h with
  | commitment => simp
  | _ => simpa using this

theorem Inv.trigger {s : Network} (h : Inv N e sk run key s) {T : List Identifier} {k : SecretKey} {target : Identifier} (hD : Duty N e sk T k target) {x : SignedTx}
    (hx : x ∈ s.ledger) (hT : x.id ∈ T) : (kindOf x = .election ∨ SetupKind (kindOf x)) ∧ x.id.electionId = e.id.electionId := by
  have hin := (Network.stored_iff_mem h.orderly.sound.nodup x).2 hx
  have hty := h.orderly.sound.whole.replay.typedStore x hin
  cases hD with
  | commitment htr =>
    rw [List.mem_singleton] at hT
    rw [hT] at hty ⊢
    refine ⟨.inl ?_, rfl⟩
    rw [← hty, h.orderly.wf]
  | share htr =>
    obtain ⟨tr', -, hid⟩ := List.mem_map.1 hT
    rw [← hid] at hty ⊢
    exact ⟨.inr (by rw [← hty]; simp [SetupKind, slot, Identifier.new]), rfl⟩
  | publicKey htr =>
    obtain ⟨tr', -, hid⟩ := List.mem_map.1 hT
    rw [← hid] at hty ⊢
    exact ⟨.inr (by rw [← hty]; simp [SetupKind, slot, Identifier.new]), rfl⟩
  | encryptionKey hk' =>
    obtain ⟨tr', -, hid⟩ := List.mem_map.1 hT
    rw [← hid] at hty ⊢
    exact ⟨.inr (by rw [← hty]; simp [SetupKind, slot, Identifier.new]), rfl⟩

/-! ## Settled networks -/

theorem Inv.settled (hN : Nodes N K e sk) {s : Network} (h : Inv N e sk run key s) (hs : Settled K e s) {T : List Identifier} {k : SecretKey} (hk : k ∈ K)
    {target : Identifier} (hD : Duty N e sk T k target) (hT : ∀ i ∈ T, i ∈ s.ledger.map SignedTx.id) : target ∈ s.ledger.map SignedTx.id := by
  obtain ⟨m, x, hx, hxT, hall⟩ := Network.exists_last T (hD.ne_nil hN) hT
  obtain ⟨h1, h2⟩ := h.trigger hD (List.mem_of_getElem? hx) hxT
  rcases h.duty k m (hs.reacted m x hx h2 h1 k hk) T target hD x hx hxT hall with h3 | ⟨d, hd, -, hdue⟩
  · exact h3
  · exact absurd hdue.setup.2 (hs.delivered d hd)

theorem Inv.settled_complete (hN : Nodes N K e sk) (hK : AllRun N K e sk) {s : Network} (h : Inv N e sk run key s) (he : ElectionAt s.store.toStore e.id e) (hs : Settled K e s) :
    Complete e s := by
  have hK' : ∀ tr ∈ e.getFullTrustees, sk tr.index ∈ K := fun tr htr => by
    obtain ⟨tr0, h0, h1, -⟩ := full_trustee htr
    rw [← h1]
    exact hK.trustees tr0 h0
  have hid : e.id ∈ s.ledger.map SignedTx.id := by
    obtain ⟨sg, hg⟩ := he
    rw [← Network.get_isSome h.orderly.sound.nodup]
    show (s.store.getTransaction e.id).isSome
    have hg : s.store.getTransaction e.id = _ := hg
    rw [hg]
    rfl
  have h1 : ∀ tr ∈ e.getFullTrustees, slot e .keyGenCommitment tr ∈ s.ledger.map SignedTx.id := fun tr htr =>
    h.settled hN hs (hK' tr htr) (.commitment htr) (by simpa using hid)
  have h2 : ∀ tr ∈ e.getFullTrustees, slot e .keyGenShare tr ∈ s.ledger.map SignedTx.id := fun tr htr =>
    h.settled hN hs (hK' tr htr) (.share htr) fun i hi => by obtain ⟨tr', h3, rfl⟩ := List.mem_map.1 hi; exact h1 tr' h3
  have h3 : ∀ tr ∈ e.getFullTrustees, slot e .keyGenPublicKey tr ∈ s.ledger.map SignedTx.id := fun tr htr =>
    h.settled hN hs (hK' tr htr) (.publicKey htr) fun i hi => by obtain ⟨tr', h3, rfl⟩ := List.mem_map.1 hi; exact h2 tr' h3
  obtain ⟨k, hk, hka⟩ := hK.authority
  exact ⟨h1, h2, h3, h.settled hN hs hk (.encryptionKey hka) fun i hi => by obtain ⟨tr', h4, rfl⟩ := List.mem_map.1 hi; exact h3 tr' h4⟩

/-! ## Completing the set-up -/

theorem permitted_of_nodes {ev : Event} (h : NodesOnly K ev) : Permitted K e ev := by
  cases ev with
  | submit t => exact h.elim
  | deliver i => trivial
  | react k rng m v => exact h

theorem uniq_of_stored {S : Store} (he : ElectionAt S e.id e) : ∀ x, ElectionAt S e.id x → x = e := by
  intro x ⟨sg, hx⟩
  obtain ⟨sg', he⟩ := he
  have := hx.symm.trans he
  cases this
  rfl

theorem steps_prefix (N : NodeEnv) (evs : List Event) (s : Network) : s.ledger <+: (evs.foldl (Network.step N) s).ledger := by
  induction evs generalizing s with
  | nil => exact List.prefix_rfl
  | cons ev evs ih => exact (Network.ledger_prefix N s ev).trans (ih _)

/-- a state of the network in which the invariant holds and the election is stored -/
structure Live (N : NodeEnv) (e : ElectionTx) (sk : UInt8 → SecretKey) (run : KeyGenRun N) (key : ElGamalKey) (s : Network) : Prop where
  inv : Inv N e sk run key s
  election : ElectionAt s.store.toStore e.id e

theorem Live.step (hN : Nodes N K e sk) (hR : Run N e sk run key) {s : Network} (h : Live N e sk run key s) {ev : Event} (hq : Permitted K e ev) :
    Live N e sk run key (Network.step N s ev) := by
  have he : ElectionAt (Network.step N s ev).store.toStore e.id e := by
    obtain ⟨sg, hg⟩ := h.election
    exact ⟨sg, Network.extends_prefix (Network.sound_step h.inv.orderly.sound ev).nodup (Network.ledger_prefix N s ev) _ _ hg⟩
  exact ⟨h.inv.step hN hR hq (uniq_of_stored he), he⟩

theorem mem_ids_prefix {L L' : List SignedTx} (h : L <+: L') {i : Identifier} (hi : i ∈ L.map SignedTx.id) : i ∈ L'.map SignedTx.id :=
  (h.map _).subset hi

/-- A node does its duty: it reacts, and what it submits is delivered. -/
theorem Live.advance (hN : Nodes N K e sk) (hR : Run N e sk run key) {s : Network} (h : Live N e sk run key s) (rng : Rng) {T : List Identifier} {k : SecretKey} (hk : k ∈ K)
    {target : Identifier} (hD : Duty N e sk T k target) (hT : ∀ i ∈ T, i ∈ s.ledger.map SignedTx.id) :
    ∃ evs : List Event, (∀ ev ∈ evs, NodesOnly K ev) ∧ Live N e sk run key (evs.foldl (Network.step N) s) ∧
      target ∈ (evs.foldl (Network.step N) s).ledger.map SignedTx.id := by
  obtain ⟨m, x, hx, hxT, hall⟩ := Network.exists_last T (hD.ne_nil hN) hT
  have hxm := List.mem_of_getElem? hx
  obtain ⟨h1, h2⟩ := h.inv.trigger hD hxm hxT
  obtain ⟨l, hl, -⟩ := h.inv.orderly.reacts hN hR hk rng hxm h1 h2
  let ev1 : Event := .react k rng m s.ledger.length
  have hst : Network.step N s ev1 = { s with
      pending := s.pending ++ l.filter fun d => ((s.storeAt s.ledger.length).getTransaction d.id).isNone
      reacted := (k, m) :: s.reacted } := by
    have hs : s.storeAt s.ledger.length = MemStore.ofList s.ledger := by simp [Network.storeAt]
    have hl' : generateTransactions N rng k (s.storeAt s.ledger.length).toStore x = .ok l := by rw [hs]; exact hl
    have hx' : (s.ledger.take s.ledger.length)[m]? = some x := by simpa using hx
    simp only [ev1, Network.step, hx', hl']
  have hL1 := h.step hN hR (ev := ev1) (permitted_of_nodes hk)
  have hledger : (Network.step N s ev1).ledger = s.ledger := by rw [hst]
  rcases hL1.inv.duty k m (by rw [hst]; simp) T target hD x (by rw [hledger]; exact hx) hxT (by rw [hledger]; exact hall) with h3 | ⟨d, hd, hid, hdue⟩
  · exact ⟨[ev1], by simpa [NodesOnly, ev1] using hk, hL1, h3⟩
  · obtain ⟨i, hi⟩ := List.getElem?_of_mem hd
    refine ⟨[ev1, .deliver i], by simpa [NodesOnly, ev1] using hk, hL1.step hN hR (ev := .deliver i) trivial, ?_⟩
    show target ∈ (Network.step N (Network.step N s ev1) (.deliver i)).ledger.map SignedTx.id
    have hL2 := (hL1.step hN hR (ev := .deliver i) trivial)
    generalize Network.step N s ev1 = s1 at *
    by_cases hc : (s1.store.getTransaction d.id).isNone ∧ d.validate N.toEnv s1.store.toStore = .ok ()
    · have : Network.step N s1 (.deliver i) = { s1 with ledger := s1.ledger ++ [d], pending := s1.pending.eraseIdx i } := by
        simp only [Network.step, hi, if_pos hc]
      rw [this, ← hid]
      simp
    · have : Network.step N s1 (.deliver i) = { s1 with pending := s1.pending.eraseIdx i } := by
        simp only [Network.step, hi, if_neg hc]
      rw [this]
      have hval := due_valid hN hR (hL1.inv.orderly.view hL1.election) hdue
      rw [← hid, ← Network.get_isSome hL1.inv.orderly.sound.nodup]
      cases hg : s1.store.getTransaction d.id with
      | none => exact absurd ⟨by rw [hg]; rfl, hval⟩ hc
      | some y => show (s1.store.getTransaction d.id).isSome; rw [hg]; rfl

/-- … and several do. -/
theorem Live.advance_all (hN : Nodes N K e sk) (hR : Run N e sk run key) (rng : Rng) {T : List Identifier} (l : List (SecretKey × Identifier))
    (hl : ∀ p ∈ l, p.1 ∈ K ∧ Duty N e sk T p.1 p.2) {s : Network} (h : Live N e sk run key s) (hT : ∀ i ∈ T, i ∈ s.ledger.map SignedTx.id) :
    ∃ evs : List Event, (∀ ev ∈ evs, NodesOnly K ev) ∧ Live N e sk run key (evs.foldl (Network.step N) s) ∧
      ∀ p ∈ l, p.2 ∈ (evs.foldl (Network.step N) s).ledger.map SignedTx.id := by
  induction l generalizing s with
  | nil => exact ⟨[], by simp, h, by simp⟩
  | cons p l ih =>
    obtain ⟨hp1, hp2⟩ := hl p (by simp)
    obtain ⟨evs, he1, he2, he3⟩ := h.advance hN hR rng hp1 hp2 hT
    obtain ⟨evs', hf1, hf2, hf3⟩ := ih (fun q hq => hl q (by simp [hq])) he2 fun i hi => mem_ids_prefix (steps_prefix N evs s) (hT i hi)
    refine ⟨evs ++ evs', ?_, by rw [List.foldl_append]; exact hf2, ?_⟩
    · intro ev hev
      rcases List.mem_append.1 hev with h1 | h1
      · exact he1 ev h1
      · exact hf1 ev h1
    · rw [List.foldl_append]
      intro q hq
      rcases List.mem_cons.1 hq with rfl | hq
      · exact mem_ids_prefix (steps_prefix N evs' _) he3
      · exact hf3 q hq

theorem Live.complete (hN : Nodes N K e sk) (hR : Run N e sk run key) (hK : AllRun N K e sk) (rng : Rng) {s : Network} (h : Live N e sk run key s) :
    ∃ evs : List Event, (∀ ev ∈ evs, NodesOnly K ev) ∧ Live N e sk run key (evs.foldl (Network.step N) s) ∧ Complete e (evs.foldl (Network.step N) s) := by
  have hK' : ∀ tr ∈ e.getFullTrustees, sk tr.index ∈ K := fun tr htr => by
    obtain ⟨tr0, h0, h1, -⟩ := full_trustee htr
    rw [← h1]
    exact hK.trustees tr0 h0
  have hid : e.id ∈ s.ledger.map SignedTx.id := by
    obtain ⟨sg, hg⟩ := h.election
    rw [← Network.get_isSome h.inv.orderly.sound.nodup]
    show (s.store.getTransaction e.id).isSome
    have hg : s.store.getTransaction e.id = _ := hg
    rw [hg]
    rfl
  obtain ⟨k, hk, hka⟩ := hK.authority
  obtain ⟨evs1, a1, b1, c1⟩ := h.advance_all hN hR rng (T := [e.id]) (e.getFullTrustees.map fun tr => (sk tr.index, slot e .keyGenCommitment tr))
    (by intro p hp; obtain ⟨tr, htr, rfl⟩ := List.mem_map.1 hp; exact ⟨hK' tr htr, .commitment htr⟩) (by simpa using hid)
  have c1' : ∀ tr ∈ e.getFullTrustees, slot e .keyGenCommitment tr ∈ (evs1.foldl (Network.step N) s).ledger.map SignedTx.id := fun tr htr => c1 _ (List.mem_map_of_mem htr)
  generalize hs1 : evs1.foldl (Network.step N) s = s1 at *
  obtain ⟨evs2, a2, b2, c2⟩ := b1.advance_all hN hR rng (T := e.getFullTrustees.map (slot e .keyGenCommitment)) (e.getFullTrustees.map fun tr => (sk tr.index, slot e .keyGenShare tr))
    (by intro p hp; obtain ⟨tr, htr, rfl⟩ := List.mem_map.1 hp; exact ⟨hK' tr htr, .share htr⟩) (fun i hi => by obtain ⟨tr', h3, rfl⟩ := List.mem_map.1 hi; exact c1' tr' h3)
  have c2' : ∀ tr ∈ e.getFullTrustees, slot e .keyGenShare tr ∈ (evs2.foldl (Network.step N) s1).ledger.map SignedTx.id := fun tr htr => c2 _ (List.mem_map_of_mem htr)
  have p2 := steps_prefix N evs2 s1
  generalize hs2 : evs2.foldl (Network.step N) s1 = s2 at *
  obtain ⟨evs3, a3, b3, c3⟩ := b2.advance_all hN hR rng (T := e.getFullTrustees.map (slot e .keyGenShare)) (e.getFullTrustees.map fun tr => (sk tr.index, slot e .keyGenPublicKey tr))
    (by intro p hp; obtain ⟨tr, htr, rfl⟩ := List.mem_map.1 hp; exact ⟨hK' tr htr, .publicKey htr⟩) (fun i hi => by obtain ⟨tr', h3, rfl⟩ := List.mem_map.1 hi; exact c2' tr' h3)
  have c3' : ∀ tr ∈ e.getFullTrustees, slot e .keyGenPublicKey tr ∈ (evs3.foldl (Network.step N) s2).ledger.map SignedTx.id := fun tr htr => c3 _ (List.mem_map_of_mem htr)
  have p3 := steps_prefix N evs3 s2
  generalize hs3 : evs3.foldl (Network.step N) s2 = s3 at *
  obtain ⟨evs4, a4, b4, c4⟩ := b3.advance hN hR rng hk (.encryptionKey hka) (fun i hi => by obtain ⟨tr', h3, rfl⟩ := List.mem_map.1 hi; exact c3' tr' h3)
  have p4 := steps_prefix N evs4 s3
  generalize hs4 : evs4.foldl (Network.step N) s3 = s4 at *
  refine ⟨evs1 ++ evs2 ++ evs3 ++ evs4, ?_, ?_⟩
  · intro ev hev
    simp only [List.mem_append] at hev
    rcases hev with ((h1 | h1) | h1) | h1
    · exact a1 ev h1
    · exact a2 ev h1
    · exact a3 ev h1
    · exact a4 ev h1
  · rw [List.foldl_append, List.foldl_append, List.foldl_append, hs1, hs2, hs3, hs4]
    exact ⟨b4, fun tr htr => mem_ids_prefix (p2.trans (p3.trans p4)) (c1' tr htr), fun tr htr => mem_ids_prefix (p3.trans p4) (c2' tr htr), fun tr htr => mem_ids_prefix p4 (c3' tr htr), c4⟩

/-- The honest run of the key generation, from the laws of threshold encryption. -/
theorem exists_run {fits : Bytes → Prop} (hF : ThresholdCorrect N fits) (hT : ProperTrustees e) (sk : UInt8 → SecretKey) : ∃ run key, Run N e sk run key := by
  have hT' := sorted_proper hT
  obtain ⟨run, key, hrun, hkey, -⟩ := hF (idxs (sorted e)) e.trusteesThreshold.toNat (seedOf N e sk) (idxs_nodup hT') (idxs_bounds hT') hT.threshold
    (by rw [idxs_length]; exact hT'.enough)
  exact ⟨run, key, hrun, hkey⟩

/-- Every run of honest nodes after which the election is stored. -/
theorem live_run (hN : Nodes N K e sk) (hR : Run N e sk run key) (evs : List Event) (hq : ∀ ev ∈ evs, Permitted K e ev)
    (he : ElectionAt (Network.run N evs).store.toStore e.id e) : Live N e sk run key (Network.run N evs) := by
  have hs := (Network.sound_run N evs)
  have hw : e.id = ⟨e.id.electionId, .election, zero16⟩ := by
    obtain ⟨sg, hg⟩ := he
    obtain ⟨m0, -, -, hv, -⟩ := hs.whole.accepted hg
    exact (ElectionTx.validateTx_ok.1 (SignedTx.validate_ok.1 hv).2.2).1
  exact ⟨inv_run hN hR hw evs hq (uniq_of_stored he), he⟩

end Setup
end CB
