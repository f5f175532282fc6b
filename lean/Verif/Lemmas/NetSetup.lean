import Verif.Lemmas.NetEmit
import Verif.Props.NodeCrash
/-!
# The invariant of networks in which honest nodes set an election up
-/

namespace CB
open Spec Server

namespace Setup

variable {N : NodeEnv} {K : List SecretKey} {e : ElectionTx} {sk : UInt8 → SecretKey} {run : KeyGenRun N} {key : ElGamalKey}

/-- what is honest on a ledger list -/
structure Orderly (N : NodeEnv) (e : ElectionTx) (sk : UInt8 → SecretKey) (run : KeyGenRun N) (key : ElGamalKey) (L : List SignedTx) : Prop where
  sound : Network.Sound N.toEnv L
  uniq : ∀ x, ElectionAt (MemStore.ofList L).toStore e.id x → x = e
  wf : e.id = ⟨e.id.electionId, .election, zero16⟩
  honest : ∀ t ∈ L, t.id.electionId = e.id.electionId → Honest N e sk run key t
  order : ∀ v, ∀ t ∈ L.take v, t.id.electionId = e.id.electionId → kindOf t = .keyGenShare → ∀ tr ∈ e.getFullTrustees, slot e .keyGenCommitment tr ∈ (L.take v).map SignedTx.id

theorem filled_iff {L : List SignedTx} (h : (L.map SignedTx.id).Nodup) {ty : TxType} :
    Filled e (MemStore.ofList L).toStore ty ↔ ∀ tr ∈ e.getFullTrustees, slot e ty tr ∈ L.map SignedTx.id :=
  forall_congr' fun tr => imp_congr_right fun _ => by
    rw [← Network.get_isSome h, Option.isSome_iff_exists]
    rfl

theorem Orderly.take (h : Orderly N e sk run key L) (v : Nat) : Orderly N e sk run key (L.take v) where
  sound := ⟨fun w => by rw [List.take_take]; exact h.sound.ledger _, Network.nodup_take h.sound.nodup v⟩
  uniq x hx := by
    obtain ⟨sg, hx⟩ := hx
    exact h.uniq x ⟨sg, Network.extends_prefix h.sound.nodup (List.take_prefix v L) _ _ hx⟩
  wf := h.wf
  honest t ht := h.honest t (List.mem_of_mem_take ht)
  order w t ht := by rw [List.take_take] at ht ⊢; exact h.order _ t ht

theorem Orderly.view (h : Orderly N e sk run key L) (he : ElectionAt (MemStore.ofList L).toStore e.id e) : View N e sk run key (MemStore.ofList L).toStore where
  lawful := h.sound.whole.lawful
  typed := h.sound.whole.replay.typedStore
  election := he
  honest t ht := h.honest t ((Network.stored_iff_mem h.sound.nodup t).1 ht)
  order t ht h1 h2 := by
    rw [filled_iff h.sound.nodup]
    have := h.order L.length t (by simpa using (Network.stored_iff_mem h.sound.nodup t).1 ht) h1 h2
    simpa using this

/-- The election a stored transaction names, if it has `e`'s election id, is `e`. -/
theorem Orderly.names (h : Orderly N e sk run key L) {x : SignedTx} (hx : x ∈ L) (hid : (electionOf x).electionId = e.id.electionId) :
    electionOf x = e.id ∧ ElectionAt (MemStore.ofList L).toStore e.id e := by
  have hin : InStore (MemStore.ofList L).toStore x := (Network.stored_iff_mem h.sound.nodup x).2 hx
  obtain ⟨e2, he2⟩ := election_stored h.sound.whole hin
  have h1 := electionAt_id h.sound.whole.lawful he2
  obtain ⟨sg, hg⟩ := he2
  obtain ⟨m0, -, -, hv, -⟩ := h.sound.whole.accepted hg
  have h2 := (ElectionTx.validateTx_ok.1 (SignedTx.validate_ok.1 hv).2.2).1
  have h3 : electionOf x = e.id := by
    rw [← h1, h2, h1, hid, ← h.wf]
  rw [h3] at hg
  have := h.uniq e2 ⟨sg, hg⟩
  subst this
  exact ⟨h3, sg, hg⟩

/-- honest set-up transactions name `e` -/
theorem honest_names {x : SignedTx} (hk : SetupKind (kindOf x)) (h : Honest N e sk run key x) : electionOf x = e.id := by
  cases x with
  | keyGenCommitment s => obtain ⟨tr, _, rfl⟩ := h; rfl
  | keyGenShare s => obtain ⟨tr, _, p, _, rfl⟩ := h; rfl
  | keyGenPublicKey s => obtain ⟨tr, _, rfl⟩ := h; rfl
  | encryptionKey s => obtain ⟨k, hs⟩ := h; simp only [electionOf, hs]; rfl
  | _ => simp [SetupKind, kindOf] at hk

/-- What nodes add under the election's name is honest. -/
theorem Orderly.reaction (h : Orderly N e sk run key L) (hN : Nodes N K e sk) (hR : Run N e sk run key) {k : SecretKey} (hk : k ∈ K) {rng : Rng} {x : SignedTx} (hx : x ∈ L)
    {l : List SignedTx} (hl : generateTransactions N rng k (MemStore.ofList L).toStore x = .ok l) {d : SignedTx} (hd : d ∈ l) (hf : d.id.electionId = e.id.electionId) :
    ElectionAt (MemStore.ofList L).toStore e.id e ∧ Honest N e sk run key d ∧
      (kindOf d = .keyGenShare → ∀ tr ∈ e.getFullTrustees, slot e .keyGenCommitment tr ∈ L.map SignedTx.id) := by
  have hin : InStore (MemStore.ofList L).toStore x := (Network.stored_iff_mem h.sound.nodup x).2 hx
  obtain ⟨-, h1, h2⟩ := emitted h.sound.whole.lawful hin hl hd
  obtain ⟨h3, he⟩ := h.names hx (h1 ▸ hf)
  have hV := h.view he
  refine ⟨he, ?_⟩
  cases x with
  | election s =>
    have : s.tx = e := h.uniq _ ⟨s.sig, by have : s.tx.id = e.id := h3; rw [← this]; exact hin⟩
    obtain ⟨s, sig⟩ := s
    simp only at this
    subst this
    obtain ⟨l', hl', h4, -⟩ := react_election hN rng hk (MemStore.ofList L).toStore sig
    rw [hl'] at hl
    cases hl
    obtain ⟨tr, htr, -, rfl⟩ := h4 d hd
    exact ⟨⟨tr, htr, rfl⟩, by simp [kindOf]⟩
  | keyGenCommitment s =>
    obtain ⟨l', hl', h4, -⟩ := react_commitment hN hR hV rng hk (t := s.tx) (sig := s.sig) h3
    have hl : _ = Res.ok l := hl
    rw [hl'] at hl
    cases hl
    obtain ⟨hF, tr, htr, -, p, hp, rfl⟩ := h4 d hd
    exact ⟨⟨tr, htr, p, hp, rfl⟩, fun _ => (filled_iff h.sound.nodup).1 hF⟩
  | keyGenShare s =>
    obtain ⟨l', hl', h4, -⟩ := react_share hN hR hV rng hk (t := s.tx) (sig := s.sig) h3
    have hl : _ = Res.ok l := hl
    rw [hl'] at hl
    cases hl
    obtain ⟨-, tr, htr, -, rfl⟩ := h4 d hd
    exact ⟨⟨tr, htr, rfl⟩, by simp [kindOf]⟩
  | keyGenPublicKey s =>
    obtain ⟨l', hl', h4, -⟩ := react_publicKey hN hV rng k (t := s.tx) (sig := s.sig) h3
    have hl : _ = Res.ok l := hl
    rw [hl'] at hl
    cases hl
    obtain ⟨-, -, s', rfl, hs, -⟩ := h4 d hd
    exact ⟨⟨_, hs⟩, by simp [kindOf]⟩
  | votingEnd s => cases d <;> simp [follows, kindOf] at h2 <;> simp [Honest, kindOf]
  | mix s => cases d <;> simp [follows, kindOf] at h2 <;> simp [Honest, kindOf]
  | partialDecryption s =>
    cases d <;> simp [follows, kindOf] at h2
    simp [Honest, kindOf]
  | encryptionKey s => cases d <;> simp [follows, kindOf] at h2
  | vote s => cases d <;> simp [follows, kindOf] at h2
  | decryption s => cases d <;> simp [follows, kindOf] at h2

/-- Once the transactions in the slots `T` are stored, the node with key `k` sees to it that the slot `target` gets filled. -/
inductive Duty (N : NodeEnv) (e : ElectionTx) (sk : UInt8 → SecretKey) : List Identifier → SecretKey → Identifier → Prop
  | commitment {tr : Trustee} (h : tr ∈ e.getFullTrustees) : Duty N e sk [e.id] (sk tr.index) (slot e .keyGenCommitment tr)
  | share {tr : Trustee} (h : tr ∈ e.getFullTrustees) : Duty N e sk (e.getFullTrustees.map (slot e .keyGenCommitment)) (sk tr.index) (slot e .keyGenShare tr)
  | publicKey {tr : Trustee} (h : tr ∈ e.getFullTrustees) : Duty N e sk (e.getFullTrustees.map (slot e .keyGenShare)) (sk tr.index) (slot e .keyGenPublicKey tr)
  | encryptionKey {k : SecretKey} (h : N.edPublic k = e.authorityPublic) :
    Duty N e sk (e.getFullTrustees.map (slot e .keyGenPublicKey)) k (singleId e.id .encryptionKey)

/-- a stored transaction in a slot has the slot's kind -/
theorem Orderly.in_slot (h : Orderly N e sk run key L) {x : SignedTx} (hx : x ∈ L) {ty : TxType} {tr : Trustee} (hid : x.id = slot e ty tr) : kindOf x = ty := by
  have hin : InStore (MemStore.ofList L).toStore x := (Network.stored_iff_mem h.sound.nodup x).2 hx
  have := h.sound.whole.replay.typedStore x hin
  rw [← this, hid]
  rfl

/-- Reacting to a set-up transaction of the election never fails. -/
theorem Orderly.reacts (h : Orderly N e sk run key L) (hN : Nodes N K e sk) (hR : Run N e sk run key) {k : SecretKey} (hk : k ∈ K) (rng : Rng) {x : SignedTx} (hx : x ∈ L)
    (hkind : kindOf x = .election ∨ SetupKind (kindOf x)) (hf : x.id.electionId = e.id.electionId) :
    ∃ l, generateTransactions N rng k (MemStore.ofList L).toStore x = .ok l ∧
      ∀ T target, Duty N e sk T k target → x.id ∈ T → (∀ i ∈ T, i ∈ L.map SignedTx.id) → ∃ d ∈ l, d.id = target ∧ Due N e sk run key (MemStore.ofList L).toStore d := by
  have hin : InStore (MemStore.ofList L).toStore x := (Network.stored_iff_mem h.sound.nodup x).2 hx
  have helec : (electionOf x).electionId = e.id.electionId := by
    rcases hkind with hkind | hkind
    · cases x with
      | election s => exact hf
      | _ => simp [kindOf] at hkind
    · rw [honest_names hkind (h.honest x hx hf)]
  obtain ⟨h3, he⟩ := h.names hx helec
  have hV := h.view he
  have hslots : ∀ ty tr, x.id = slot e ty tr → kindOf x = ty := fun ty tr => h.in_slot hx
  cases x with
  | election s =>
    have : s.tx = e := h.uniq _ ⟨s.sig, by have : s.tx.id = e.id := h3; rw [← this]; exact hin⟩
    obtain ⟨s, sig⟩ := s
    simp only at this
    subst this
    obtain ⟨l', hl', h4, h5⟩ := react_election hN rng hk (MemStore.ofList L).toStore sig
    refine ⟨l', hl', fun T target hD hT hall => ?_⟩
    cases hD with
    | commitment htr =>
      rename_i tr
      obtain ⟨d, hd, hid⟩ := h5 tr htr rfl
      obtain ⟨tr', htr', -, rfl⟩ := h4 d hd
      exact ⟨_, hd, hid, by simp [kindOf], tr', htr', rfl⟩
    | share htr => obtain ⟨tr', -, hid⟩ := List.mem_map.1 hT; have := hslots _ _ hid.symm; simp [kindOf] at this
    | publicKey htr => obtain ⟨tr', -, hid⟩ := List.mem_map.1 hT; have := hslots _ _ hid.symm; simp [kindOf] at this
    | encryptionKey hk' => obtain ⟨tr', -, hid⟩ := List.mem_map.1 hT; have := hslots _ _ hid.symm; simp [kindOf] at this
  | keyGenCommitment s =>
    obtain ⟨l', hl', h4, h5⟩ := react_commitment hN hR hV rng hk (t := s.tx) (sig := s.sig) h3
    refine ⟨l', hl', fun T target hD hT hall => ?_⟩
    cases hD with
    | commitment htr =>
      have h1 := h.sound.whole.replay.typedStore _ hin
      rw [List.mem_singleton.1 hT, h.wf] at h1
      simp [kindOf] at h1
    | share htr =>
      rename_i tr
      obtain ⟨d, hd, hid⟩ := h5 ((filled_iff h.sound.nodup).2 fun tr htr => hall _ (List.mem_map_of_mem htr)) tr htr rfl
      obtain ⟨-, tr', htr', -, p, hp, rfl⟩ := h4 d hd
      exact ⟨_, hd, hid, by simp [kindOf], tr', htr', p, hp, rfl⟩
    | publicKey htr => obtain ⟨tr', -, hid⟩ := List.mem_map.1 hT; have := hslots _ _ hid.symm; simp [kindOf] at this
    | encryptionKey hk' => obtain ⟨tr', -, hid⟩ := List.mem_map.1 hT; have := hslots _ _ hid.symm; simp [kindOf] at this
  | keyGenShare s =>
    obtain ⟨l', hl', h4, h5⟩ := react_share hN hR hV rng hk (t := s.tx) (sig := s.sig) h3
    refine ⟨l', hl', fun T target hD hT hall => ?_⟩
    cases hD with
    | commitment htr =>
      have h1 := h.sound.whole.replay.typedStore _ hin
      rw [List.mem_singleton.1 hT, h.wf] at h1
      simp [kindOf] at h1
    | publicKey htr =>
      rename_i tr
      obtain ⟨d, hd, hid⟩ := h5 ((filled_iff h.sound.nodup).2 fun tr htr => hall _ (List.mem_map_of_mem htr)) tr htr rfl
      obtain ⟨-, tr', htr', -, rfl⟩ := h4 d hd
      exact ⟨_, hd, hid, by simp [kindOf], tr', htr', rfl⟩
    | share htr => obtain ⟨tr', -, hid⟩ := List.mem_map.1 hT; have := hslots _ _ hid.symm; simp [kindOf] at this
    | encryptionKey hk' => obtain ⟨tr', -, hid⟩ := List.mem_map.1 hT; have := hslots _ _ hid.symm; simp [kindOf] at this
  | keyGenPublicKey s =>
    obtain ⟨l', hl', h4, h5⟩ := react_publicKey hN hV rng k (t := s.tx) (sig := s.sig) h3
    refine ⟨l', hl', fun T target hD hT hall => ?_⟩
    cases hD with
    | commitment htr =>
      have h1 := h.sound.whole.replay.typedStore _ hin
      rw [List.mem_singleton.1 hT, h.wf] at h1
      simp [kindOf] at h1
    | encryptionKey hk' =>
      have hF := (filled_iff h.sound.nodup).2 fun tr htr => hall _ (List.mem_map_of_mem htr)
      obtain ⟨d, hd⟩ := List.exists_mem_of_ne_nil _ (h5 hF hk')
      obtain ⟨ha, -, s', rfl, hs, hsig⟩ := h4 d hd
      obtain ⟨tr, -, hs2⟩ := h.honest _ hx hf
      have hkey : s.tx.publicKey = key := by rw [hs2]; rfl
      rw [hkey] at hs
      refine ⟨_, hd, ?_, hs, ?_, hF⟩
      · show s'.tx.id = _
        rw [hs]
        rfl
      · rw [hsig, ← ha]
        exact hN.sign _ _
    | share htr => obtain ⟨tr', -, hid⟩ := List.mem_map.1 hT; have := hslots _ _ hid.symm; simp [kindOf] at this
    | publicKey htr => obtain ⟨tr', -, hid⟩ := List.mem_map.1 hT; have := hslots _ _ hid.symm; simp [kindOf] at this
  | encryptionKey s =>
    refine ⟨[], rfl, fun T target hD hT hall => ?_⟩
    cases hD with
    | commitment htr =>
      have h1 := h.sound.whole.replay.typedStore _ hin
      rw [List.mem_singleton.1 hT, h.wf] at h1
      simp [kindOf] at h1
    | share htr => obtain ⟨tr', -, hid⟩ := List.mem_map.1 hT; have := hslots _ _ hid.symm; simp [kindOf] at this
    | publicKey htr => obtain ⟨tr', -, hid⟩ := List.mem_map.1 hT; have := hslots _ _ hid.symm; simp [kindOf] at this
    | encryptionKey hk' => obtain ⟨tr', -, hid⟩ := List.mem_map.1 hT; have := hslots _ _ hid.symm; simp [kindOf] at this
  | _ => simp [kindOf, SetupKind] at hkind

/-! ## The invariant -/

structure Inv (N : NodeEnv) (e : ElectionTx) (sk : UInt8 → SecretKey) (run : KeyGenRun N) (key : ElGamalKey) (s : Network) : Prop where
  orderly : Orderly N e sk run key s.ledger
  pending : ∀ t ∈ s.pending, t.id.electionId = e.id.electionId → Honest N e sk run key t ∧
    (SetupKind (kindOf t) → ElectionAt s.store.toStore e.id e) ∧
    (kindOf t = .keyGenShare → ∀ tr ∈ e.getFullTrustees, slot e .keyGenCommitment tr ∈ s.ledger.map SignedTx.id)
  bound : ∀ p ∈ s.reacted, p.2 < s.ledger.length
  duty : ∀ k m, (k, m) ∈ s.reacted → ∀ T target, Duty N e sk T k target → ∀ x, s.ledger[m]? = some x → x.id ∈ T →
    (∀ i ∈ T, i ∈ (s.ledger.take (m + 1)).map SignedTx.id) →
    target ∈ s.ledger.map SignedTx.id ∨ ∃ d ∈ s.pending, d.id = target ∧ Due N e sk run key s.store.toStore d

theorem Due.mono {L L' : List SignedTx} (hn : (L'.map SignedTx.id).Nodup) (hp : L <+: L') {d : SignedTx}
    (h : Due N e sk run key (MemStore.ofList L).toStore d) : Due N e sk run key (MemStore.ofList L').toStore d := by
  cases d with
  | encryptionKey s => exact ⟨h.1, h.2.1, fun tr htr => (h.2.2 tr htr).imp fun x hx => Network.extends_prefix hn hp _ _ hx⟩
  | _ => exact h

theorem Due.setup {S : Store} {d : SignedTx} (h : Due N e sk run key S d) : SetupKind (kindOf d) ∧ d.id.electionId = e.id.electionId := by
  cases d with
  | keyGenCommitment s => obtain ⟨-, tr, -, rfl⟩ := h; exact ⟨by simp [SetupKind, kindOf], rfl⟩
  | keyGenShare s => obtain ⟨-, tr, -, p, -, rfl⟩ := h; exact ⟨by simp [SetupKind, kindOf], rfl⟩
  | keyGenPublicKey s => obtain ⟨-, tr, -, rfl⟩ := h; exact ⟨by simp [SetupKind, kindOf], rfl⟩
  | encryptionKey s =>
    refine ⟨by simp [SetupKind, kindOf], ?_⟩
    show s.tx.id.electionId = _
    rw [h.1]
    rfl
  | _ => exact absurd h.1 (by simp [kindOf])

theorem honest_other {t : SignedTx} (h : ¬ SetupKind (kindOf t)) : Honest N e sk run key t := by
  cases t <;> simp [SetupKind, kindOf] at h <;> trivial

theorem Inv.step (hN : Nodes N K e sk) (hR : Run N e sk run key) {s : Network} (h : Inv N e sk run key s) {ev : Event} (hq : Permitted K e ev)
    (hu : ∀ x, ElectionAt (Network.step N s ev).store.toStore e.id x → x = e) : Inv N e sk run key (Network.step N s ev) := by
  have hsound := Network.sound_step h.orderly.sound ev
  cases ev with
  | submit t =>
    refine ⟨h.orderly, ?_, h.bound, ?_⟩
    · intro t' ht' hf
      rcases List.mem_append.1 ht' with h1 | h1
      · exact h.pending t' h1 hf
      · rw [List.mem_singleton] at h1
        subst h1
        have hnk := hq hf
        exact ⟨honest_other hnk, fun hk => absurd hk hnk, fun hk => absurd (by rw [hk]; simp [SetupKind]) hnk⟩
    · intro k m hkm T target hD x hx hT hall
      rcases h.duty k m hkm T target hD x hx hT hall with h1 | ⟨d, hd, h2, h3⟩
      · exact .inl h1
      · exact .inr ⟨d, List.mem_append_left _ hd, h2, h3⟩
  | deliver i =>
    cases hi : s.pending[i]? with
    | none =>
      have : Network.step N s (.deliver i) = s := by simp only [Network.step, hi]
      rw [this]
      exact h
    | some t =>
      have ht : t ∈ s.pending := List.mem_of_getElem? hi
      by_cases hc : (s.store.getTransaction t.id).isNone ∧ t.validate N.toEnv s.store.toStore = .ok ()
      · have hs : Network.step N s (.deliver i) = { s with ledger := s.ledger ++ [t], pending := s.pending.eraseIdx i } := by
          simp only [Network.step, hi, if_pos hc]
        rw [hs] at hsound hu ⊢
        have hpre : s.ledger <+: s.ledger ++ [t] := List.prefix_append _ _
        have hids : ∀ {x}, x ∈ s.ledger.map SignedTx.id → x ∈ (s.ledger ++ [t]).map SignedTx.id := fun hx => by
          rw [List.map_append]; exact List.mem_append_left _ hx
        refine ⟨⟨hsound, hu, h.orderly.wf, ?_, ?_⟩, ?_, ?_, ?_⟩
        · intro t' ht' hf
          rcases List.mem_append.1 ht' with h1 | h1
          · exact h.orderly.honest t' h1 hf
          · rw [List.mem_singleton] at h1
            subst h1
            exact (h.pending _ ht hf).1
        · intro v t' ht' hf hk tr htr
          by_cases hv : v ≤ s.ledger.length
          · simp only [List.take_append_of_le_length hv] at ht' ⊢
            exact h.orderly.order v t' ht' hf hk tr htr
          · rw [List.take_of_length_le (by simp; omega)] at ht' ⊢
            apply hids
            rcases List.mem_append.1 ht' with h1 | h1
            · have := h.orderly.order s.ledger.length t' (by simpa using h1) hf hk tr htr
              simpa using this
            · rw [List.mem_singleton] at h1
              subst h1
              exact (h.pending _ ht hf).2.2 hk tr htr
        · intro t' ht' hf
          obtain ⟨h1, h2, h3⟩ := h.pending t' (List.mem_of_mem_eraseIdx ht') hf
          exact ⟨h1, fun hk => by
            obtain ⟨sg, hg⟩ := h2 hk
            exact ⟨sg, Network.extends_prefix hsound.nodup hpre _ _ hg⟩, fun hk tr htr => hids (h3 hk tr htr)⟩
        · intro p hp
          have := h.bound p hp
          simp only [List.length_append, List.length_singleton]
          omega
        · intro k m hkm T target hD x hx hT hall
          have hm : m < s.ledger.length := h.bound _ hkm
          simp only at hx hall
          rw [List.getElem?_append_left hm] at hx
          rw [List.take_append_of_le_length (by omega)] at hall
          rcases h.duty k m hkm T target hD x hx hT hall with h1 | ⟨d, hd, h2, h3⟩
          · exact .inl (hids h1)
          · rcases Network.mem_eraseIdx_or hi hd with rfl | hd'
            · left
              rw [← h2]
              simp
            · exact .inr ⟨d, hd', h2, h3.mono hsound.nodup hpre⟩
      · have hs : Network.step N s (.deliver i) = { s with pending := s.pending.eraseIdx i } := by
          simp only [Network.step, hi, if_neg hc]
        rw [hs] at hsound hu ⊢
        refine ⟨h.orderly, fun t' ht' => h.pending t' (List.mem_of_mem_eraseIdx ht'), h.bound, ?_⟩
        intro k m hkm T target hD x hx hT hall
        rcases h.duty k m hkm T target hD x hx hT hall with h1 | ⟨d, hd, h2, h3⟩
        · exact .inl h1
        · rcases Network.mem_eraseIdx_or hi hd with rfl | hd'
          · left
            obtain ⟨hk, hf⟩ := h3.setup
            have hV := h.orderly.view ((h.pending d hd hf).2.1 hk)
            have hval := due_valid hN hR hV h3
            rw [← h2]
            rw [← Network.get_isSome h.orderly.sound.nodup]
            cases hg : s.store.getTransaction d.id with
            | none => exact absurd ⟨by rw [hg]; rfl, hval⟩ hc
            | some y => show (s.store.getTransaction d.id).isSome; rw [hg]; rfl
          · exact .inr ⟨d, hd', h2, h3⟩
  | react k rng m v =>
    cases hx : (s.ledger.take v)[m]? with
    | none =>
      have : Network.step N s (.react k rng m v) = s := by simp only [Network.step, hx]
      rw [this]
      exact h
    | some x =>
      have hxm : x ∈ s.ledger.take v := List.mem_of_getElem? hx
      have hlm : s.ledger[m]? = some x ∧ m < v := by
        rw [List.getElem?_take] at hx
        split at hx
        · rename_i hlt; exact ⟨hx, hlt⟩
        · cases hx
      have hV := h.orderly.take v
      cases hg : generateTransactions N rng k (s.storeAt v).toStore x with
      | ok l =>
        have hs : Network.step N s (.react k rng m v) = { s with
            pending := s.pending ++ l.filter fun d => ((s.storeAt v).getTransaction d.id).isNone
            reacted := (k, m) :: s.reacted } := by
          simp only [Network.step, hx, hg]
        rw [hs] at hsound hu ⊢
        have hext : Extends (s.storeAt v) s.store := Network.extends_prefix h.orderly.sound.nodup (List.take_prefix v s.ledger)
        have hids : ∀ {i}, i ∈ (s.ledger.take v).map SignedTx.id → i ∈ s.ledger.map SignedTx.id := fun hi => by
          rw [List.map_take] at hi
          exact List.mem_of_mem_take hi
        refine ⟨h.orderly, ?_, ?_, ?_⟩
        · intro t ht hf
          rcases List.mem_append.1 ht with h1 | h1
          · exact h.pending t h1 hf
          · obtain ⟨⟨sg, he⟩, h2, h3⟩ := hV.reaction hN hR hq hxm hg (List.mem_of_mem_filter h1) hf
            exact ⟨h2, fun _ => ⟨sg, hext _ _ he⟩, fun hk tr htr => hids (h3 hk tr htr)⟩
        · intro p hp
          rcases List.mem_cons.1 hp with rfl | hp
          · exact (List.getElem?_eq_some_iff.1 hlm.1).1
          · exact h.bound p hp
        · intro k' m' hkm T target hD y hy hT hall
          have hold : (k', m') ∈ s.reacted → target ∈ s.ledger.map SignedTx.id ∨ ∃ d ∈ s.pending ++ l.filter (fun d => ((s.storeAt v).getTransaction d.id).isNone),
              d.id = target ∧ Due N e sk run key s.store.toStore d := by
            intro hkm
            rcases h.duty k' m' hkm T target hD y hy hT hall with h1 | ⟨d, hd, h2, h3⟩
            · exact .inl h1
            · exact .inr ⟨d, List.mem_append_left _ hd, h2, h3⟩
          rcases List.mem_cons.1 hkm with heq | hkm
          · cases heq
            have hxy : x = y := by
              have := hlm.1.symm.trans hy
              exact Option.some.inj this
            subst hxy
            have hkind : (kindOf x = .election ∨ SetupKind (kindOf x)) ∧ x.id.electionId = e.id.electionId := by
              have hin := (Network.stored_iff_mem hV.sound.nodup x).2 hxm
              have hty := hV.sound.whole.replay.typedStore x hin
              cases hD with
              | commitment htr =>
                rw [List.mem_singleton] at hT
                rw [hT] at hty ⊢
                refine ⟨.inl ?_, rfl⟩
                rw [← hty, h.orderly.wf]
              | share htr =>
                obtain ⟨tr', -, hid⟩ := List.mem_map.1 hT
                rw [← hid] at hty ⊢
                exact ⟨.inr (by rw [← hty]; simp [SetupKind, slot, Identifier.new]), rfl⟩
              | publicKey htr =>
                obtain ⟨tr', -, hid⟩ := List.mem_map.1 hT
                rw [← hid] at hty ⊢
                exact ⟨.inr (by rw [← hty]; simp [SetupKind, slot, Identifier.new]), rfl⟩
              | encryptionKey hk' =>
                obtain ⟨tr', -, hid⟩ := List.mem_map.1 hT
                rw [← hid] at hty ⊢
                exact ⟨.inr (by rw [← hty]; simp [SetupKind, slot, Identifier.new]), rfl⟩
            obtain ⟨l', hl', hduty⟩ := hV.reacts hN hR hq rng hxm hkind.1 hkind.2
            have hg : _ = Res.ok l := hg
            have hll : l' = l := by
              have := hl'.symm.trans hg
              exact Res.ok.inj this
            subst hll
            obtain ⟨d, hd, hid, hdue⟩ := hduty T target hD hT fun i hi => by
              have := hall i hi
              rw [List.map_take] at this ⊢
              exact List.mem_of_mem_take (i := m + 1) (by rw [List.take_take, Nat.min_eq_left (by omega)]; exact this)
            cases hst : (s.storeAt v).getTransaction d.id with
            | none => exact .inr ⟨d, List.mem_append_right _ (List.mem_filter.2 ⟨hd, by rw [hst]; rfl⟩), hid, hdue.mono h.orderly.sound.nodup (List.take_prefix v s.ledger)⟩
            | some y =>
              left
              rw [← hid]
              apply hids
              rw [← Network.get_isSome hV.sound.nodup]
              show ((s.storeAt v).getTransaction d.id).isSome
              rw [hst]
              rfl
          · exact hold hkm
      | err er =>
        have : Network.step N s (.react k rng m v) = s := by simp only [Network.step, hx, hg]
        rw [this]
        exact h
      | panic p =>
        have : Network.step N s (.react k rng m v) = s := by simp only [Network.step, hx, hg]
        rw [this]
        exact h

theorem Inv.init (hw : e.id = ⟨e.id.electionId, .election, zero16⟩) : Inv N e sk run key Network.empty where
  orderly := { sound := .nil, uniq := fun x hx => (by obtain ⟨_, h⟩ := hx; cases h), wf := hw, honest := by simp [Network.empty], order := by simp [Network.empty] }
  pending := by simp [Network.empty]
  bound := by simp [Network.empty]
  duty := by simp [Network.empty]

/-- In every run of honest nodes after which no other election has `e`'s id, the invariant holds. -/
theorem inv_run (hN : Nodes N K e sk) (hR : Run N e sk run key) (hw : e.id = ⟨e.id.electionId, .election, zero16⟩) (evs : List Event) (hq : ∀ ev ∈ evs, Permitted K e ev)
    (hu : ∀ x, ElectionAt (Network.run N evs).store.toStore e.id x → x = e) : Inv N e sk run key (Network.run N evs) := by
  refine Network.run_induction (N := N) (P := fun s => (∀ x, ElectionAt s.store.toStore e.id x → x = e) → Inv N e sk run key s) (Q := Permitted K e)
    (fun _ => .init hw) ?_ evs hq hu
  intro s ev hev hsound ih hu
  refine (ih fun x hx => hu x ?_).step hN hR hev hu
  obtain ⟨sg, hx⟩ := hx
  exact ⟨sg, Network.extends_prefix (Network.sound_step hsound ev).nodup (Network.ledger_prefix N s ev) _ _ hx⟩

end Setup
end CB
