import Verif.Props.Decrypting
/-!
# C33 (panics) and C34 (isolation)
-/

namespace CB
open Spec

/-! ## C34 -/

/-- The elections a transaction refers to: its own, that of the previous mix it names, that of the upstream it names. -/
def Spec.refersTo (t : SignedTx) (e : BArr 15) : Prop :=
  (electionOf t).electionId = e ∨
  (∃ s pid, t = .mix s ∧ s.tx.prevMixId = some pid ∧ pid.electionId = e) ∨
  (∃ s, t = .partialDecryption s ∧ s.tx.upstreamId.electionId = e) ∨
  (∃ s, t = .decryption s ∧ s.tx.upstreamId.electionId = e)

/-- The stores hold the same transactions in this election. -/
def Spec.AgreeOn (S S' : Store) (e : BArr 15) : Prop := ∀ id, id.electionId = e → S.getTransaction id = S'.getTransaction id

theorem getMultiple_congr {S S' : Store} (h : Lawful S) (h' : Lawful S') {e : Identifier} (ha : AgreeOn S S' e.electionId) (ty : TxType) :
    S.getMultiple e ty = S'.getMultiple e ty := by
  obtain ⟨l, h1, h2, h3⟩ := h.getMultiple e ty
  obtain ⟨l', h1', h2', h3'⟩ := h'.getMultiple e ty
  rw [h1, h1']
  congr 1
  refine MemStore.idLt_ext h3 h3' fun t => ?_
  rw [h2, h2']
  constructor
  · rintro ⟨a, b, c⟩; exact ⟨by unfold InStore; rw [← ha _ b]; exact a, b, c⟩
  · rintro ⟨a, b, c⟩; exact ⟨by unfold InStore; rw [ha _ b]; exact a, b, c⟩

theorem range_point_congr {S S' : Store} (h : Lawful S) (h' : Lawful S') {a : Identifier} (ha : S.getTransaction a = S'.getTransaction a) :
    S.range a a = S'.range a a := by
  obtain ⟨l, h1, h2, h3⟩ := h.range_ok a a (.inr rfl)
  obtain ⟨l', h1', h2', h3'⟩ := h'.range_ok a a (.inr rfl)
  rw [h1, h1']
  congr 1
  refine MemStore.idLt_ext h3 h3' fun t => ?_
  rw [h2, h2']
  constructor
  · rintro ⟨x, y, z⟩
    have := idLe_antisymm z y
    exact ⟨by rw [this, ← ha, ← this]; exact x, y, z⟩
  · rintro ⟨x, y, z⟩
    have := idLe_antisymm z y
    exact ⟨by rw [this, ha, ← this]; exact x, y, z⟩

theorem upstream_congr {S S' : Store} {up : Identifier} (ha : AgreeOn S S' up.electionId) (n : UInt16) (c : UInt32) (cfg : Option MixConfig) :
    encryptedVoteFromUpstream S up n c cfg = encryptedVoteFromUpstream S' up n c cfg := by
  have := ha up rfl
  simp only [encryptedVoteFromUpstream, Store.getVote, Store.getMix, this]

/-- **C34** The verdict on a transaction (acceptance, the exact error, or a panic) depends only on the stored transactions of the elections it refers to. -/
theorem C34_elections_isolated (E : Env) (S S' : Store) (h : Lawful S) (h' : Lawful S') (t : SignedTx)
    (ha : ∀ e, refersTo t e → AgreeOn S S' e) : t.validate E S = t.validate E S' := by
  have hself : AgreeOn S S' (electionOf t).electionId := ha _ (.inl rfl)
  rw [SignedTx.validate_eq, SignedTx.validate_eq]
  congr 1
  funext _
  congr 1
  funext _
  rcases t with s | s | s | s | s | s | s | s | s | s
  · rfl
  · show s.tx.validateTx S = s.tx.validateTx S'
    have he : S.getTransaction s.tx.election = S'.getTransaction s.tx.election := hself _ rfl
    simp only [KeyGenCommitmentTx.validateTx, Store.getElection, he]
  · show s.tx.validateTx S = s.tx.validateTx S'
    have he : S.getTransaction s.tx.election = S'.getTransaction s.tx.election := hself _ rfl
    simp only [KeyGenShareTx.validateTx, Store.getElection, he]
  · show s.tx.validateTx S = s.tx.validateTx S'
    have he : S.getTransaction s.tx.election = S'.getTransaction s.tx.election := hself _ rfl
    simp only [KeyGenPublicKeyTx.validateTx, Store.getElection, he]
  · show s.tx.validateTx S = s.tx.validateTx S'
    have he : S.getTransaction s.tx.election = S'.getTransaction s.tx.election := hself _ rfl
    have hm := getMultiple_congr h h' (e := s.tx.election) hself .keyGenPublicKey
    simp only [EncryptionKeyTx.validateTx, Store.getElection, he, hm]
  · show s.tx.validateTx E S = s.tx.validateTx E S'
    have he : S.getTransaction s.tx.election = S'.getTransaction s.tx.election := hself _ rfl
    have hk : ∀ ty, S.getTransaction (Identifier.new s.tx.election ty none) = S'.getTransaction (Identifier.new s.tx.election ty none) :=
      fun ty => hself _ rfl
    have hr := range_point_congr h h' (hself (collisionId s.tx.election s.tx.anonymousKey) rfl)
    simp only [VoteTx.validateTx, Store.getElection, he, hk, start_collision, Res.bind_def, Res.ok_bind, hr]
  · show s.tx.validateTx S = s.tx.validateTx S'
    have he : S.getTransaction s.tx.election = S'.getTransaction s.tx.election := hself _ rfl
    simp only [VotingEndTx.validateTx, Store.getElection, he]
  · show s.tx.validateTx E S = s.tx.validateTx E S'
    have he : S.getTransaction s.tx.electionId = S'.getTransaction s.tx.electionId := hself _ rfl
    have hk : S.getTransaction (Identifier.new s.tx.electionId .encryptionKey none) = S'.getTransaction (Identifier.new s.tx.electionId .encryptionKey none) :=
      hself _ rfl
    have hm := getMultiple_congr h h' (e := s.tx.electionId) hself .vote
    simp only [Store.getMultiple, Res.bind_def] at hm
    have hi : s.tx.inputs E S = s.tx.inputs E S' := by
      unfold MixTx.inputs
      split
      · rename_i pid hp
        have := ha pid.electionId (.inr (.inl ⟨s, pid, rfl, hp, rfl⟩)) pid rfl
        simp only [MixTx.inputsFromPrev, this]
      · simp only [Identifier.start_none, Identifier.end_none, Res.ok_bind] at hm
        simp only [MixTx.inputsFromVotes, Res.bind_def, Identifier.start_none, Identifier.end_none, Res.ok_bind, hm]
    simp only [MixTx.validateTx, Store.getElection, he, hk, hi]
  · show s.tx.validateTx E S = s.tx.validateTx E S'
    have he : S.getTransaction s.tx.electionId = S'.getTransaction s.tx.electionId := hself _ rfl
    have hk : S.getTransaction (Identifier.new s.tx.electionId .votingEnd none) = S'.getTransaction (Identifier.new s.tx.electionId .votingEnd none) :=
      hself _ rfl
    have hp : S.getTransaction (KeyGenPublicKeyTx.buildId s.tx.electionId s.tx.trusteeIndex) =
      S'.getTransaction (KeyGenPublicKeyTx.buildId s.tx.electionId s.tx.trusteeIndex) := hself _ rfl
    have hu := upstream_congr (ha s.tx.upstreamId.electionId (.inr (.inr (.inl ⟨s, rfl, rfl⟩)))) s.tx.upstreamIndex s.tx.contestIndex
    simp only [PartialDecryptionTx.validateTx, Store.getElection, Store.getKeygenPublicKey, he, hk, hp, hu]
  · show s.tx.validateTx E S = s.tx.validateTx E S'
    have he : S.getTransaction s.tx.electionId = S'.getTransaction s.tx.electionId := hself _ rfl
    have hm := getMultiple_congr h h' (e := s.tx.electionId) hself .keyGenPublicKey
    have hp : ∀ i, S.getTransaction (PartialDecryptionTx.buildId s.tx.electionId s.tx.upstreamId s.tx.contestIndex s.tx.upstreamIndex i) =
      S'.getTransaction (PartialDecryptionTx.buildId s.tx.electionId s.tx.upstreamId s.tx.contestIndex s.tx.upstreamIndex i) := fun i => hself _ rfl
    have hu := upstream_congr (ha s.tx.upstreamId.electionId (.inr (.inr (.inr ⟨s, rfl, rfl⟩)))) s.tx.upstreamIndex s.tx.contestIndex
    simp only [DecryptionTx.validateTx, Store.getElection, Store.getPartialDecryption, he, hm, hp, hu]

/-- a foreign election in the store changes nothing for a vote -/
example : Lawful (MemStore.ofList Toy.setup).toStore ∧
    Lawful ((MemStore.ofList Toy.setup).set (.election ⟨{ Toy.election with id := Toy.eid2 }, Toy.sig 1⟩)).toStore ∧
    ∀ e, refersTo (Toy.voteTx 31 "a") e → AgreeOn (MemStore.ofList Toy.setup).toStore
      ((MemStore.ofList Toy.setup).set (.election ⟨{ Toy.election with id := Toy.eid2 }, Toy.sig 1⟩)).toStore e := by
  have hwf := Toy.setup_ledger.wf
  refine ⟨MemStore.lawful hwf, MemStore.lawful (MemStore.wf_set hwf _), ?_⟩
  rintro e (h | ⟨s, pid, h, _⟩ | ⟨s, h, _⟩ | ⟨s, h, _⟩) id hid
  · show _ = MemStore.getTransaction _ _
    rw [MemStore.get_set, if_neg]
    · rfl
    · rintro rfl
      rw [← h] at hid
      exact absurd (congrArg Subtype.val hid) (by decide +kernel)
  all_goals cases h

/-! ## C33 -/

/-- **C33 is false of the code**: a mix that names an existing transaction of another type as its previous mix makes validation panic (in debug and release builds). -/
theorem C33_validation_never_crashes_false :
    ¬ ∀ (E : Env) (m : MemStore), Ledger E m → ∀ (t : SignedTx) (p : Panic), t.validate E m.toStore ≠ .panic p := by
  intro h
  exact h (Toy.env false) (MemStore.ofList Toy.complete) (ledger_of_run (by decide +kernel)) (Toy.mixTx 2 12 (some Toy.eid) Toy.ids [[], []])
    .wrongTransactionType (by decide +kernel)

theorem Res.bind_not_panic {ε α β : Type} {x : Res ε α} {f : α → Res ε β} {p : Panic} (hx : x ≠ .panic p) (hf : ∀ a, x = .ok a → f a ≠ .panic p) :
    x.bind f ≠ .panic p := by
  intro h
  rcases Res.bind_eq_panic.1 h with h | ⟨a, h1, h2⟩
  · exact hx h
  · exact hf a h1 h2

theorem Store.getElection_np {S : Store} {id : Identifier} {p : Panic} : S.getElection id ≠ .panic p := by
  unfold Store.getElection; split <;> simp
theorem Store.getVote_np {S : Store} {id : Identifier} {p : Panic} : S.getVote id ≠ .panic p := by
  unfold Store.getVote; split <;> simp
theorem Store.getMix_np {S : Store} {id : Identifier} {p : Panic} : S.getMix id ≠ .panic p := by
  unfold Store.getMix; split <;> simp
theorem Store.getKeygenPublicKey_np {S : Store} {id : Identifier} {p : Panic} : S.getKeygenPublicKey id ≠ .panic p := by
  unfold Store.getKeygenPublicKey; split <;> simp
theorem Store.getPartialDecryption_np {S : Store} {id : Identifier} {p : Panic} : S.getPartialDecryption id ≠ .panic p := by
  unfold Store.getPartialDecryption; split <;> simp
theorem failIf_np {ε : Type} {c : Bool} {e : ε} {p : Panic} : (Res.failIf c e : Res ε Unit) ≠ .panic p := by simp
theorem ofOption_np {ε α : Type} {o : Option α} {e : ε} {p : Panic} : Res.ofOption o e ≠ .panic p := by simp
theorem forEach_np {ε α : Type} {f : α → Res ε Unit} {l : List α} {p : Panic} (h : ∀ x ∈ l, f x ≠ .panic p) : Res.forEach f l ≠ .panic p := by
  intro hp
  obtain ⟨x, hx, h'⟩ := Res.forEach_eq_panic hp
  exact h x hx h'

theorem upstream_np {S : Store} {up : Identifier} {n : UInt16} {c : UInt32} {cfg : Option MixConfig} {p : Panic} :
    encryptedVoteFromUpstream S up n c cfg ≠ .panic p := by
  unfold encryptedVoteFromUpstream
  split
  · refine Res.bind_not_panic failIf_np fun _ _ => Res.bind_not_panic failIf_np fun _ _ => Res.bind_not_panic Store.getVote_np fun _ _ => ?_
    split <;> simp
  · refine Res.bind_not_panic Store.getMix_np fun mx _ => Res.bind_not_panic failIf_np fun _ _ => Res.bind_not_panic failIf_np fun _ _ => ?_
    intro hp
    rcases Res.bind_eq_panic.1 hp with hp | ⟨_, h1, h2⟩
    · exact failIf_np hp
    · rw [Res.unwrap_eq_panic] at h2
      rw [Res.failIf_eq_ok, decide_eq_false_iff_not] at h1
      obtain ⟨h2, _⟩ := h2
      rw [List.getElem?_eq_none_iff] at h2
      apply h1
      rw [ge_iff_le, UInt16.le_iff_toNat_le, UInt16.toNat_ofNat']
      exact Nat.le_trans (Nat.mod_le _ _) h2
  · simp

/-- scans by type in a replayed store never meet a transaction of another type -/
theorem scan_np {E : Env} {m : MemStore} (hm : Replay E m) (e : Identifier) (ty : TxType) {p : Panic} : m.toStore.getMultiple e ty ≠ .panic p := by
  obtain ⟨l, h, _⟩ := hm.lawful.getMultiple e ty
  rw [h]
  simp

theorem pk_scan_np {E : Env} {m : MemStore} (hm : Replay E m) {e : Identifier} {raw : List SignedTx}
    (h : m.toStore.getMultiple e .keyGenPublicKey = .ok raw) {p : Panic} : Res.mapM' SignedTx.intoKeyGenPublicKey raw ≠ .panic p := by
  intro hp
  obtain ⟨x, hx, hxp⟩ := Res.mapM'_eq_panic hp
  obtain ⟨l, h1, h2, _⟩ := hm.lawful.getMultiple e .keyGenPublicKey
  rw [h] at h1
  cases h1
  obtain ⟨a, _, c⟩ := (h2 x).1 hx
  have := hm.typed (id := x.id) a
  rw [c] at this
  cases x <;> simp [SignedTx.transactionType, SignedTx.intoKeyGenPublicKey] at this hxp

/-- An item of a ledger stays the same when the ledger grows. -/
theorem itemAt_extends {m m' : MemStore} (h : Extends m m') {up : Identifier} {n : UInt16} {c : UInt32} {cfg : Option MixConfig} {cts : List Ciphertext}
    (hi : ItemAt m.toStore up n c cfg cts) : ItemAt m'.toStore up n c cfg cts := by
  cases hi with
  | ofVote g h1 h2 h3 h4 => exact .ofVote (h _ _ g) h1 h2 h3 h4
  | ofMix g h1 h2 h3 => exact .ofMix (h _ _ g) h1 h2 h3

/-- An election is stored under the id made of its election id, type 1 and zeros. -/
theorem Spec.Replay.election_id {E : Env} {m : MemStore} (hm : Replay E m) {id : Identifier} {e : ElectionTx} (h : ElectionAt m.toStore id e) :
    id = singleId id .election := by
  obtain ⟨sg, h⟩ := h
  have hk : e.id = id := MemStore.get_id hm.wf h
  obtain ⟨m0, _, hv⟩ := hm.accepted h
  have := (ElectionTx.validateTx_ok.1 (SignedTx.validate_ok.1 hv).2.2).1
  show id = ⟨id.electionId, .election, zero16⟩
  rw [← hk]
  exact this

/-- Why validating `t` may panic. -/
inductive Spec.CrashCause (E : Env) (m : MemStore) : SignedTx → Prop
  /-- mix by trustee index 0, in a build with overflow checks -/
  | trusteeZero {s : Signed MixTx} : E.overflowChecks = true → s.tx.trusteeIndex = 0 → CrashCause E m (.mix s)
  /-- mix naming a stored transaction that is not a mix as previous mix -/
  | prevNotMix {s : Signed MixTx} {pid : Identifier} {x : SignedTx} : s.tx.prevMixId = some pid → m.getTransaction pid = some x →
      kindOf x ≠ .mix → CrashCause E m (.mix s)
  /-- mix following mix number 255, in a build with overflow checks -/
  | prevLast {s x : Signed MixTx} {pid : Identifier} : E.overflowChecks = true → s.tx.prevMixId = some pid →
      m.getTransaction pid = some (.mix x) → x.tx.mixIndex = 255 → CrashCause E m (.mix s)
  /-- vote for which the RSA hash of the authentication package fails -/
  | rsaHash {s : Signed VoteTx} {e : ElectionTx} {a : Authenticator} {key : RsaPublicKey} : ElectionAt m.toStore s.tx.election e → a ∈ e.authenticators →
      (s.tx.ballotId, key) ∈ a.publicKeys.entries → E.rsaDigest key (authMessage e.id s.tx.ballotId s.tx.anonymousKey) = none → CrashCause E m (.vote s)
  /-- decryption whose id finds the stored partial decryption of a *different* upstream, with fewer shares than this item has ciphertexts -/
  | foreignPartial {s : Signed DecryptionTx} {p : Signed PartialDecryptionTx} {i : UInt8} {cfg : Option MixConfig} {cts : List Ciphertext} :
      i ∈ s.tx.trustees → PartialFor m.toStore s.tx i p → p.tx.upstreamId ≠ s.tx.upstreamId →
      ItemAt m.toStore s.tx.upstreamId s.tx.upstreamIndex s.tx.contestIndex cfg cts →
      p.tx.partialDecryption.length < cts.length → CrashCause E m (.decryption s)

theorem vote_panic {E : Env} {m : MemStore} (hm : Ledger E m) {s : Signed VoteTx} {p : Panic} (h : s.tx.validateTx E m.toStore = .panic p) :
    CrashCause E m (.vote s) := by
  simp only [VoteTx.validateTx, Res.bind_def, start_collision, Res.ok_bind] at h
  rcases Res.bind_eq_panic.1 h with h | ⟨_, _, h⟩
  · exact absurd h failIf_np
  rcases Res.bind_eq_panic.1 h with h | ⟨el, hel, h⟩
  · exact absurd h Store.getElection_np
  rcases Res.bind_eq_panic.1 h with h | ⟨_, _, h⟩
  · obtain ⟨l, hl, _⟩ := hm.lawful.range_ok _ _ (.inr (rfl : collisionId s.tx.election s.tx.anonymousKey = _))
    rw [hl] at h; cases h
  rcases Res.bind_eq_panic.1 h with h | ⟨_, _, h⟩
  · exact absurd h failIf_np
  rcases Res.bind_eq_panic.1 h with h | ⟨_, _, h⟩
  · exact absurd h failIf_np
  rcases Res.bind_eq_panic.1 h with h | ⟨_, _, h⟩
  · exact absurd h failIf_np
  rcases Res.bind_eq_panic.1 h with h | ⟨_, _, h⟩
  · obtain ⟨a, ha, h⟩ := Res.forEach_eq_panic h
    rcases Res.bind_eq_panic.1 h with h | ⟨au, hau, h⟩
    · exact absurd h ofOption_np
    rw [Res.ofOption_eq_ok] at hau
    rw [Res.mapErr_eq_panic] at h
    unfold Authenticator.verify at h
    simp only [Res.bind_def] at h
    rcases Res.bind_eq_panic.1 h with h | ⟨key, hkey, h⟩
    · exact absurd h ofOption_np
    rw [Res.ofOption_eq_ok] at hkey
    rcases Res.bind_eq_panic.1 h with h | ⟨dg, _, h⟩
    · unfold AuthPackage.digest at h
      rw [Res.unwrap_eq_panic] at h
      rw [Store.getElection_ok] at hel
      exact .rsaHash ⟨el.sig, hel⟩ (List.mem_of_find?_eq_some hau) ((IndexMap.get_eq_some _ _ _).1 hkey) h.1
    · split at h <;> cases h
  rcases Res.bind_eq_panic.1 h with h | ⟨_, _, h⟩
  · exact absurd h ofOption_np
  exact absurd h (forEach_np fun _ _ => failIf_np)

theorem mix_panic {E : Env} {m : MemStore} (hm : Ledger E m) {s : Signed MixTx} {p : Panic} (h : s.tx.validateTx E m.toStore = .panic p) :
    CrashCause E m (.mix s) := by
  simp only [MixTx.validateTx, Res.bind_def] at h
  rcases Res.bind_eq_panic.1 h with h | ⟨_, _, h⟩
  · exact absurd h failIf_np
  rcases Res.bind_eq_panic.1 h with h | ⟨el, hel, h⟩
  · exact absurd h Store.getElection_np
  rcases Res.bind_eq_panic.1 h with h | ⟨_, _, h⟩
  · exact absurd h failIf_np
  rcases Res.bind_eq_panic.1 h with h | ⟨_, _, h⟩
  · exact absurd h failIf_np
  rcases Res.bind_eq_panic.1 h with h | ⟨_, _, h⟩
  · unfold Env.subU8 at h
    split at h
    · rename_i hc
      refine .trusteeZero hc.2 ?_
      have := UInt8.lt_iff_toNat_lt.1 hc.1
      apply UInt8.toNat_inj.1
      simp at this
      simpa using this
    · cases h
  rcases Res.bind_eq_panic.1 h with h | ⟨_, _, h⟩
  · exact absurd h failIf_np
  rcases Res.bind_eq_panic.1 h with h | ⟨_, _, h⟩
  · exact absurd h failIf_np
  rcases Res.bind_eq_panic.1 h with h | ⟨_, _, h⟩
  · unfold MixTx.inputs at h
    split at h
    · rename_i pid hp
      simp only [MixTx.inputsFromPrev, Res.bind_def] at h
      rcases Res.bind_eq_panic.1 h with h | ⟨raw, hraw, h⟩
      · exact absurd h ofOption_np
      rw [Res.ofOption_eq_ok] at hraw
      rcases Res.bind_eq_panic.1 h with h | ⟨prev, hprev, h⟩
      · refine .prevNotMix hp hraw ?_
        cases raw <;> simp [SignedTx.intoMix, kindOf] at h ⊢
      rw [SignedTx.intoMix_ok] at hprev
      rcases Res.bind_eq_panic.1 h with h | ⟨_, _, h⟩
      · unfold Env.addU8 at h
        split at h
        · rename_i hc
          refine .prevLast (x := prev) hc.2 hp (by rw [← hprev]; exact hraw) ?_
          have := hc.1
          have := prev.tx.mixIndex.toNat_lt
          apply UInt8.toNat_inj.1
          simp at *
          omega
        · cases h
      rcases Res.bind_eq_panic.1 h with h | ⟨_, _, h⟩
      · exact absurd h failIf_np
      · cases h
    · exfalso
      simp only [MixTx.inputsFromVotes, Res.bind_def, Identifier.start_none, Identifier.end_none, Res.ok_bind] at h
      rcases Res.bind_eq_panic.1 h with h | ⟨_, _, h⟩
      · exact absurd h failIf_np
      rcases Res.bind_eq_panic.1 h with h | ⟨_, _, h⟩
      · exact absurd h failIf_np
      rcases Res.bind_eq_panic.1 h with h | ⟨_, _, h⟩
      · exact absurd h failIf_np
      obtain ⟨l, hl, hmem, _⟩ := hm.lawful.getMultiple s.tx.electionId .vote
      simp only [Store.getMultiple, Res.bind_def, Identifier.start_none, Identifier.end_none, Res.ok_bind] at hl
      rw [hl, Res.ok_bind] at h
      rcases Res.bind_eq_panic.1 h with h | ⟨_, hlen, h⟩
      · exact absurd h failIf_np
      rw [Res.failIf_eq_ok, bne_eq_false_iff_eq] at hlen
      rcases Res.bind_eq_panic.1 h with h | ⟨_, _, h⟩
      · exact voteIdsMatch_not_panic hlen _ h
      obtain ⟨x, hx, hxp⟩ := Res.flatMapM_eq_panic h
      rcases Res.bind_eq_panic.1 hxp with hxp | ⟨_, _, hxp⟩
      · obtain ⟨a, _, c⟩ := (hmem x).1 hx
        have := hm.replay.typed (id := x.id) a
        rw [c] at this
        cases x <;> simp [SignedTx.transactionType, SignedTx.intoVote] at this hxp
      · cases hxp
  exfalso
  rcases Res.bind_eq_panic.1 h with h | ⟨raw, hraw, h⟩
  · exact absurd h ofOption_np
  rw [Res.ofOption_eq_ok] at hraw
  rcases Res.bind_eq_panic.1 h with h | ⟨_, _, h⟩
  · have := hm.replay.typed (id := Identifier.new s.tx.electionId .encryptionKey none) hraw
    simp only [Identifier.new] at this
    cases raw <;> simp [SignedTx.transactionType, SignedTx.intoEncryptionKey] at this h
  · exact absurd h failIf_np

theorem decryptVote_panic {E : Env} {k : UInt8} {trs : List Trustee} {pks : List KeyGenPublicKeyTx} {ps : List PartialDecryptionTx} {n : Nat}
    {cts : List Ciphertext} {p : Panic} (h : decryptVoteFrom E k trs pks ps n cts = .panic p) :
    ∃ q ∈ ps, q.partialDecryption.length < n + cts.length := by
  induction cts generalizing n with
  | nil => cases h
  | cons c cs ih =>
    simp only [decryptVoteFrom, Res.bind_def] at h
    rcases Res.bind_eq_panic.1 h with h | ⟨_, _, h⟩
    · obtain ⟨tr, _, h⟩ := Res.flatMapM_eq_panic h
      split at h
      · rename_i q pk hq _
        rcases Res.bind_eq_panic.1 h with h | ⟨_, _, h⟩
        · rw [Res.unwrap_eq_panic, List.getElem?_eq_none_iff] at h
          refine ⟨q, (lastByIndex_mem hq).1, ?_⟩
          simp only [List.length_cons]
          omega
        · cases h
      · cases h
    rcases Res.bind_eq_panic.1 h with h | ⟨_, _, h⟩
    · split at h <;> cases h
    rcases Res.bind_eq_panic.1 h with h | ⟨_, _, h⟩
    · exact absurd h ofOption_np
    rcases Res.bind_eq_panic.1 h with h | ⟨_, _, h⟩
    · obtain ⟨q, h1, h2⟩ := ih h
      refine ⟨q, h1, ?_⟩
      simp only [List.length_cons]
      omega
    · cases h

theorem dec_panic {E : Env} {m : MemStore} (hm : Ledger E m) {s : Signed DecryptionTx} {p : Panic} (h : s.tx.validateTx E m.toStore = .panic p) :
    CrashCause E m (.decryption s) := by
  simp only [DecryptionTx.validateTx, Res.bind_def] at h
  rcases Res.bind_eq_panic.1 h with h | ⟨_, _, h⟩
  · exact absurd h failIf_np
  rcases Res.bind_eq_panic.1 h with h | ⟨el, hel, h⟩
  · exact absurd h Store.getElection_np
  rcases Res.bind_eq_panic.1 h with h | ⟨cts, hcts, h⟩
  · exact absurd h upstream_np
  rcases Res.bind_eq_panic.1 h with h | ⟨raw, hraw, h⟩
  · exact absurd h (scan_np hm.replay _ _)
  rcases Res.bind_eq_panic.1 h with h | ⟨_, _, h⟩
  · exact absurd h (pk_scan_np hm.replay hraw)
  rcases Res.bind_eq_panic.1 h with h | ⟨ps, hps, h⟩
  · obtain ⟨x, _, hx⟩ := Res.mapM'_eq_panic h
    rcases Res.bind_eq_panic.1 hx with hx | ⟨_, _, hx⟩
    · exact absurd hx ofOption_np
    · exact absurd hx Store.getPartialDecryption_np
  rcases Res.bind_eq_panic.1 h with h | ⟨_, _, h⟩
  · exact absurd h failIf_np
  rcases Res.bind_eq_panic.1 h with h | ⟨_, _, h⟩
  · obtain ⟨q, hq, hlen⟩ := decryptVote_panic h
    obtain ⟨ptx, hpm, rfl⟩ := List.mem_map.1 hq
    have hitem := encryptedVoteFromUpstream_sound hcts
    obtain ⟨i, hi, hf⟩ := (mapM'_getElem hps).2.2 ptx hpm
    simp only [Res.bind_eq_ok, Res.ofOption_eq_ok, Store.getPartialDecryption_ok] at hf
    obtain ⟨tr, htr, hf⟩ := hf
    rw [(getTrustee_index htr).2] at hf
    have hpf := (partialFor_iff hm.replay (itemAt_type hitem)).1 hf
    rw [Nat.zero_add] at hlen
    refine .foreignPartial hi hpf ?_ hitem hlen
    -- if the upstream were the same, the lengths would agree
    intro hup
    have hst : m.getTransaction ptx.tx.id = some (.partialDecryption ptx) := hpf.stored
    obtain ⟨m0, hm0, hfresh, hv, hsteps⟩ := hm.accepted hst
    obtain ⟨e0, he0, _, _, _, cts0, hc0, _, _, _, _, _, hl0, _⟩ := PartialDecryptionTx.validateTx_ok.1 (SignedTx.validate_ok.1 hv).2.2
    have hext : Extends m0 m := (Extends.set_fresh hfresh).trans hsteps.extends
    have hitem0 := itemAt_extends hext (encryptedVoteFromUpstream_sound hc0)
    rw [Store.getElection_ok] at hel
    have e1 := hm.replay.election_id (e := el.tx) ⟨el.sig, hel⟩
    obtain ⟨sg0, he0'⟩ := he0
    have e2 := hm0.replay.election_id (e := e0) ⟨sg0, he0'⟩
    have e3 : ptx.tx.electionId = s.tx.electionId := by rw [e1, e2]; simp only [singleId, hpf.election]
    have : some (SignedTx.election el) = some (.election ⟨e0, sg0⟩) := by
      rw [← hel, ← e3]; exact hext _ _ he0'
    cases this
    have hidx : ptx.tx.upstreamIndex = s.tx.upstreamIndex := by
      have := hpf.item
      generalize ptx.tx.upstreamIndex = x at this ⊢
      generalize s.tx.upstreamIndex = y at this ⊢
      cases this <;> rfl
    rw [hup, hidx, hpf.contest] at hitem0
    have := itemAt_unique hitem hitem0
    rw [this] at hlen
    omega
  · exact absurd h failIf_np

/-- **C33 (partial)** Over an append-only history, validation panics only for the causes listed in `CrashCause`; in particular never for elections, key generation,
encryption keys, voting ends and partial decryptions.  Missing: those causes do occur (`C33_validation_never_crashes_false`). -/
theorem C33_validation_never_crashes_partial (E : Env) (m : MemStore) (hm : Ledger E m) (t : SignedTx) (p : Panic)
    (h : t.validate E m.toStore = .panic p) : CrashCause E m t := by
  rw [SignedTx.validate_eq] at h
  rcases Res.bind_eq_panic.1 h with h | ⟨_, _, h⟩
  · exact absurd h failIf_np
  rcases Res.bind_eq_panic.1 h with h | ⟨_, _, h⟩
  · exfalso
    have : ∀ {T : Type} [CBTransaction T] (s : Signed T), s.verifySignature E ≠ .panic p := by
      intro T _ s
      unfold Signed.verifySignature
      split
      · split <;> simp
      · simp
    cases t <;> rw [SignedTx.verifySignature] at h <;> exact this _ h
  rcases t with s | s | s | s | s | s | s | s | s | s
  · exfalso
    revert h
    exact Res.bind_not_panic failIf_np fun _ _ => Res.bind_not_panic failIf_np fun _ _ => failIf_np
  · exfalso
    revert h
    exact Res.bind_not_panic Store.getElection_np fun _ _ => failIf_np
  · exfalso
    revert h
    exact Res.bind_not_panic Store.getElection_np fun _ _ => Res.bind_not_panic failIf_np fun _ _ => Res.bind_not_panic failIf_np fun _ _ =>
      forEach_np fun _ _ => failIf_np
  · exfalso
    revert h
    exact Res.bind_not_panic Store.getElection_np fun _ _ => failIf_np
  · exfalso
    revert h
    exact Res.bind_not_panic Store.getElection_np fun _ _ => Res.bind_not_panic failIf_np fun _ _ =>
      Res.bind_not_panic (scan_np hm.replay _ _) fun _ hr => Res.bind_not_panic (pk_scan_np hm.replay hr) fun _ _ =>
      Res.bind_not_panic failIf_np fun _ _ => Res.bind_not_panic (forEach_np fun _ _ => failIf_np) fun _ _ => forEach_np fun _ _ => failIf_np
  · exact vote_panic hm h
  · exfalso
    revert h
    exact Res.bind_not_panic Store.getElection_np fun _ _ => failIf_np
  · exact mix_panic hm h
  · exfalso
    revert h
    refine Res.bind_not_panic Store.getElection_np fun _ _ => Res.bind_not_panic ofOption_np fun _ _ => Res.bind_not_panic failIf_np fun _ _ =>
      Res.bind_not_panic failIf_np fun _ _ => Res.bind_not_panic upstream_np fun _ _ => Res.bind_not_panic Store.getKeygenPublicKey_np fun _ _ =>
      Res.bind_not_panic failIf_np fun _ _ => ?_
    intro h
    rcases Res.bind_eq_panic.1 h with h | ⟨_, hl, h⟩
    · exact absurd h failIf_np
    · rw [Res.failIf_eq_ok, bne_eq_false_iff_eq] at hl
      exact verifyShares_not_panic hl _ h
  · exact dec_panic hm h

/-- the causes occur: trustee 0 in a debug build -/
example : (SignedTx.mix ⟨MixTx.new Toy.eid none (Toy.trustee 0 11) 0 0 0 [] [] ⟨[]⟩, Toy.sig 11⟩).validate Toy.env
    (MemStore.ofList ([.election ⟨{ Toy.election with trustees := [Toy.trustee 0 11, Toy.trustee 2 12] }, Toy.sig 1⟩])).toStore = .panic .overflow := by
  decide +kernel

end CB
