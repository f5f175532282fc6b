import Verif.Props.ServerPartials
import Verif.Props.Robust
/-!
# C46: the decryptions nodes submit
-/

namespace CB
open Spec Server

/-! ## The window of partial decryptions for one item -/

theorem window_last {P Q : Bytes} {y : UInt8} (hl : P.length = Q.length) :
    (cmpBytes (P ++ [0]) (Q ++ [y]) ≠ .gt ∧ cmpBytes (Q ++ [y]) (P ++ [255]) ≠ .gt) ↔ Q = P := by
  rw [cmpBytes_append _ _ _ _ hl, cmpBytes_append _ _ _ _ hl.symm]
  constructor
  · rintro ⟨h1, h2⟩
    cases h : cmpBytes P Q with
    | gt => rw [h] at h1; exact absurd rfl h1
    | eq => exact ((cmpBytes_eq_iff _ _).1 h).symm
    | lt =>
      rw [(cmpBytes_gt_iff Q P).2 h] at h2
      exact absurd rfl h2
  · rintro rfl
    rw [cmpBytes_refl]
    have h0 : ¬ y < 0 := by rw [UInt8.lt_iff_toNat_lt]; simp
    have h255 : ¬ (255 : UInt8) < y := by
      rw [UInt8.lt_iff_toNat_lt]
      have := y.toNat_lt
      simp
      omega
    constructor
    · simp only [Ordering.then, cmpBytes]
      split <;> simp
    · simp only [Ordering.then, cmpBytes]
      split <;> simp

theorem idLe_iff {a b : Identifier} : IdLe a b ↔ cmpBytes a.toArray b.toArray ≠ .gt := by
  unfold IdLe
  rw [Identifier.cmp_eq_cmpBytes]
  cases h : cmpBytes a.toArray b.toArray with
  | lt => simp
  | gt =>
    simp only [reduceCtorEq, false_or, ne_eq, not_true_eq_false, iff_false]
    rintro rfl
    rw [cmpBytes_refl] at h
    cases h
  | eq =>
    simp only [reduceCtorEq, false_or, ne_eq, not_false_eq_true, iff_true]
    have := (cmpBytes_eq_iff _ _).1 h
    exact Identifier.toArray_injective this

/-- Which ids lie between the two bounds: those that differ at most in the last byte. -/
theorem between_last {e : Identifier} {u : BArr 16} {ty : TxType} {id : Identifier} :
    (IdLe { e with txType := ty, uniqueInfo := withLast u 0 } id ∧ IdLe id { e with txType := ty, uniqueInfo := withLast u 255 }) ↔
      id.electionId = e.electionId ∧ id.txType = ty ∧ id.uniqueInfo.val.take 15 = u.val.take 15 := by
  obtain ⟨Q, y, hQ, hl⟩ : ∃ Q y, id.uniqueInfo.val = Q ++ [y] ∧ Q.length = 15 := by
    have := id.uniqueInfo.property
    refine ⟨id.uniqueInfo.val.take 15, id.uniqueInfo.val[15], ?_, by simp; omega⟩
    rw [List.take_append_getElem (by omega), List.take_of_length_le (by omega)]
  have hu := u.property
  have e1 := e.electionId.property
  have e2 := id.electionId.property
  rw [idLe_iff, idLe_iff]
  simp only [Identifier.toArray, withLast, hQ, ← List.append_assoc]
  rw [window_last (by simp; omega), List.take_append_of_le_length (by omega), List.take_of_length_le (by omega : Q.length ≤ 15)]
  constructor
  · intro h
    obtain ⟨h1, h2⟩ := List.append_inj' h (by simp; omega)
    obtain ⟨h3, h4⟩ := List.append_inj' h1 (by simp)
    simp only [List.cons.injEq, and_true] at h4
    exact ⟨Subtype.ext h3, TxType.toU8_injective h4, h2⟩
  · rintro ⟨h1, h2, h3⟩
    rw [h1, h2, h3]

theorem buildUniqueInfo_last {up : Identifier} {n : UInt16} (h : (up.txType = .vote ∧ n = 0) ∨ up.txType = .mix) (c : UInt32) (i j : UInt8) :
    (buildUniqueInfo up c n i).val = (buildUniqueInfo up c n j).val.take 15 ++ [i] := by
  have := up.uniqueInfo.property
  rcases h with ⟨h, _⟩ | h
  · simp only [buildUniqueInfo, h]
    congr 1
    symm
    apply List.take_left'
    simp [u32be]
    omega
  · simp only [buildUniqueInfo, h]
    congr 1
    symm
    apply List.take_left'
    simp [u32be, u16be]
    omega

/-! ## What an accepted partial decryption tells later -/

theorem encryptedVoteFromUpstream_extends {m m' : MemStore} (h : Extends m m') {up : Identifier} {n : UInt16} {c : UInt32} {cfg : Option MixConfig} {cts : List Ciphertext}
    (hi : encryptedVoteFromUpstream m.toStore up n c cfg = .ok cts) : encryptedVoteFromUpstream m'.toStore up n c cfg = .ok cts := by
  unfold encryptedVoteFromUpstream at hi ⊢
  split at hi
  · simp only [Res.bind_def, Res.bind_eq_ok, Res.exists_unit, Store.getVote_ok] at hi ⊢
    obtain ⟨h1, h2, s, hs, h3⟩ := hi
    exact ⟨h1, h2, s, h _ _ hs, h3⟩
  · simp only [Res.bind_def, Res.bind_eq_ok, Store.getMix_ok] at hi ⊢
    obtain ⟨s, hs, h3⟩ := hi
    exact ⟨s, h _ _ hs, h3⟩
  · cases hi

/-- the node looks at the same ciphertexts as validation -/
theorem upstreamCiphertexts_eq {S : Store} {t : PartialDecryptionTx} {cfg : Option MixConfig} {cts cts' : List Ciphertext}
    (h : encryptedVoteFromUpstream S t.upstreamId t.upstreamIndex t.contestIndex cfg = .ok cts) (h' : upstreamCiphertexts S t = .ok cts') : cts' = cts := by
  unfold encryptedVoteFromUpstream at h
  unfold upstreamCiphertexts at h'
  split at h
  · rename_i hty
    rw [hty] at h'
    simp only [Res.bind_def, Res.bind_eq_ok, Res.exists_unit, v_eq_ok] at h h'
    obtain ⟨_, _, s, hs, h⟩ := h
    obtain ⟨s', hs', h'⟩ := h'
    rw [hs] at hs'
    cases hs'
    split at h
    · rename_i ev hev
      rw [hev] at h'
      cases h
      cases h'
      rfl
    · cases h
  · rename_i hty
    rw [hty] at h'
    simp only [Res.bind_def, Res.bind_eq_ok, Res.exists_unit, v_eq_ok, Res.unwrap_eq_ok] at h h'
    obtain ⟨s, hs, _, _, _, h⟩ := h
    obtain ⟨s', hs', h'⟩ := h'
    rw [hs] at hs'
    cases hs'
    rw [h] at h'
    cases h'
    rfl
  · cases h

theorem sharesFor_full (e : ElectionTx) (pks : List KeyGenPublicKeyTx) (ps : List PartialDecryptionTx) (j : Nat) :
    CB.sharesFor e.getFullTrustees pks ps j = CB.sharesFor e.trustees pks ps j := by
  unfold CB.sharesFor ElectionTx.getFullTrustees
  generalize e.trustees.length = n
  generalize e.trustees = trs
  induction trs with
  | nil => rfl
  | cons tr trs ih =>
    simp only [List.map_cons, Res.flatMapM]
    rw [ih]

theorem decryptVoteFrom_full (E : Env) (k : UInt8) (e : ElectionTx) (pks : List KeyGenPublicKeyTx) (ps : List PartialDecryptionTx) (cts : List Ciphertext) (n : Nat) :
    decryptVoteFrom E k e.getFullTrustees pks ps n cts = decryptVoteFrom E k e.trustees pks ps n cts := by
  induction cts generalizing n with
  | nil => rfl
  | cons c cts ih =>
    simp only [decryptVoteFrom, sharesFor_full, ih]

/-- **C46** When a node, on any ledger, reacts to a stored partial decryption, it submits nothing or one decryption; that one is of the same item, lists exactly the trustees
whose partial decryptions of the item are stored (each once, and at least `threshold` of them), and passes validation against the same ledger. -/
theorem C46_decryption_accepted (N : NodeEnv) (rng : Rng) (sk : SecretKey) (m : MemStore) (hm : Ledger N.toEnv m) (p : Signed PartialDecryptionTx)
    (hp : InStore m.toStore (.partialDecryption p)) (e : ElectionTx) (he : ElectionAt m.toStore p.tx.electionId e)
    (l : List SignedTx) (h : generateTransactions N rng sk m.toStore (.partialDecryption p) = .ok l) :
    l = [] ∨ ∃ d : Signed DecryptionTx, l = [.decryption d] ∧
      d.tx.electionId = p.tx.electionId ∧ d.tx.upstreamId = p.tx.upstreamId ∧ d.tx.upstreamIndex = p.tx.upstreamIndex ∧ d.tx.contestIndex = p.tx.contestIndex ∧
      d.tx.trustees.Nodup ∧ (∀ i, i ∈ d.tx.trustees ↔ ∃ q, PartialFor m.toStore d.tx i q) ∧ e.trusteesThreshold.toNat ≤ d.tx.trustees.length ∧
      (SignedTx.decryption d).validate N.toEnv m.toStore = .ok () := by
  obtain ⟨esig, hel⟩ := getElection_at he
  have heid := electionAt_id hm.lawful he
  obtain ⟨m0, hm0, hfresh, hv, hsteps⟩ := hm.accepted hp
  have hext : Extends m0 m := (Extends.set_fresh hfresh).trans hsteps.extends
  obtain ⟨e0, ⟨sg0, he0⟩, htr0, hid, _, cts, hcts, _⟩ := PartialDecryptionTx.validateTx_ok.1 (SignedTx.validate_ok.1 hv).2.2
  have : e0 = e := by
    obtain ⟨sg, he⟩ := he
    have := (hext _ _ he0).symm.trans he
    cases this
    rfl
  subst this
  have hcts := encryptedVoteFromUpstream_extends hext hcts
  have hty := itemAt_type (encryptedVoteFromUpstream_sound hcts)
  simp only [generateTransactions, processPartialDecryption, hel, v_ok, Res.bind_def, Res.ok_bind] at h
  split at h
  · simp only [Res.bind_eq_ok, v_eq_ok] at h
    obtain ⟨raw, hraw, h⟩ := h
    split at h
    · rename_i hle
      simp only [Res.bind_eq_ok, v_eq_ok] at h
      obtain ⟨ps, hps, cts', hcts', pks, hpks, dec, hdec, tx, htx, s, hs, hl⟩ := h
      cases hl
      right
      obtain ⟨rfl, _⟩ := sign_ok hs
      have hc := upstreamCiphertexts_eq hcts hcts'
      subst hc
      have hraw' := (mapM'_into (fun t s => SignedTx.intoPartialDecryption_ok (t := t) (s := s))).1 hps
      subst hraw'
      obtain ⟨pks', hg, hpk', _⟩ := getAll_pks hm.lawful hm.replay.typedStore e0
      rw [hpk'] at hpks
      cases hpks
      unfold DecryptionTx.new at htx
      split at htx
      · cases htx
      cases htx
      -- the window
      obtain ⟨raw', h1, h2, h3⟩ := hm.lawful.range_ok _ _ (((between_last (e := e0.id) (u := p.tx.id.uniqueInfo) (ty := .partialDecryption)
        (id := { e0.id with txType := .partialDecryption, uniqueInfo := withLast p.tx.id.uniqueInfo 255 })).2
          ⟨rfl, rfl, List.take_left' (by have := p.tx.id.uniqueInfo.property; simp; omega)⟩).1)
      rw [hraw] at h1
      cases h1
      have hmem : ∀ q : Signed PartialDecryptionTx, q ∈ ps ↔ m.getTransaction (PartialDecryptionTx.buildId e0.id p.tx.upstreamId p.tx.contestIndex p.tx.upstreamIndex q.tx.trusteeIndex) =
          some (.partialDecryption q) := by
        intro q
        have hlast := fun i => buildUniqueInfo_last hty p.tx.contestIndex i p.tx.trusteeIndex
        have hpu : p.tx.id.uniqueInfo = buildUniqueInfo p.tx.upstreamId p.tx.contestIndex p.tx.upstreamIndex p.tx.trusteeIndex := by rw [hid]; rfl
        constructor
        · intro hq
          obtain ⟨g1, g2⟩ := (h2 (.partialDecryption q)).1 (List.mem_map.2 ⟨q, hq, rfl⟩)
          obtain ⟨k1, k2, k3⟩ := between_last.1 g2
          obtain ⟨_, g4, g5⟩ := hm.replay.partial_id g1
          have : PartialDecryptionTx.buildId e0.id p.tx.upstreamId p.tx.contestIndex p.tx.upstreamIndex q.tx.trusteeIndex = q.tx.id := by
            have k1 : q.tx.id.electionId = e0.id.electionId := k1
            have k2 : q.tx.id.txType = .partialDecryption := k2
            have k3 : q.tx.id.uniqueInfo.val.take 15 = p.tx.id.uniqueInfo.val.take 15 := k3
            have hqu : q.tx.id.uniqueInfo = buildUniqueInfo q.tx.upstreamId q.tx.contestIndex q.tx.upstreamIndex q.tx.trusteeIndex := by rw [g4]; rfl
            have hu : buildUniqueInfo p.tx.upstreamId p.tx.contestIndex p.tx.upstreamIndex q.tx.trusteeIndex = q.tx.id.uniqueInfo := by
              apply Subtype.ext
              rw [hlast, ← hpu, ← k3, hqu]
              exact (buildUniqueInfo_last g5 _ _ _).symm
            unfold PartialDecryptionTx.buildId Identifier.new
            rw [hu]
            cases hqid : q.tx.id
            rw [hqid] at k1 k2
            subst k1
            subst k2
            rfl
          rw [this]
          exact g1
        · intro hq
          have hqi : q.tx.id = _ := MemStore.get_id hm.wf hq
          have : .partialDecryption q ∈ ps.map SignedTx.partialDecryption := by
            refine (h2 _).2 ⟨?_, between_last.2 ?_⟩
            · show m.getTransaction q.tx.id = _
              rw [hqi]
              exact hq
            · show q.tx.id.electionId = _ ∧ q.tx.id.txType = _ ∧ q.tx.id.uniqueInfo.val.take 15 = _
              rw [hqi]
              refine ⟨rfl, rfl, ?_⟩
              show (buildUniqueInfo _ _ _ _).val.take 15 = _
              rw [hlast, ← hpu]
              apply List.take_left'
              have := p.tx.id.uniqueInfo.property
              simp
              omega
          obtain ⟨q', hq', heq⟩ := List.mem_map.1 this
          cases heq
          exact hq'
      have htrust : ∀ q ∈ ps, ∃ tr ∈ e0.trustees, tr.index = q.tx.trusteeIndex := by
        intro q hq
        have hq := (hmem q).1 hq
        have hqi : q.tx.id = _ := MemStore.get_id hm.wf hq
        obtain ⟨m1, _, hf1, hv1, hst1⟩ := hm.accepted hq
        obtain ⟨e1, he1, ⟨tr, hm1, hi1, _⟩, hid1, _⟩ := PartialDecryptionTx.validateTx_ok.1 (SignedTx.validate_ok.1 hv1).2.2
        have he1' : ElectionAt m.toStore q.tx.electionId e1 := he1.imp fun _ h => (Extends.set_fresh hf1).trans hst1.extends _ _ h
        have x1 := hm.replay.election_id he1'
        have x2 := hm.replay.election_id he
        have x3 : q.tx.electionId.electionId = p.tx.electionId.electionId := by
          have := congrArg Identifier.electionId hid1
          rw [hqi] at this
          rw [← heid]
          exact this.symm
        have : q.tx.electionId = p.tx.electionId := by
          rw [x1, x2]
          unfold singleId
          rw [x3]
        rw [this] at he1'
        obtain ⟨sg1, he1'⟩ := he1'
        obtain ⟨sg, he⟩ := he
        rw [he] at he1'
        cases he1'
        exact ⟨tr, hm1, hi1⟩
      have hnd : (ps.map (·.tx.trusteeIndex)).Nodup := by
        have h4 := idLt_nodup h3
        rw [List.map_map] at h4
        refine List.Nodup.of_map (fun i => PartialDecryptionTx.buildId e0.id p.tx.upstreamId p.tx.contestIndex p.tx.upstreamIndex i) ?_
        rw [List.map_map]
        have : ps.map ((fun i => PartialDecryptionTx.buildId e0.id p.tx.upstreamId p.tx.contestIndex p.tx.upstreamIndex i) ∘ fun q => q.tx.trusteeIndex) = ps.map (SignedTx.id ∘ SignedTx.partialDecryption) := by
          apply List.map_congr_left
          intro q hq
          exact (MemStore.get_id hm.wf ((hmem q).1 hq)).symm
        rw [this]
        exact h4
      refine ⟨_, rfl, heid, rfl, rfl, rfl, hnd, ?_, by rw [List.length_map]; rwa [List.length_map] at hle, ?_⟩
      · intro i
        constructor
        · intro hi
          obtain ⟨q, hq, rfl⟩ := List.mem_map.1 hi
          exact ⟨q, (partialFor_iff hm.replay hty).1 ((hmem q).1 hq)⟩
        · rintro ⟨q, hq⟩
          have := hq.trustee
          subst this
          exact List.mem_map.2 ⟨q, (hmem q).2 ((partialFor_iff hm.replay hty).2 hq), rfl⟩
      · refine SignedTx.validate_ok.2 ⟨rfl, by rintro k ⟨⟩, DecryptionTx.validateTx_ok.2 ⟨rfl, e0, by rw [heid]; exact he, _, hcts, pks', hg, ps, by simp, ?_, ?_, ?_⟩⟩
        · intro n i q hi hq
          simp only [List.getElem?_map, hq, Option.map_some, Option.some.injEq] at hi
          subst hi
          have hq := List.mem_of_getElem? hq
          exact ⟨htrust q hq, (hmem q).1 hq⟩
        · rw [List.length_map]
          rwa [List.length_map] at hle
        · have : decryptVote N.toEnv cts' e0.trusteesThreshold e0.getFullTrustees (pks'.map (·.tx)) (ps.map (·.tx)) = .ok dec := hdec
          unfold decryptVote at this ⊢
          rwa [decryptVoteFrom_full] at this
    · left
      cases h
      rfl
  · left
    cases h
    rfl


/-- **C46** (no decryption is forgotten) If the partial decryptions of at least `threshold` trustees for the item are stored, then a trustee's node that reacts normally to one of
them does submit a decryption. -/
theorem C46_decryption_when_quorum (N : NodeEnv) (rng : Rng) (sk : SecretKey) (m : MemStore) (hm : Ledger N.toEnv m) (p : Signed PartialDecryptionTx)
    (hp : InStore m.toStore (.partialDecryption p)) (e : ElectionTx) (he : ElectionAt m.toStore p.tx.electionId e) (hkey : TrusteeKey e (N.edPublic sk))
    (qs : List (Signed PartialDecryptionTx)) (hnd : qs.Nodup) (hlen : e.trusteesThreshold.toNat ≤ qs.length)
    (hqs : ∀ q ∈ qs, InStore m.toStore (.partialDecryption q) ∧ q.tx.electionId = p.tx.electionId ∧ q.tx.upstreamId = p.tx.upstreamId ∧
      q.tx.upstreamIndex = p.tx.upstreamIndex ∧ q.tx.contestIndex = p.tx.contestIndex)
    (l : List SignedTx) (h : generateTransactions N rng sk m.toStore (.partialDecryption p) = .ok l) : l ≠ [] := by
  obtain ⟨esig, hel⟩ := getElection_at he
  have heid := electionAt_id hm.lawful he
  obtain ⟨tr, htr⟩ := trusteeFromElection_of hkey
  obtain ⟨_, hpid, hty⟩ := hm.replay.partial_id hp
  simp only [generateTransactions, processPartialDecryption, hel, v_ok, Res.bind_def, Res.ok_bind, htr, Res.bind_eq_ok, v_eq_ok] at h
  obtain ⟨raw, hraw, h⟩ := h
  obtain ⟨raw', h1, h2, h3⟩ := hm.lawful.range_ok _ _ (((between_last (e := e.id) (u := p.tx.id.uniqueInfo) (ty := .partialDecryption)
    (id := { e.id with txType := .partialDecryption, uniqueInfo := withLast p.tx.id.uniqueInfo 255 })).2
      ⟨rfl, rfl, List.take_left' (by have := p.tx.id.uniqueInfo.property; simp; omega)⟩).1)
  rw [hraw] at h1
  cases h1
  have hle : e.trusteesThreshold.toNat ≤ raw.length := by
    refine Nat.le_trans hlen ?_
    rw [← List.length_map (as := qs) SignedTx.partialDecryption]
    refine (List.Nodup.subperm (hnd.map fun a b h => SignedTx.partialDecryption.inj h) ?_).length_le
    intro x hx
    obtain ⟨q, hq, rfl⟩ := List.mem_map.1 hx
    obtain ⟨k1, k2, k3, k4, k5⟩ := hqs q hq
    refine (h2 _).2 ⟨k1, between_last.2 ?_⟩
    obtain ⟨_, hqid, _⟩ := hm.replay.partial_id k1
    rw [k2, k3, k4, k5] at hqid
    show q.tx.id.electionId = _ ∧ q.tx.id.txType = _ ∧ q.tx.id.uniqueInfo.val.take 15 = _
    rw [hqid, hpid, heid]
    refine ⟨rfl, rfl, ?_⟩
    show (buildUniqueInfo _ _ _ _).val.take 15 = (buildUniqueInfo _ _ _ _).val.take 15
    rw [buildUniqueInfo_last hty p.tx.contestIndex q.tx.trusteeIndex p.tx.trusteeIndex]
    refine List.take_left' ?_
    have := (buildUniqueInfo p.tx.upstreamId p.tx.contestIndex p.tx.upstreamIndex p.tx.trusteeIndex).property
    simp
    omega
  rw [if_pos hle] at h
  simp only [Res.bind_eq_ok] at h
  obtain ⟨_, _, _, _, _, _, _, _, _, _, _, _, hl⟩ := h
  cases hl
  simp

/-- the full history of the example: the last partial decryption of each item makes trustee 1's node submit a decryption -/
example : Ledger Toy.env (MemStore.ofList (Toy.complete.take 17)) ∧ (Toy.complete.take 17).getLast?.map SignedTx.id = some (Toy.partialTx 1 "b" 2 12).id ∧
    (match Toy.reaction 11 (Toy.complete.take 17) (Toy.partialTx 1 "b" 2 12) with
    | [.decryption d] => decide (d.tx.trustees = [1, 2] ∧ d.tx.decryptedVote = [Toy.sel "b"])
    | _ => false) = true :=
  ⟨ledger_of_run (by decide +kernel), by decide +kernel, by decide +kernel⟩

end CB
