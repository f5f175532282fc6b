import Verif.Lemmas.NetTally
/-!
# Things that nodes decrypt: encrypted votes, or positions of mixes
-/

namespace CB
open Spec Server

namespace Setup

variable {N : NodeEnv} {K : List SecretKey} {e : ElectionTx} {sk : UInt8 → SecretKey} {run : KeyGenRun N} {key : ElGamalKey} {Enc : Ciphertext → Bytes → Prop} {s : Network}

/-- Contest `c`'s ciphertexts at position `n` of the vote or mix `src`, which has the id `up`; they encrypt `sel`. -/
structure Target (N : NodeEnv) (e : ElectionTx) (sk : UInt8 → SecretKey) (run : KeyGenRun N) (key : ElGamalKey) (Enc : Ciphertext → Bytes → Prop) (s : Network) (src : SignedTx)
    (up : Identifier) (n : UInt16) (c : UInt32) (cts : List Ciphertext) (sel : List Selection) : Prop where
  filed : up.electionId = e.id.electionId
  type : (up.txType = .vote ∧ n = 0) ∨ up.txType = .mix
  enc : EncryptsTo Enc cts sel
  /-- what is stored once the source is -/
  ready : ∀ u, src ∈ s.ledger.take u → View N e sk run key (at' s u) ∧ Filled e (at' s u) .keyGenPublicKey ∧ Filled e (at' s u) .keyGenShare
  /-- where validation and nodes find the ciphertexts -/
  found : ∀ u, src ∈ s.ledger.take u → encryptedVoteFromUpstream (at' s u) up n c e.mixConfig = .ok cts
  upstream : ∀ u, src ∈ s.ledger.take u → ∀ t : PartialDecryptionTx, t.upstreamId = up → t.upstreamIndex = n → t.contestIndex = c → upstreamCiphertexts (at' s u) t = .ok cts
  source : ∀ u cts', encryptedVoteFromUpstream (at' s u) up n c e.mixConfig = .ok cts' → src ∈ s.ledger.take u
  /-- the partial decryptions in its place are the trustees' shares of the ciphertexts -/
  partials : ∀ t ∈ s.ledger, ∀ i, t.id = PartialDecryptionTx.buildId e.id up c n i →
    ∃ tr ∈ e.getFullTrustees, tr.index = i ∧ ∃ ds, SharesOf N run tr cts ds ∧ t = partialTx N e sk tr up n c ds
  /-- the decryptions in its place name it -/
  decryptions : ∀ t : Signed DecryptionTx, .decryption t ∈ s.ledger → t.tx.id = DecryptionTx.buildId e.id up c n →
    t.tx.electionId = e.id ∧ t.tx.upstreamId = up ∧ t.tx.contestIndex = c ∧ t.tx.upstreamIndex = n

variable {src : SignedTx} {up : Identifier} {n : UInt16} {c : UInt32} {cts : List Ciphertext} {sel : List Selection}

theorem Held.in_ledger (h : Held N K e sk run key s) {t : SignedTx} : InStore s.store.toStore t ↔ t ∈ s.ledger := Network.stored_iff_mem h.hist.sound.nodup t

/-- A trustee's partial decryption of an item is acceptable once voting has ended. -/
theorem Held.partial_valid (h : Held N K e sk run key s) (hW : Works N e run Enc) (hI : Target N e sk run key Enc s src up n c cts sel) {u : Nat} (hv : src ∈ s.ledger.take u)
    (hend : SlotFilled (at' s u) e.id .votingEnd) {tr : Trustee} (htr : tr ∈ e.getFullTrustees) {ds : List DecryptShare}
    (hds : SharesOf N run tr cts ds) : (partialTx N e sk tr up n c ds).validate N.toEnv (at' s u) = .ok () := by
  obtain ⟨hV, hpk, -⟩ := hI.ready _ hv
  obtain ⟨x, hx⟩ := hpk tr htr
  have hxid := hV.lawful.keyed _ _ hx
  have hxin : InStore (at' s u) x := by unfold InStore; rw [hxid]; exact hx
  have hxk : kindOf x = .keyGenPublicKey := by rw [← hV.typed x hxin, hxid]; rfl
  obtain ⟨pk, rfl⟩ : ∃ pk, x = .keyGenPublicKey pk := by cases x <;> simp [kindOf] at hxk; exact ⟨_, rfl⟩
  obtain ⟨tr', htr', rfl⟩ := hV.honest _ hxin (by rw [hxid]; rfl)
  have := full_inj h.nodes.trustees htr' htr (slot_inj (ty := .keyGenPublicKey) (e := e) hxid)
  subst this
  refine SignedTx.validate_ok.2 ⟨rfl, ?_, PartialDecryptionTx.validateTx_ok.2 ⟨e, hV.election, full_isTrustee htr, rfl, hend, _, ?_, pkTx N e run key tr', _, hx, rfl, rfl,
    hds.1.symm, ?_⟩⟩
  · rintro k ⟨⟩
    show N.edVerify tr'.publicKey _ _ = true
    rw [← h.nodes.held' htr]
    exact h.nodes.sign _ _
  · exact hI.found _ hv
  · intro j d ct hd hct
    obtain ⟨r, hr⟩ := hds.2 j ct hct
    have hd : ds[j]? = some d := hd
    rw [hd] at hr
    cases hr
    have hj : j < sel.length := by rw [← hI.enc.length_eq]; exact (List.getElem?_eq_some_iff.1 hct).1
    exact (hW ct _ (hI.enc.get hct (List.getElem?_eq_getElem hj)).2).1 _ (full_idx htr) r

/-- partial decryptions of a quorum's trustees decrypt the item -/
theorem Held.quorum_decrypts (h : Held N K e sk run key s) (hW : Works N e run Enc) (hI : Target N e sk run key Enc s src up n c cts sel) {ps : List (Signed PartialDecryptionTx)}
    (hps : ∀ p ∈ ps, .partialDecryption p ∈ s.ledger ∧ p.tx.id = PartialDecryptionTx.buildId e.id up c n p.tx.trusteeIndex)
    (hq : e.trusteesThreshold.toNat ≤ (e.getFullTrustees.filter fun tr => decide (tr.index ∈ (ps.map (·.tx)).map (·.trusteeIndex))).length) :
    decryptVote N.toEnv cts e.trusteesThreshold e.getFullTrustees ((sorted e).getFullTrustees.map (pkTx N e run key)) (ps.map (·.tx)) = .ok sel := by
  refine Setup.quorum_decrypts h.nodes.trustees hW hI.enc ?_ hq
  intro p hp tr htr hi
  obtain ⟨p, hp0, rfl⟩ := List.mem_map.1 hp
  obtain ⟨h1, h2⟩ := hps p hp0
  obtain ⟨tr', htr', hi', ds, hds, heq⟩ := hI.partials _ h1 _ h2
  cases heq
  rw [full_inj h.nodes.trustees htr htr' (hi.trans hi'.symm)]
  exact hds

theorem Held.partials_decrypt (h : Held N K e sk run key s) (hW : Works N e run Enc) (hI : Target N e sk run key Enc s src up n c cts sel) {ps : List (Signed PartialDecryptionTx)}
    (hps : ∀ p ∈ ps, .partialDecryption p ∈ s.ledger ∧ p.tx.id = PartialDecryptionTx.buildId e.id up c n p.tx.trusteeIndex)
    (hnd : (ps.map (·.tx.trusteeIndex)).Nodup) (hlen : e.trusteesThreshold.toNat ≤ ps.length) :
    decryptVote N.toEnv cts e.trusteesThreshold e.getFullTrustees ((sorted e).getFullTrustees.map (pkTx N e run key)) (ps.map (·.tx)) = .ok sel := by
  refine h.quorum_decrypts hW hI hps (Nat.le_trans hlen ?_)
  rw [← List.length_map (as := ps) (·.tx.trusteeIndex)]
  refine quorum_count hnd ?_ ?_
  · intro i hi
    obtain ⟨p, hp, rfl⟩ := List.mem_map.1 hi
    obtain ⟨h1, h2⟩ := hps p hp
    obtain ⟨tr, htr, h1, -⟩ := hI.partials _ h1 _ h2
    exact ⟨tr, htr, h1⟩
  · intro i hi
    rw [List.map_map]
    exact hi

/-- the shares that decryption uses come from distinct trustees -/
theorem sharesFor_count {trs : List Trustee} {pks : List KeyGenPublicKeyTx} {ps : List PartialDecryptionTx} {j : Nat} {shares : List (Nat × PubkeyProof × DecryptShare)}
    (h : CB.sharesFor trs pks ps j = .ok shares) : shares.length ≤ (trs.filter fun tr => decide (tr.index ∈ ps.map (·.trusteeIndex))).length := by
  unfold CB.sharesFor at h
  induction trs generalizing shares with
  | nil => cases h; simp
  | cons tr trs ih =>
    simp only [Res.flatMapM, Res.bind_eq_ok] at h
    obtain ⟨y, hy, ys, hys, h⟩ := h
    cases h
    have := ih hys
    rw [List.length_append, List.filter_cons]
    cases hl : lastByIndex (·.trusteeIndex) tr.index ps with
    | none =>
      rw [hl] at hy
      cases hy
      split <;> simp only [List.length_nil, List.length_cons] <;> omega
    | some p =>
      have hin : tr.index ∈ ps.map (·.trusteeIndex) := by
        obtain ⟨h1, h2⟩ := lastByIndex_mem hl
        exact List.mem_map.2 ⟨p, h1, h2⟩
      rw [if_pos (by simpa using hin), List.length_cons]
      rw [hl] at hy
      have : y.length ≤ 1 := by
        split at hy
        · simp only [Res.bind_def, Res.bind_eq_ok, Res.pure_def] at hy
          obtain ⟨_, _, hy⟩ := hy
          cases hy
          simp
        · cases hy
          simp
      omega

theorem Held.pks_at (h : Held N K e sk run key s) {u : Nat} (hV : View N e sk run key (at' s u)) (hF : Filled e (at' s u) .keyGenPublicKey)
    {pks : List (Signed KeyGenPublicKeyTx)} (hp : (at' s u).getMultiple e.id .keyGenPublicKey = .ok (pks.map .keyGenPublicKey)) :
    pks.map (·.tx) = (sorted e).getFullTrustees.map (pkTx N e run key) := by
  obtain ⟨ps, h1, -, -, -, h2⟩ := hV.pks h.nodes
  rw [hp] at h1
  have h1 := Res.ok.inj h1
  have : pks = ps := List.map_inj_right (fun _ _ h => SignedTx.keyGenPublicKey.inj h) |>.1 h1
  rw [this]
  exact h2 hF

/-- Decryptions of an item are what was encrypted, if they list no trustee twice, or the primitive insists on a quorum of shares, or one trustee
is enough. -/
theorem Held.decryption_right (h : Held N K e sk run key s) (hW : Works N e run Enc) (hI : Target N e sk run key Enc s src up n c cts sel) {t : Signed DecryptionTx}
    (ht : .decryption t ∈ s.ledger) (hid : t.tx.id = DecryptionTx.buildId e.id up c n) (hnd : t.tx.trustees.Nodup ∨ QuorumNeeded N ∨ e.trusteesThreshold.toNat ≤ 1) : t.tx.decryptedVote = sel := by
  obtain ⟨hname, hup, hc, hn⟩ := hI.decryptions t ht hid
  obtain ⟨i, hi⟩ := List.getElem?_of_mem ht
  have hv := h.hist.accepted i _ hi
  obtain ⟨-, e', he', cts, hcts, pks, hpks, ps, hlen, hps, hth, hdec⟩ := DecryptionTx.validateTx_ok.1 (SignedTx.validate_ok.1 hv).2.2
  rw [hname, hup, hc, hn] at *
  have := h.uniq he'
  subst this
  have hvi : src ∈ s.ledger.take i := hI.source _ _ hcts
  have hcts' := hI.found _ hvi
  rw [hcts] at hcts'
  have := Res.ok.inj hcts'
  subst this
  obtain ⟨hV, hF, -⟩ := hI.ready _ hvi
  rw [h.pks_at hV hF hpks] at hdec
  have hpn : ∀ (j : Nat) (p : Signed PartialDecryptionTx), ps[j]? = some p → .partialDecryption p ∈ s.ledger ∧
      p.tx.id = PartialDecryptionTx.buildId e'.id up c n p.tx.trusteeIndex ∧ t.tx.trustees[j]? = some p.tx.trusteeIndex := by
    intro j p hn
    have hnl : j < t.tx.trustees.length := by rw [← hlen]; exact (List.getElem?_eq_some_iff.1 hn).1
    obtain ⟨-, hg⟩ := hps j _ p (List.getElem?_eq_getElem hnl) hn
    obtain ⟨h4, h5⟩ := (Network.get_some (Network.nodup_take h.hist.sound.nodup i)).1 hg
    have h4 := List.mem_of_mem_take h4
    obtain ⟨tr, -, h6, ds, -, heq⟩ := hI.partials _ h4 _ h5
    cases heq
    refine ⟨h4, rfl, ?_⟩
    rw [List.getElem?_eq_getElem hnl, ← h6]
    rfl
  have hps' : ∀ p ∈ ps, .partialDecryption p ∈ s.ledger ∧ p.tx.id = PartialDecryptionTx.buildId e'.id up c n p.tx.trusteeIndex := by
    intro p hp
    obtain ⟨j, hn⟩ := List.getElem?_of_mem hp
    exact ⟨(hpn j p hn).1, (hpn j p hn).2.1⟩
  suffices hfull : decryptVote N.toEnv cts e'.trusteesThreshold e'.getFullTrustees ((sorted e').getFullTrustees.map (pkTx N e' run key)) (ps.map (·.tx)) = .ok sel by
    unfold decryptVote at hdec hfull
    rw [decryptVoteFrom_full] at hfull
    rw [hfull] at hdec
    exact (Res.ok.inj hdec).symm
  rcases hnd with hnd | hnd | hnd
  · refine h.partials_decrypt hW hI hps' ?_ (by rw [hlen]; exact hth)
    have : ps.map (·.tx.trusteeIndex) = t.tx.trustees := by
      apply List.ext_getElem?
      intro n
      rw [List.getElem?_map]
      cases hn : ps[n]? with
      | none =>
        rw [List.getElem?_eq_none_iff] at hn
        rw [List.getElem?_eq_none (by omega)]
        rfl
      | some p =>
        rw [(hpn n p hn).2.2]
        rfl
    rw [this]
    exact hnd
  · cases hsel : sel with
    | nil =>
      have := hI.enc
      rw [hsel] at this
      cases this
      rfl
    | cons x xs =>
      rw [← hsel]
      refine h.quorum_decrypts hW hI hps' ?_
      unfold decryptVote at hdec
      rw [decryptVoteFrom_ok] at hdec
      obtain ⟨hl, hdec⟩ := hdec
      rw [hI.enc.length_eq] at hl
      have h0 : 0 < t.tx.decryptedVote.length := by rw [hl, hsel]; simp
      have h0' : 0 < cts.length := by rw [hI.enc.length_eq, hsel]; simp
      obtain ⟨shares, raw, h1, h2, -⟩ := hdec 0 _ _ (List.getElem?_eq_getElem h0') (List.getElem?_eq_getElem h0)
      rw [← sharesFor_full] at h1
      exact Nat.le_trans (hnd _ _ _ _ h2) (sharesFor_count h1)
  · refine h.quorum_decrypts hW hI hps' (Nat.le_trans hnd ?_)
    have h0 : 0 < ps.length := by have := h.nodes.trustees.threshold; omega
    obtain ⟨p, hp⟩ := List.exists_mem_of_length_pos h0
    refine quorum_count (I := [p.tx.trusteeIndex]) (by simp) ?_ ?_
    · intro i hi
      rw [List.mem_singleton] at hi
      subst hi
      obtain ⟨h1, h2⟩ := hps' p hp
      obtain ⟨tr, htr, h1, -⟩ := hI.partials _ h1 _ h2
      exact ⟨tr, htr, h1⟩
    · intro i hi
      rw [List.mem_singleton] at hi
      subst hi
      rw [List.map_map]
      exact List.mem_map_of_mem hp

/-- Partial decryptions come after what they decrypt. -/
theorem Held.source_before (h : Held N K e sk run key s) (hI : Target N e sk run key Enc s src up n c cts sel) {m : Nat} {t : SignedTx} (hm : s.ledger[m]? = some t) {i : UInt8}
    (hid : t.id = PartialDecryptionTx.buildId e.id up c n i) : src ∈ s.ledger.take m := by
  obtain ⟨tr, htr, hi, ds, hds, rfl⟩ := hI.partials _ (List.mem_of_getElem? hm) _ hid
  have hv := h.hist.accepted m _ hm
  obtain ⟨e', he', -, -, -, cts, hcts, -⟩ := PartialDecryptionTx.validateTx_ok.1 (SignedTx.validate_ok.1 hv).2.2
  have he' : ElectionAt (at' s m) e.id e' := he'
  have := h.uniq he'
  subst this
  exact hI.source _ _ hcts

theorem exists_partials {l : List SignedTx} (h : ∀ t ∈ l, ∃ p, t = .partialDecryption p) : ∃ ps : List (Signed PartialDecryptionTx), l = ps.map SignedTx.partialDecryption := by
  induction l with
  | nil => exact ⟨[], rfl⟩
  | cons t l ih =>
    obtain ⟨p, rfl⟩ := h _ (List.mem_cons_self ..)
    obtain ⟨ps, rfl⟩ := ih fun t ht => h t (List.mem_cons_of_mem _ ht)
    exact ⟨p :: ps, rfl⟩

/-- what a node finds when it looks for the partial decryptions of the item -/
theorem Held.window (h : Held N K e sk run key s) (hI : Target N e sk run key Enc s src up n c cts sel) (u : Nat) (i : UInt8) :
    ∃ ps : List (Signed PartialDecryptionTx),
      (at' s u).range { e.id with txType := .partialDecryption, uniqueInfo := withLast (PartialDecryptionTx.buildId e.id up c n i).uniqueInfo 0 }
        { e.id with txType := .partialDecryption, uniqueInfo := withLast (PartialDecryptionTx.buildId e.id up c n i).uniqueInfo 255 } = .ok (ps.map .partialDecryption) ∧
      (∀ p ∈ ps, .partialDecryption p ∈ s.ledger ∧ p.tx.id = PartialDecryptionTx.buildId e.id up c n p.tx.trusteeIndex) ∧
      (ps.map (·.tx.trusteeIndex)).Nodup := by
  have hm := h.hist.sound.ledger u
  have hty := hI.type
  generalize hU : (PartialDecryptionTx.buildId e.id up c n i).uniqueInfo = U
  have hU' : U = buildUniqueInfo up c n i := by rw [← hU]; rfl
  obtain ⟨raw, h1, h2, h3⟩ := hm.lawful.range_ok _ _ (((between_last (e := e.id) (u := U) (ty := .partialDecryption)
    (id := { e.id with txType := .partialDecryption, uniqueInfo := withLast U 255 })).2
      ⟨rfl, rfl, List.take_left' (by have := U.property; simp; omega)⟩).1)
  have hall : ∀ t ∈ raw, ∃ p : Signed PartialDecryptionTx, t = .partialDecryption p ∧ .partialDecryption p ∈ s.ledger ∧
      p.tx.id = PartialDecryptionTx.buildId e.id up c n p.tx.trusteeIndex := by
    intro t ht
    obtain ⟨g1, g2⟩ := (h2 t).1 ht
    obtain ⟨k1, k2, k3⟩ := between_last.1 g2
    have hk := hm.replay.typedStore t g1
    rw [k2] at hk
    cases t with
    | partialDecryption q =>
      refine ⟨q, rfl, List.mem_of_mem_take (h.in_take.1 g1), ?_⟩
      obtain ⟨-, g4, g5⟩ := hm.replay.partial_id g1
      have k1 : q.tx.id.electionId = e.id.electionId := k1
      have k2 : q.tx.id.txType = .partialDecryption := k2
      have k3 : q.tx.id.uniqueInfo.val.take 15 = U.val.take 15 := k3
      have hqu : q.tx.id.uniqueInfo = buildUniqueInfo q.tx.upstreamId q.tx.contestIndex q.tx.upstreamIndex q.tx.trusteeIndex := by rw [g4]; rfl
      have hu : q.tx.id.uniqueInfo = buildUniqueInfo up c n q.tx.trusteeIndex := by
        apply Subtype.ext
        rw [buildUniqueInfo_last hty c q.tx.trusteeIndex i, ← hU', ← k3, hqu]
        exact buildUniqueInfo_last g5 _ _ _
      unfold PartialDecryptionTx.buildId Identifier.new
      simp only [Option.getD_some]
      rw [← hu]
      cases hqid : q.tx.id
      rw [hqid] at k1 k2
      subst k1
      subst k2
      rfl
    | _ => simp [kindOf] at hk
  obtain ⟨ps, rfl⟩ := exists_partials (l := raw) fun t ht => (hall t ht).imp fun _ h => h.1
  have hps : ∀ p ∈ ps, .partialDecryption p ∈ s.ledger ∧ p.tx.id = PartialDecryptionTx.buildId e.id up c n p.tx.trusteeIndex := by
    intro p hp
    obtain ⟨q, hq, h4⟩ := hall _ (List.mem_map_of_mem hp)
    cases hq
    exact h4
  refine ⟨ps, h1, hps, ?_⟩
  have h4 := idLt_nodup h3
  rw [List.map_map] at h4
  refine List.Nodup.of_map (fun i => PartialDecryptionTx.buildId e.id up c n i) ?_
  rw [List.map_map]
  have : ps.map ((fun i => PartialDecryptionTx.buildId e.id up c n i) ∘ fun q => q.tx.trusteeIndex) = ps.map (SignedTx.id ∘ SignedTx.partialDecryption) := by
    apply List.map_congr_left
    intro q hq
    exact (hps q hq).2.symm
  rw [this]
  exact h4

/-- Nodes react normally to the partial decryptions of an item. -/
theorem Held.partial_reacts (h : Held N K e sk run key s) (hW : Works N e run Enc) (hI : Target N e sk run key Enc s src up n c cts sel) {u : Nat} {t : SignedTx}
    (ht : t ∈ s.ledger.take u) {i : UInt8} (hid : t.id = PartialDecryptionTx.buildId e.id up c n i) (rng : Rng) (k : SecretKey) :
    ∃ l, generateTransactions N rng k (at' s u) t = .ok l := by
  obtain ⟨m, hmu, hm⟩ := mem_take ht
  have hv : src ∈ s.ledger.take u := by
    obtain ⟨j, hj, hj'⟩ := mem_take (h.source_before hI hm hid)
    exact take_mem hj' (by omega)
  obtain ⟨hV, hF, -⟩ := hI.ready _ hv
  obtain ⟨tr, htr, rfl, ds, hds, rfl⟩ := hI.partials _ (List.mem_of_getElem? hm) _ hid
  obtain ⟨esig, hel⟩ := getElection_at hV.election
  obtain ⟨ps, hraw, hps, hnd⟩ := h.window hI u tr.index
  obtain ⟨pks, -, hpks, -, -, hpks'⟩ := hV.pks h.nodes
  rw [hpks' hF] at hpks
  have hcts := hI.upstream _ hv (PartialDecryptionTx.new e.id up n tr.index c tr.publicKey ds) rfl rfl rfl
  unfold partialTx signedBy
  simp only [generateTransactions, processPartialDecryption, show (PartialDecryptionTx.new e.id up n tr.index c tr.publicKey ds).electionId = e.id from rfl, hel, v_ok, Res.bind_def, Res.ok_bind]
  cases htk : trusteeFromElection e (N.edPublic k) with
  | none => exact ⟨_, rfl⟩
  | some tr' =>
    simp only [show (PartialDecryptionTx.new e.id up n tr.index c tr.publicKey ds).id = PartialDecryptionTx.buildId e.id up c n tr.index from rfl, hraw, v_ok, Res.ok_bind]
    split
    · rename_i hle
      rw [List.length_map] at hle
      have hinto := (mapM'_into (fun t s => SignedTx.intoPartialDecryption_ok (t := t) (s := s))).2 (rfl : ps.map SignedTx.partialDecryption = _)
      have hdec := h.partials_decrypt hW hI hps hnd hle
      simp only [hinto, v_ok, Res.ok_bind, hcts, hpks, hdec, DecryptionTx.new]
      rw [if_neg (by simp [PartialDecryptionTx.new, hI.filed])]
      simp only [Res.ok_bind]
      rw [sign_eq (by rintro k ⟨⟩)]
      exact ⟨_, rfl⟩
    · exact ⟨_, rfl⟩

/-- An acceptable decryption remains acceptable. -/
theorem Held.decryption_valid (h : Held N K e sk run key s) {d : Signed DecryptionTx} (hname : d.tx.electionId = e.id) {w w' : Nat} (hw : w ≤ w')
    (hV : View N e sk run key (at' s w)) (hF : Filled e (at' s w) .keyGenPublicKey)
    (hv : (SignedTx.decryption d).validate N.toEnv (at' s w) = .ok ()) : (SignedTx.decryption d).validate N.toEnv (at' s w') = .ok () := by
  obtain ⟨h1, h2, h3⟩ := SignedTx.validate_ok.1 hv
  obtain ⟨hid, e', ⟨sg, he'⟩, cts, hcts, pks, hpks, ps, hlen, hps, hth, hdec⟩ := DecryptionTx.validateTx_ok.1 h3
  have hext := h.extends hw
  obtain ⟨sg', hel⟩ := hV.election
  have hV' : View N e sk run key (at' s w') := h.view ⟨sg', hext _ _ hel⟩
  obtain ⟨pks', h4, -, -, -, h5⟩ := hV'.pks h.nodes
  rw [hname] at hpks
  have h6 := h.pks_at hV hF hpks
  have h7 := h5 (h.filled_mono hw hF)
  refine SignedTx.validate_ok.2 ⟨h1, h2, DecryptionTx.validateTx_ok.2 ⟨hid, e', ⟨sg, hext _ _ he'⟩, cts, encryptedVoteFromUpstream_extends hext hcts, pks', by rw [hname]; exact h4, ps, hlen, ?_, hth, ?_⟩⟩
  · intro n i p hi hp
    obtain ⟨h8, h9⟩ := hps n i p hi hp
    exact ⟨h8, hext _ _ h9⟩
  · rw [h7, ← h6]
    exact hdec

/-- Once a quorum's partial decryptions of an item are on the ledger and some trustee's node has reacted to all of them, the decryption is on the ledger too (unless it is still on
its way). -/
theorem Held.decryption_posted (h : Held N K e sk run key s) (hI : Target N e sk run key Enc s src up n c cts sel)
    (hdel : ∀ t ∈ s.pending, t.id.electionId ≠ e.id.electionId) {Q : List UInt8} (hQ : Q.Nodup) (hlen : e.trusteesThreshold.toNat ≤ Q.length)
    (hposted : ∀ i ∈ Q, PartialDecryptionTx.buildId e.id up c n i ∈ s.ledger.map SignedTx.id) {k : SecretKey} (hk : TrusteeKey e (N.edPublic k))
    (hr : ∀ i ∈ Q, ∀ (m : Nat) (t : SignedTx), s.ledger[m]? = some t → t.id = PartialDecryptionTx.buildId e.id up c n i → (k, m) ∈ s.reacted) :
    DecryptionTx.buildId e.id up c n ∈ s.ledger.map SignedTx.id := by
  have hne : Q ≠ [] := by
    have := h.nodes.trustees.threshold
    intro h0
    rw [h0, List.length_nil] at hlen
    omega
  obtain ⟨m, t, hm, hT, hlast⟩ := Network.exists_last (Q.map fun i => PartialDecryptionTx.buildId e.id up c n i) (by simpa using hne) (by
    intro x hx
    obtain ⟨i, hi, rfl⟩ := List.mem_map.1 hx
    exact hposted i hi)
  obtain ⟨i, hiQ, hid⟩ := List.mem_map.1 hT
  have hid := hid.symm
  obtain ⟨-, w, rng, x, l, hmw, hwl, hx, hl, hall⟩ := h.hist.reacted _ _ (hr i hiQ m t hm hid)
  rw [hm] at hx
  cases hx
  have htw : t ∈ s.ledger.take w := take_mem hm hmw
  have hv : src ∈ s.ledger.take w := by
    obtain ⟨j, hj, hj'⟩ := mem_take (h.source_before hI hm hid)
    exact take_mem hj' (by omega)
  obtain ⟨hV, hF, -⟩ := hI.ready _ hv
  obtain ⟨tr, htr, hi, ds, hds, heq⟩ := hI.partials _ (List.mem_of_getElem? hm) _ hid
  -- the quorum's partial decryptions
  have hqs : ∀ i ∈ Q, ∃ q : Signed PartialDecryptionTx, InStore (at' s w) (.partialDecryption q) ∧ q.tx.trusteeIndex = i ∧ q.tx.electionId = e.id ∧ q.tx.upstreamId = up ∧
      q.tx.upstreamIndex = n ∧ q.tx.contestIndex = c := by
    intro i hi
    obtain ⟨y, hy, hyid⟩ := List.mem_map.1 (hlast _ (List.mem_map_of_mem hi))
    obtain ⟨j, hj, hj'⟩ := mem_take hy
    obtain ⟨tr, htr, h1, ds, hds, rfl⟩ := hI.partials _ (List.mem_of_getElem? hj') _ hyid
    exact ⟨_, h.in_take.2 (take_mem hj' (by omega)), h1, rfl, rfl, rfl, rfl⟩
  obtain ⟨f, hf⟩ : ∃ f : UInt8 → Signed PartialDecryptionTx, ∀ i ∈ Q, InStore (at' s w) (.partialDecryption (f i)) ∧ (f i).tx.trusteeIndex = i ∧ (f i).tx.electionId = e.id ∧
      (f i).tx.upstreamId = up ∧ (f i).tx.upstreamIndex = n ∧ (f i).tx.contestIndex = c := by
    obtain ⟨q0, -⟩ := hqs i hiQ
    exact ⟨fun i => if hi : i ∈ Q then (hqs i hi).choose else q0, fun i hi => by simp only [dif_pos hi]; exact (hqs i hi).choose_spec⟩
  have hp := (h.in_take (v := w)).2 htw
  subst heq
  have hL := h.hist.sound.ledger w
  have hnil := C46_decryption_when_quorum N rng k _ hL _ hp e hV.election hk (Q.map f) (by
      refine List.Nodup.of_map (fun q => q.tx.trusteeIndex) ?_
      rw [List.map_map]
      have : Q.map ((fun q => q.tx.trusteeIndex) ∘ f) = Q := by
        conv => rhs; rw [← List.map_id Q]
        exact List.map_congr_left fun i hi => (hf i hi).2.1
      rw [this]
      exact hQ) (by rw [List.length_map]; exact hlen) (by
      intro q hq
      obtain ⟨i, hi, rfl⟩ := List.mem_map.1 hq
      obtain ⟨h1, -, h2, h3, h4, h5⟩ := hf i hi
      exact ⟨h1, h2, h3, h4, h5⟩) l hl
  rcases C46_decryption_accepted N rng k _ hL _ hp e hV.election l hl with rfl | ⟨d, rfl, h1, h2, h3, h4, -, -, -, hval⟩
  · exact absurd rfl hnil
  have h1 : d.tx.electionId = e.id := h1
  have h2 : d.tx.upstreamId = up := h2
  have h3 : d.tx.upstreamIndex = n := h3
  have h4 : d.tx.contestIndex = c := h4
  have hdid : (SignedTx.decryption d).id = DecryptionTx.buildId e.id up c n := by
    obtain ⟨h5, -⟩ := DecryptionTx.validateTx_ok.1 (SignedTx.validate_ok.1 hval).2.2
    rw [h1, h2, h3, h4] at h5
    exact h5
  rcases hall _ (List.mem_singleton.2 rfl) with h5 | h5 | ⟨w', h5, -, h6⟩
  · rwa [hdid] at h5
  · exact absurd (by rw [hdid]; rfl) (hdel _ h5)
  · exact absurd (h.decryption_valid h1 h5 hV hF hval) h6

theorem Held.decryption_stored (h : Held N K e sk run key s) (hW : Works N e run Enc) {src : SignedTx} {up : Identifier} {n : UInt16} {c : UInt32} {cts : List Ciphertext}
    {sel : List Selection} (hI : Target N e sk run key Enc s src up n c cts sel) (hid : DecryptionTx.buildId e.id up c n ∈ s.ledger.map SignedTx.id) :
    ∃ d : Signed DecryptionTx, .decryption d ∈ s.ledger ∧ d.tx.electionId = e.id ∧ d.tx.upstreamId = up ∧ d.tx.contestIndex = c ∧ d.tx.upstreamIndex = n ∧
      (d.tx.trustees.Nodup ∨ QuorumNeeded N ∨ e.trusteesThreshold.toNat ≤ 1 → d.tx.decryptedVote = sel) := by
  obtain ⟨t, ht, hid⟩ := List.mem_map.1 hid
  have hty := h.hist.sound.whole.replay.typedStore t (h.in_ledger.2 ht)
  rw [hid] at hty
  cases t with
  | decryption d =>
    obtain ⟨h1, h2, h3, h4⟩ := hI.decryptions d ht hid
    exact ⟨d, ht, h1, h2, h3, h4, h.decryption_right hW hI ht hid⟩
  | _ => simp [kindOf, DecryptionTx.buildId, Identifier.new] at hty

end Setup
end CB
