import Verif.Lemmas.NetMix
/-!
# Nodes mix the votes of an election, and decrypt the mixes
-/

namespace CB
open Spec Server

namespace Setup

variable {N : NodeEnv} {K : List SecretKey} {e : ElectionTx} {sk : UInt8 → SecretKey} {run : KeyGenRun N} {key : ElGamalKey} {fits : Bytes → Prop} {s : Network}

/-- what a decryption of the election is about -/
theorem MixHeld.decryption_item (h : MixHeld N K e sk run key s) {t : Signed DecryptionTx} (ht : .decryption t ∈ s.ledger) (hf : t.tx.id.electionId = e.id.electionId) :
    t.tx.electionId = e.id ∧ t.tx.id = DecryptionTx.buildId e.id t.tx.upstreamId t.tx.contestIndex t.tx.upstreamIndex ∧
      ∃ m : Signed MixTx, .mix m ∈ s.ledger ∧ m.tx.id = t.tx.upstreamId ∧ m.tx.id.electionId = e.id.electionId ∧ m.tx.contestIndex = t.tx.contestIndex ∧
        t.tx.upstreamIndex.toNat < m.tx.mixedCiphertexts.length := by
  obtain ⟨i, hi⟩ := List.getElem?_of_mem ht
  have hv := h.hist.accepted i _ hi
  obtain ⟨hid, e', he', cts, hcts, -⟩ := DecryptionTx.validateTx_ok.1 (SignedTx.validate_ok.1 hv).2.2
  have hname : t.tx.electionId = e.id := (h.orderly.names ht (by rw [← hf]; show _ = t.tx.id.electionId; rw [hid]; rfl)).1
  rw [hname] at he' hid
  have := h.uniq he'
  subst this
  have hup : t.tx.upstreamId.electionId = e'.id.electionId := by
    rcases h.mhist.listed i _ hi with hq | ⟨k, _, _, _, hq, w, hw, x, rng, l, hx, hl, hd⟩
    · exact hq.2.2 t rfl hname
    have hxin := (h.in_take (v := w)).2 hx
    have hL := h.hist.sound.ledger w
    obtain ⟨-, h1, hfol⟩ := emitted hL.lawful hxin hl hd
    obtain ⟨h2, hew⟩ := (h.orderly.take w).names hx (h1 ▸ hf)
    cases x with
    | partialDecryption y =>
      have h2 : y.tx.electionId = e'.id := h2
      rcases C46_decryption_accepted N rng k _ hL _ hxin e' (by rw [h2]; exact hew) l hl with rfl | ⟨d, rfl, -, h3, -⟩
      · cases hd
      rw [List.mem_singleton] at hd
      cases hd
      have hm := List.mem_of_mem_take hx
      obtain ⟨hyid, -⟩ := hL.replay.partial_id hxin |>.2
      obtain ⟨-, tr, htr, m, hm', hmf, j, cts', hj, ds, hds, heq⟩ := h.partial_honest hm (by show y.tx.id.electionId = _; rw [hyid, h2]; rfl) rfl
      rw [h3]
      cases heq
      exact hmf
    | _ => simp [follows, kindOf] at hfol
  obtain ⟨cfg, hcfg⟩ := Option.ne_none_iff_exists'.1 h.mixnet
  rw [hcfg] at hcts
  have := encryptedVoteFromUpstream_sound hcts
  cases this with
  | ofMix h1 h2 h3 h4 =>
    rename_i m sg
    obtain ⟨h5, h6⟩ := (Network.get_some (Network.nodup_take h.hist.sound.nodup i)).1 h1
    refine ⟨hname, hid, ⟨m, sg⟩, List.mem_of_mem_take h5, h6, ?_, h3, (List.getElem?_eq_some_iff.1 h4).1⟩
    have h6 : m.id = _ := h6
    show m.id.electionId = _
    rw [h6]
    exact hup

theorem sameItem_index {a b : Identifier} {n k : UInt16} (h : SameItem a n b k) : n = k := by cases h <;> rfl

/-- Nodes decrypt the positions of mixes. -/
theorem MixHeld.target (h : MixHeld N K e sk run key s) {Enc : Ciphertext → Bytes → Prop} {m : Signed MixTx} (hm : .mix m ∈ s.ledger) (hf : m.tx.id.electionId = e.id.electionId)
    (hlen : m.tx.mixedCiphertexts.length ≤ 65535) {j : Nat} {cts : List Ciphertext} (hj : m.tx.mixedCiphertexts[j]? = some cts) {sel : List Selection} (henc : EncryptsTo Enc cts sel) :
    Target N e sk run key Enc s (.mix m) m.tx.id (UInt16.ofNat j) m.tx.contestIndex cts sel := by
  obtain ⟨hid, hty⟩ := h.mix_id hm hf
  obtain ⟨cfg, hcfg⟩ := Option.ne_none_iff_exists'.1 h.mixnet
  have hjl := (List.getElem?_eq_some_iff.1 hj).1
  have hjn : (UInt16.ofNat j).toNat = j := by rw [UInt16.toNat_ofNat']; exact Nat.mod_eq_of_lt (by omega)
  have hget : ∀ u, .mix m ∈ s.ledger.take u → (at' s u).getTransaction m.tx.id = some (.mix m) := fun u hu => h.in_take.2 hu
  refine ⟨hf, .inr hty, henc, fun u hu => h.after_mix hf hu, ?_, ?_, ?_, ?_, ?_⟩
  · intro u hu
    unfold encryptedVoteFromUpstream
    have hlt : ¬ (UInt16.ofNat j ≥ UInt16.ofNat m.tx.mixedCiphertexts.length) := by
      rw [ge_iff_le, UInt16.le_iff_toNat_le, hjn, UInt16.toNat_ofNat', Nat.mod_eq_of_lt (by omega)]
      omega
    simp only [hty, Store.getMix, hget u hu, hcfg, Res.failIf, bne_self_eq_false, Bool.false_eq_true, if_false, Option.isNone_some, Res.bind_def, Res.ok_bind, hlt, decide_false, hjn, hj,
      Res.unwrap]
  · intro u hu t h1 h2 h3
    unfold upstreamCiphertexts
    simp only [h1, h2, hty, Store.getMix, hget u hu, v_ok, Res.bind_def, Res.ok_bind, hjn, hj, Res.unwrap]
  · intro u cts' hcts
    rw [hcfg] at hcts
    have := encryptedVoteFromUpstream_sound hcts
    cases this with
    | ofMix h1 =>
      obtain ⟨h4, h5⟩ := (Network.get_some (Network.nodup_take h.hist.sound.nodup u)).1 h1
      have := h.same (List.mem_of_mem_take h4) hm h5
      rw [← this]
      exact h4
  · intro t ht i hti
    have htk := h.hist.sound.whole.replay.typedStore t (h.in_ledger.2 ht)
    rw [hti] at htk
    obtain ⟨-, tr, htr, m', hm', hf', j', cts', hj', ds, hds, rfl⟩ := h.partial_honest ht (by rw [hti]; rfl) htk.symm
    have hti : PartialDecryptionTx.buildId e.id m'.tx.id m'.tx.contestIndex (UInt16.ofNat j') tr.index = PartialDecryptionTx.buildId e.id m.tx.id m.tx.contestIndex (UInt16.ofNat j) i := hti
    simp only [PartialDecryptionTx.buildId, Identifier.new, Option.getD_some, Identifier.mk.injEq, true_and] at hti
    obtain ⟨h1, h2, h3⟩ := buildUniqueInfo_inj (.inr (h.mix_id hm' hf').2) (.inr hty) hti
    have := h.one_mix hm' hf' hm hf h1
    subst this
    have hjj : j' = j := by
      have := sameItem_index h3
      have := congrArg UInt16.toNat this
      rw [hjn, UInt16.toNat_ofNat', Nat.mod_eq_of_lt (by have := (List.getElem?_eq_some_iff.1 hj').1; omega)] at this
      exact this
    subst hjj
    rw [hj] at hj'
    cases hj'
    exact ⟨tr, htr, h2, ds, hds, rfl⟩
  · intro t ht hti
    obtain ⟨h1, h2, m', hm', hup, hf', hc, hlt⟩ := h.decryption_item ht (by rw [hti]; rfl)
    rw [hti, ← hup, ← hc] at h2
    simp only [DecryptionTx.buildId, Identifier.new, Option.getD_some, Identifier.mk.injEq, true_and] at h2
    obtain ⟨h3, -, h4⟩ := buildUniqueInfo_inj (.inr hty) (.inr (h.mix_id hm' hf').2) h2
    have := h.one_mix hm hf hm' hf' h3
    subst this
    exact ⟨h1, hup.symm, hc.symm, (sameItem_index h4).symm⟩

/-- A first mix of all votes is acceptable as long as the votes stay the same. -/
theorem firstMix_valid {S : Store} (hS : Lawful S) (hN : SignCorrect N.toEnv) (hsh : ShuffleComplete N) (he : ElectionAt S e.id e) (hcfg : e.mixConfig ≠ none)
    {k : SecretKey} {tr : Trustee} (hi : tr.index = 1) (hk : tr.publicKey = N.edPublic k) (hit : IsTrustee e 1 (N.edPublic k)) {votes : List (Signed VoteTx)} (hall : AllVotes S e.id votes)
    {c : UInt32} (hone : ∀ v ∈ votes, (v.tx.encryptedVotes.filter fun ev => ev.contestIndex = c).length = 1)
    {ek : Signed EncryptionKeyTx} (hkey : S.getTransaction (singleId e.id .encryptionKey) = some (.encryptionKey ek)) {r : Bytes} {out : List (List Ciphertext)} {proof : ShuffleProof}
    (hs : N.shuffle (pedersenSeed 1 0 c 0) (Spec.contestVotes c votes).length (Spec.contestVotes c votes) ek.tx.encryptionKey r = .ok (out, proof)) {m : Signed MixTx}
    (htx : m.tx = MixTx.new e.id none tr 0 c 0 (votes.map (·.tx.id)) out proof) (hsig : m.sig = N.edSign k m.tx.toCbor.encode) :
    (SignedTx.mix m).validate N.toEnv S = .ok () := by
  obtain ⟨hlen, hver⟩ := hsh _ _ _ _ _ _ hs
  obtain ⟨ktx, ksig⟩ := ek
  refine SignedTx.validate_ok.2 ⟨by rw [show (SignedTx.mix m).id = m.tx.id from rfl, htx]; rfl, ?_, ?_⟩
  · rintro k' ⟨⟩
    show N.edVerify m.tx.trusteePublicKey m.tx.toCbor.encode m.sig = true
    rw [hsig, show m.tx.trusteePublicKey = N.edPublic k by rw [htx]; exact hk]
    exact hN k _
  · show m.tx.validateTx N.toEnv S = .ok ()
    rw [htx]
    refine (MixTx.validateTx_ok hS).2 ⟨rfl, e, he, hcfg, by simp only [MixTx.new, hi, hk]; exact hit, by simp only [MixTx.new, hi]; simp, by simp only [MixTx.new, hi]; rfl, ?_,
      _, .first rfl rfl hall rfl, by rintro pid prev sig ⟨⟩, ktx, ksig, hkey, ?_⟩
    · simp only [MixTx.new]
      rw [hlen, List.length_map]
      clear hs hlen hver hall htx
      induction votes with
      | nil => rfl
      | cons v vs ih =>
        simp only [Spec.contestVotes, List.length_append, List.length_map, List.length_cons]
        rw [hone v (by simp), ih fun v hv => hone v (by simp [hv])]
        omega
    · simp only [MixTx.new, hi]
      exact hver

theorem MixCorrect.complete {Enc : ElGamalKey → Ciphertext → Bytes → Prop} (hM : MixCorrect N fits Enc) : ShuffleComplete N := by
  intro seed inputs key random out proof hs
  obtain ⟨h1, mid, h2, h3⟩ := hM.shuffle _ _ _ _ _ _ hs
  exact ⟨by rw [← h3.length_eq, h2.length_eq], h1⟩

/-- Once the node of trustee 1 has reacted to the end of voting and nothing of the election is on its way, every contest with one encrypted vote of each voter is mixed. -/
theorem MixHeld.mix_posted (h : MixHeld N K e sk run key s) (hsh : ShuffleComplete N) (hdel : ∀ t ∈ s.pending, t.id.electionId ≠ e.id.electionId) {p : Nat} {vs : Signed VotingEndTx}
    (hp : s.ledger[p]? = some (.votingEnd vs)) (hvs : vs.tx.election = e.id) {tr : Trustee} (htr : tr ∈ e.trustees) (h1 : tr.index = 1) (hr : (sk 1, p) ∈ s.reacted)
    {votes : List (Signed VoteTx)} (hall : AllVotes s.store.toStore e.id votes) (hne : votes ≠ []) {c : UInt32}
    (hone : ∀ v ∈ votes, (v.tx.encryptedVotes.filter fun ev => ev.contestIndex = c).length = 1) :
    ∃ m : Signed MixTx, .mix m ∈ s.ledger ∧ m.tx.id.electionId = e.id.electionId ∧ m.tx.contestIndex = c := by
  obtain ⟨-, w, rng, x, l, hpw, hwl, hx, hl, hpost⟩ := h.hist.reacted _ _ hr
  rw [hp] at hx
  cases hx
  have hid := h.end_id hp hvs
  have hin : .votingEnd vs ∈ s.ledger.take w := take_mem hp hpw
  have hL := h.hist.sound.ledger w
  obtain ⟨-, hew⟩ := (h.orderly.take w).names hin (by show vs.tx.election.electionId = _; rw [hvs])
  have hallw := (h.votes_stay hid hin).2 hall
  have hkey : N.edPublic (sk 1) = tr.publicKey := by rw [← h1]; exact h.nodes.held tr htr
  have hfind : e.trustees.find? (fun t => t.publicKey == N.edPublic (sk 1)) = some tr := by
    rw [hkey]
    have hn := h.nodes.keys
    generalize e.trustees = L at htr hn
    induction L with
    | nil => cases htr
    | cons a L ih =>
      rw [List.map_cons, List.nodup_cons] at hn
      rw [List.find?_cons]
      rcases List.mem_cons.1 htr with rfl | htr'
      · rw [beq_iff_eq.2 rfl]
      · have : (a.publicKey == tr.publicKey) = false := by
          cases hb : a.publicKey == tr.publicKey with
          | false => rfl
          | true => exact absurd (beq_iff_eq.1 hb ▸ List.mem_map_of_mem htr') hn.1
        rw [this]
        exact ih htr' hn.2
  obtain ⟨-, -, hcon, -⟩ := C44_first_mix_contests N rng (sk 1) _ hL.lawful hL.replay.typedStore e vs.tx vs.sig (by rw [hvs]; exact hew) h.mixnet ⟨tr, hfind, h1⟩ l hl
  obtain ⟨v, hv⟩ := List.exists_mem_of_ne_nil _ hne
  obtain ⟨m, hm, hmc⟩ := (hcon c).1 (by
    obtain ⟨g1, g2, -⟩ := (hallw.1 (.vote v)).2 ⟨v, hv, rfl⟩
    obtain ⟨ev, hev⟩ := List.exists_mem_of_length_pos (by rw [hone v hv]; exact Nat.one_pos)
    obtain ⟨g3, g4⟩ := List.mem_filter.1 hev
    exact ⟨v, g1, g2, ev, g3, by simpa using g4⟩)
  obtain ⟨-, tr', votes', ktx, ksig, c', r, out, proof, hi1, hk, hit, hall', hkt, hs, htx, hsig⟩ := firstMix_emitted hL.lawful hL.replay.typedStore (e := e) (by rw [hvs]; exact hew) hl hm
  have hcc : m.tx.contestIndex = c' := by rw [htx]; rfl
  rw [hmc] at hcc
  subst hcc
  have := allVotes_unique hall' hallw
  subst this
  have hnd : (votes'.map (·.tx.id)).Nodup := by
    have := idLt_nodup hall.2
    rwa [List.map_map] at this
  rw [(flatMap_ids hnd).2 hone] at htx
  have hmid : m.tx.id = MixTx.buildId e.id c 0 0 1 := by rw [htx]; simp only [MixTx.new, hi1]
  rcases hpost _ hm with g | g | ⟨w', hww, -, g⟩
  · obtain ⟨t, ht, hti⟩ := List.mem_map.1 g
    have hti : t.id = m.tx.id := hti
    have hty := h.hist.sound.whole.replay.typedStore t (h.in_ledger.2 ht)
    rw [hti, hmid] at hty
    obtain ⟨m', rfl⟩ : ∃ m', t = .mix m' := by cases t <;> simp [kindOf, MixTx.buildId, Identifier.new] at hty; exact ⟨_, rfl⟩
    have hti : m'.tx.id = m.tx.id := hti
    have hf' : m'.tx.id.electionId = e.id.electionId := by rw [hti, hmid]; rfl
    refine ⟨m', ht, hf', ?_⟩
    have := (h.mix_id ht hf').1
    rw [hti, hmid] at this
    exact (mixUnique_inj (congrArg Identifier.uniqueInfo this)).1.symm
  · exact absurd (by show m.tx.id.electionId = _; rw [hmid]; rfl) (hdel _ g)
  · exfalso
    refine g (firstMix_valid (h.hist.sound.ledger w').lawful h.nodes.sign hsh ?_ h.mixnet hi1 hk hit
      ((h.votes_stay hid (take_mem hp (by omega))).2 hall) hone (ek := ⟨ktx, ksig⟩) (h.extends hww _ _ hkt) hs htx hsig)
    exact hew.imp fun _ hg => h.extends hww _ _ hg

/-- What a trustee's node does on seeing a mix, if one trustee's shares are enough. -/
theorem MixHeld.mix_reacts (h : MixHeld N K e sk run key s) (hth : e.trusteesThreshold = 1) (rng : Rng) {tr : Trustee} (htr : tr ∈ e.getFullTrustees) {m : Signed MixTx} {u : Nat}
    (hm : .mix m ∈ s.ledger.take u) (hf : m.tx.id.electionId = e.id.electionId) :
    ∃ l, generateTransactions N rng (sk tr.index) (at' s u) (.mix m) = .ok l ∧
      ∀ j cts, m.tx.mixedCiphertexts[j]? = some cts → ∃ ds, SharesOf N run tr cts ds ∧ partialTx N e sk tr m.tx.id (UInt16.ofNat j) m.tx.contestIndex ds ∈ l := by
  obtain ⟨hV, -, hF⟩ := h.after_mix hf hm
  obtain ⟨j0, hj0u, hj0⟩ := mem_take hm
  obtain ⟨cfg, hcfg⟩ := Option.ne_none_iff_exists'.1 h.mixnet
  obtain ⟨esig, hel⟩ := getElection_at hV.election
  have hname := (h.mix_at hj0 hf).1
  have h0 : m.tx.mixIndex = 0 := by
    obtain ⟨-, -, -, tr, votes, r, out, proof, h1, -, -, -, htx⟩ := h.mix_honest hj0 hf
    rw [htx]
    rfl
  have hadd : N.addU8 m.tx.mixIndex 1 = (.ok 1 : SRes UInt8) := by
    rw [Env.addU8_ok, h0]
    exact ⟨by simp, rfl⟩
  obtain ⟨l, hl, hall⟩ := hV.partials_made h.nodes h.keygen rng htr hF (con := m.tx.contestIndex) (mt := some m.tx) rfl
  refine ⟨l, ?_, ?_⟩
  · simp only [generateTransactions, processMix, hname, hel, v_ok, Res.bind_def, Res.ok_bind, h.nodes.reactor_of htr, hcfg, hadd, hth, if_true]
    exact hl
  · intro j cts hj
    refine hall _ _ _ _ (List.mem_mapIdx.2 ⟨j, (List.getElem?_eq_some_iff.1 hj).1, ?_⟩)
    rw [(List.getElem?_eq_some_iff.1 hj).2]

/-- Once a trustee's node has reacted to a mix and nothing of the election is on its way, its partial decryptions of all positions are on the ledger. -/
theorem MixHeld.partial_posted (h : MixHeld N K e sk run key s) {Enc : Ciphertext → Bytes → Prop} (hW : Works N e run Enc) (hth : e.trusteesThreshold = 1)
    (hdel : ∀ t ∈ s.pending, t.id.electionId ≠ e.id.electionId) {p : Nat} {m : Signed MixTx} (hp : s.ledger[p]? = some (.mix m)) (hf : m.tx.id.electionId = e.id.electionId)
    (hlen : m.tx.mixedCiphertexts.length ≤ 65535) {tr : Trustee} (htr : tr ∈ e.getFullTrustees) (hr : (sk tr.index, p) ∈ s.reacted)
    {j : Nat} {cts : List Ciphertext} (hj : m.tx.mixedCiphertexts[j]? = some cts) {sel : List Selection} (henc : EncryptsTo Enc cts sel) :
    PartialDecryptionTx.buildId e.id m.tx.id m.tx.contestIndex (UInt16.ofNat j) tr.index ∈ s.ledger.map SignedTx.id := by
  obtain ⟨-, w, rng, x, l, hpw, hwl, hx, hl, hpost⟩ := h.hist.reacted _ _ hr
  rw [hp] at hx
  cases hx
  have hm : ∀ u, p < u → .mix m ∈ s.ledger.take u := fun u hu => take_mem hp hu
  obtain ⟨l', hl', hall⟩ := h.mix_reacts hth rng htr (hm w hpw) hf
  rw [hl] at hl'
  cases hl'
  obtain ⟨ds, hds, hd⟩ := hall j cts hj
  obtain ⟨vs, hvs, hvid, -⟩ := h.mix_honest hp hf
  obtain ⟨q, hqp, hq⟩ := mem_take hvs
  rcases hpost _ hd with g | g | ⟨w', hww, -, g⟩
  · exact g
  · exact absurd rfl (hdel _ g)
  · exact absurd (h.partial_valid hW (h.target (List.mem_of_getElem? hp) hf hlen hj henc) (hm w' (by omega))
      ⟨.votingEnd vs, by rw [← hvid]; exact h.in_take.2 (take_mem hq (by omega))⟩ htr hds) g

/-- honest votes are encryptions of the voters' selections -/
theorem honest_encrypts {Enc : ElGamalKey → Ciphertext → Bytes → Prop} (hM : MixCorrect N fits Enc) {c : UInt32} {votes : List (Signed VoteTx)} {sels : List (List Selection)}
    (hh : List.Forall₂ (fun v sel => HonestVote N fits key v.tx c sel) votes sels) : List.Forall₂ (EncryptsTo (Enc key)) (Spec.contestVotes c votes) sels := by
  induction hh with
  | nil => exact .nil
  | cons h _ ih =>
    obtain ⟨hfit, rng, hev⟩ := h
    simp only [Spec.contestVotes, hev, List.map_cons, List.map_nil, List.singleton_append]
    refine .cons ?_ ih
    exact (encryptVote_encrypts (key := key) (rng := rng) hfit).imp fun c s ⟨h1, h2, r, h3⟩ => ⟨h1, by rw [h3]; exact hM.encrypt _ _ _ h2⟩

theorem encrypts_trans {Enc : Ciphertext → Bytes → Prop} {a b : List Ciphertext} {sel : List Selection} (h : List.Forall₂ (fun c c' => ∀ m, Enc c m → Enc c' m) a b)
    (ha : EncryptsTo Enc a sel) : EncryptsTo Enc b sel := by
  induction h generalizing sel with
  | nil => exact ha
  | cons h _ ih =>
    cases ha with
    | cons h1 h2 => exact .cons ⟨h1.1, h _ h1.2⟩ (ih h2)

theorem encrypts_all_trans {Enc : Ciphertext → Bytes → Prop} {a b : List (List Ciphertext)} {sels : List (List Selection)}
    (h : List.Forall₂ (List.Forall₂ fun c c' => ∀ m, Enc c m → Enc c' m) a b) (ha : List.Forall₂ (EncryptsTo Enc) a sels) : List.Forall₂ (EncryptsTo Enc) b sels := by
  induction h generalizing sels with
  | nil => exact ha
  | cons h _ ih =>
    cases ha with
    | cons h1 h2 => exact .cons (encrypts_trans h h1) (ih h2)

/-- A mix of honest votes encrypts the voters' selections, in some order. -/
theorem MixHeld.mix_encrypts (h : MixHeld N K e sk run key s) {Enc : ElGamalKey → Ciphertext → Bytes → Prop} (hM : MixCorrect N fits Enc) {m : Signed MixTx} (hm : .mix m ∈ s.ledger)
    (hf : m.tx.id.electionId = e.id.electionId) {votes : List (Signed VoteTx)} (hall : AllVotes s.store.toStore e.id votes) {sels : List (List Selection)}
    (hh : List.Forall₂ (fun v sel => HonestVote N fits key v.tx m.tx.contestIndex sel) votes sels) :
    ∃ sels', sels'.Perm sels ∧ List.Forall₂ (EncryptsTo (Enc key)) m.tx.mixedCiphertexts sels' := by
  obtain ⟨i, hi⟩ := List.getElem?_of_mem hm
  obtain ⟨-, -, -, tr, votes', r, out, proof, -, hall', -, hs, htx⟩ := h.mix_honest hi hf
  have := allVotes_unique hall' hall
  subst this
  obtain ⟨-, mid, hperm, hre⟩ := hM.shuffle _ _ _ _ _ _ hs
  obtain ⟨sels', h1, h2⟩ := List.perm_comp_forall₂ hperm (honest_encrypts hM hh)
  refine ⟨sels', h2, ?_⟩
  rw [htx]
  exact encrypts_all_trans hre h1

theorem honest_one {c : UInt32} {votes : List (Signed VoteTx)} {sels : List (List Selection)} (hh : List.Forall₂ (fun v sel => HonestVote N fits key v.tx c sel) votes sels) :
    ∀ v ∈ votes, (v.tx.encryptedVotes.filter fun ev => ev.contestIndex = c).length = 1 := by
  induction hh with
  | nil => simp
  | cons h _ ih =>
    intro v hv
    rcases List.mem_cons.1 hv with rfl | hv
    · obtain ⟨-, rng, hev⟩ := h
      rw [hev]
      rfl
    · exact ih v hv

end Setup
end CB
