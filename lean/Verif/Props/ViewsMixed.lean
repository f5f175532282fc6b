import Verif.Props.Views
/-!
# C105: in an election with mixnet, views that look complete agree
-/

namespace CB
open Spec

/-! ## Helpers -/

theorem idLt_asymm {a b : SignedTx} (h : IdLt a b) (h' : IdLt b a) : False := by
  unfold IdLt at h h'
  rw [Identifier.cmp_eq_cmpBytes] at h h'
  rw [cmpBytes_swap, h] at h'
  cases h'

/-- two sorted lists, the elements of which correspond, correspond in order -/
theorem forall₂_of_sorted {R : SignedTx → SignedTx → Prop} (hR : ∀ a b, R a b → a.id = b.id) : ∀ {l l' : List SignedTx}, l.Pairwise IdLt → l'.Pairwise IdLt →
    (∀ a ∈ l, ∃ b ∈ l', R a b) → (∀ b ∈ l', ∃ a ∈ l, R a b) → List.Forall₂ R l l' := by
  have cong : ∀ {a b c d : SignedTx}, IdLt a b → a.id = c.id → b.id = d.id → IdLt c d := by
    intro a b c d h h1 h2
    unfold IdLt at h ⊢
    rw [← h1, ← h2]
    exact h
  intro l
  induction l with
  | nil =>
    intro l' _ _ _ h
    cases l' with
    | nil => exact .nil
    | cons b _ =>
      obtain ⟨_, h, -⟩ := h b (List.mem_cons_self ..)
      cases h
  | cons a l ih =>
    intro l' hl hl' h1 h2
    cases l' with
    | nil =>
      obtain ⟨_, h, -⟩ := h1 a (List.mem_cons_self ..)
      cases h
    | cons b l' =>
      obtain ⟨ha, hl⟩ := List.pairwise_cons.1 hl
      obtain ⟨hb, hl'⟩ := List.pairwise_cons.1 hl'
      have hab : R a b := by
        obtain ⟨d, hd, hr⟩ := h1 a (List.mem_cons_self ..)
        rcases List.mem_cons.1 hd with rfl | hd
        · exact hr
        obtain ⟨c, hc, hr'⟩ := h2 b (List.mem_cons_self ..)
        rcases List.mem_cons.1 hc with rfl | hc
        · exact hr'
        exact (idLt_asymm (ha c hc) (cong (hb d hd) (hR _ _ hr').symm (hR _ _ hr).symm)).elim
      have heq := hR _ _ hab
      refine .cons hab (ih hl hl' (fun c hc => ?_) (fun c hc => ?_))
      · obtain ⟨d, hd, hr⟩ := h1 c (List.mem_cons_of_mem _ hc)
        rcases List.mem_cons.1 hd with rfl | hd
        · exact (idLt_asymm (ha c hc) (cong (ha c hc) ((heq.trans (hR _ _ hr).symm)) ((hR _ _ hr).trans heq.symm))).elim
        · exact ⟨d, hd, hr⟩
      · obtain ⟨d, hd, hr⟩ := h2 c (List.mem_cons_of_mem _ hc)
        rcases List.mem_cons.1 hd with rfl | hd
        · exact (idLt_asymm (hb c hc) (cong (hb c hc) (heq.symm.trans (hR _ _ hr)) ((hR _ _ hr).symm.trans heq))).elim
        · exact ⟨d, hd, hr⟩

theorem mapM'_forall₂ {α β ε : Type} {f : α → Res ε β} {l l' : List α} (h : List.Forall₂ (fun a b => f a = f b) l l') : Res.mapM' f l = Res.mapM' f l' := by
  induction h with
  | nil => rfl
  | cons h _ ih =>
    unfold Res.mapM'
    rw [h, ih]

/-- the mixes of a verified election are of that election, and their ids are made of it, the contest, the batch and the index -/
theorem mix_filed {E : Env} {txs : List SignedTx} {m : MemStore} {e : ElectionTx} (h : Verified E txs m e) {x : Signed MixTx} (hx : InStore m.toStore (.mix x)) :
    x.tx.electionId = e.id ∧ x.tx.id = MixTx.buildId e.id x.tx.contestIndex x.tx.batch x.tx.mixIndex x.tx.trusteeIndex := by
  obtain ⟨m1, hm1, hf1, hv1, hst1⟩ := h.ledger.accepted hx
  obtain ⟨hid, e1, ⟨sg1, he1⟩, -⟩ := (MixTx.validateTx_ok hm1.lawful).1 (SignedTx.validate_ok.1 hv1).2.2
  have : x.tx.electionId = e.id := by
    refine (election_id_of h.ledger ⟨sg1, hst1.extends _ _ (Extends.set_fresh hf1 _ _ he1)⟩ h.election ?_).1
    rw [← h.filed _ hx]
    show _ = x.tx.id.electionId
    rw [hid]
    rfl
  rw [this] at hid
  exact ⟨this, hid⟩

theorem mix_eq {S : Store} {x y : Signed MixTx} (hx : InStore S (.mix x)) (hy : InStore S (.mix y)) (h : x.tx.id = y.tx.id) : x = y := by
  have hx' : S.getTransaction x.tx.id = some (.mix x) := hx
  have hy' : S.getTransaction y.tx.id = some (.mix y) := hy
  rw [h, hy'] at hx'
  cases hx'
  rfl

/-- a mix of another is of the same contest, batch and votes, and has the next index -/
theorem next_mix {E : Env} {m : MemStore} (hm : Ledger E m) {x y : Signed MixTx} (hx : InStore m.toStore (.mix x)) (hy : InStore m.toStore (.mix y)) (h : y.tx.prevMixId = some x.tx.id) :
    y.tx.contestIndex = x.tx.contestIndex ∧ y.tx.voteIds = x.tx.voteIds ∧ y.tx.mixIndex.toNat = x.tx.mixIndex.toNat + 1 := by
  obtain ⟨chain, hc, hl⟩ := C24_mix_chain E m hm y hy
  rw [List.getLast?_eq_getElem?] at hl
  obtain ⟨k, hk⟩ : ∃ k, chain.length - 1 = k := ⟨_, rfl⟩
  rw [hk] at hl
  cases k with
  | zero => rw [hc.first y hl] at h; cases h
  | succ k =>
    have hlt : k < chain.length := by omega
    have hz := List.getElem?_eq_getElem hlt
    have hlink := hc.linked k _ y hz hl
    rw [h] at hlink
    have hzx : x = chain[k] := mix_eq hx (hc.stored _ (List.getElem_mem hlt)) (Option.some.inj hlink)
    rw [← hzx] at hz
    obtain ⟨-, s1, -, s2⟩ := hc.same y (List.mem_of_getElem? hl) x (List.mem_of_getElem? hz)
    exact ⟨s1, s2, by rw [(hc.index _ _ hl).1, (hc.index _ _ hz).1]⟩

/-- from every mix mixes lead to one that is not mixed again -/
theorem last_mix {E : Env} {m : MemStore} (hm : Ledger E m) : ∀ (k : Nat) {x : Signed MixTx}, InStore m.toStore (.mix x) → 255 - x.tx.mixIndex.toNat = k →
    ∃ y : Signed MixTx, InStore m.toStore (.mix y) ∧ y.tx.contestIndex = x.tx.contestIndex ∧ y.tx.voteIds = x.tx.voteIds ∧
      ∀ z : Signed MixTx, InStore m.toStore (.mix z) → z.tx.prevMixId ≠ some y.tx.id := by
  intro k
  induction k using Nat.strongRecOn with
  | _ k ih =>
    intro x hx hk
    by_cases hl : ∃ z : Signed MixTx, InStore m.toStore (.mix z) ∧ z.tx.prevMixId = some x.tx.id
    · obtain ⟨z, hz, hp⟩ := hl
      obtain ⟨a, b, c⟩ := next_mix hm hx hz hp
      have := z.tx.mixIndex.toNat_lt
      obtain ⟨y, h1, h2, h3, h4⟩ := ih (255 - z.tx.mixIndex.toNat) (by omega) hz rfl
      exact ⟨y, h1, h2.trans a, h3.trans b, h4⟩
    · exact ⟨x, hx, rfl, rfl, fun z hz hp => hl ⟨z, hz, hp⟩⟩

/-- two mixes of one contest and batch that are not mixed again are the same -/
theorem last_mix_unique {E : Env} {txs : List SignedTx} {m : MemStore} {e : ElectionTx} (h : Verified E txs m e) {y z : Signed MixTx} (hy : InStore m.toStore (.mix y))
    (hz : InStore m.toStore (.mix z)) (hc : y.tx.contestIndex = z.tx.contestIndex) (hb : y.tx.batch = z.tx.batch)
    (hly : ∀ x : Signed MixTx, InStore m.toStore (.mix x) → x.tx.prevMixId ≠ some y.tx.id) (hlz : ∀ x : Signed MixTx, InStore m.toStore (.mix x) → x.tx.prevMixId ≠ some z.tx.id) : y = z := by
  have half : ∀ {y z : Signed MixTx}, InStore m.toStore (.mix y) → InStore m.toStore (.mix z) → y.tx.contestIndex = z.tx.contestIndex → y.tx.batch = z.tx.batch →
      (∀ x : Signed MixTx, InStore m.toStore (.mix x) → x.tx.prevMixId ≠ some y.tx.id) → y.tx.mixIndex.toNat ≤ z.tx.mixIndex.toNat → y = z := by
    intro y z hy hz hc hb hly hle
    obtain ⟨cy, hcy, hy1⟩ := C24_mix_chain E m h.ledger y hy
    obtain ⟨cz, hcz, hz1⟩ := C24_mix_chain E m h.ledger z hz
    rw [List.getLast?_eq_getElem?] at hy1 hz1
    have iy := hcy.index _ _ hy1
    have iz := hcz.index _ _ hz1
    have hzpos : 0 < cz.length := by
      cases cz with
      | nil => cases hz1
      | cons => simp
    have hlt : y.tx.mixIndex.toNat < cz.length := by omega
    obtain ⟨w, hw⟩ : ∃ w, cz[y.tx.mixIndex.toNat]? = some w := ⟨_, List.getElem?_eq_getElem hlt⟩
    have hwi := hcz.index _ _ hw
    have hws := hcz.stored w (List.mem_of_getElem? hw)
    obtain ⟨-, s1, s2, -⟩ := hcz.same w (List.mem_of_getElem? hw) z (List.mem_of_getElem? hz1)
    have hi : w.tx.mixIndex = y.tx.mixIndex := UInt8.toNat_inj.1 hwi.1
    obtain rfl : y = w := by
      refine mix_eq hy hws ?_
      rw [(mix_filed h hy).2, (mix_filed h hws).2, hc, hb, s1, s2, hi, iy.2, hwi.2, hi]
    by_cases hk : y.tx.mixIndex.toNat = cz.length - 1
    · rw [← hk, hw] at hz1
      cases hz1
      rfl
    · have hlt' : y.tx.mixIndex.toNat + 1 < cz.length := by omega
      exact absurd (hcz.linked _ _ _ hw (List.getElem?_eq_getElem hlt')) (hly _ (hcz.stored _ (List.getElem_mem hlt')))
  rcases Nat.le_total y.tx.mixIndex.toNat z.tx.mixIndex.toNat with hle | hle
  · exact half hy hz hc hb hly hle
  · exact (half hz hy hc.symm hb.symm hlz hle).symm

theorem nothingForged_refl (S : Store) : NothingForged S S := by
  refine ⟨fun t h _ _ => h, fun v w hv hw h => ?_⟩
  have hv' : S.getTransaction v.tx.id = some (.vote v) := hv
  have hw' : S.getTransaction w.tx.id = some (.vote w) := hw
  rw [h, hw'] at hv'
  cases hv'
  rfl

/-- what is decrypted is an output of a mix -/
theorem mix_of_decryption {E : Env} {plain : ElGamalKey → Ciphertext → Bytes} {txs : List SignedTx} {m : MemStore} {e : ElectionTx} (h : Verified E txs m e) {key : ElGamalKey}
    (hK : SoundKeys E plain m.toStore e key) (hmix : e.mixConfig ≠ none) {d : Signed DecryptionTx} (hd : InStore m.toStore (.decryption d)) :
    d.tx.electionId = e.id ∧ ∃ x : Signed MixTx, InStore m.toStore (.mix x) ∧ x.tx.id = d.tx.upstreamId ∧ x.tx.contestIndex = d.tx.contestIndex ∧
      d.tx.upstreamIndex.toNat < x.tx.mixedCiphertexts.length := by
  obtain ⟨hel, cts, hi, -⟩ := decryption_right h.ledger h.filed h.voters h.election h.trustees hK hd
  refine ⟨hel, ?_⟩
  generalize e.mixConfig = cfg at hi hmix
  cases hi with
  | ofVote => exact absurd rfl hmix
  | @ofMix x sg _ _ g _ h4 h5 =>
    have hid : x.id = d.tx.upstreamId := MemStore.get_id h.ledger.replay.wf g
    refine ⟨⟨x, sg⟩, ?_, hid, h4, ?_⟩
    · show m.getTransaction x.id = _
      rw [hid]
      exact g
    · exact (List.getElem?_eq_some_iff.1 h5).1

theorem decryption_id {E : Env} {m : MemStore} (hm : Ledger E m) {x : Signed DecryptionTx} (hx : InStore m.toStore (.decryption x)) :
    x.tx.id = DecryptionTx.buildId x.tx.electionId x.tx.upstreamId x.tx.contestIndex x.tx.upstreamIndex := by
  obtain ⟨m0, hm0, hv⟩ := hm.replay.accepted hx
  exact (C30_decryption_is_threshold_decryption_partial E m0 hm0 x.tx x.sig hv).1

/-! ## C105 -/

/-- **C105** (mixed results agree) In an election with mixnet, in which trustees have mixed in one batch and have decrypted only mixes that are not mixed again, and which is counted in full on
the ledger: whatever a node leaves out or makes up, whoever verifies what it shows, and sees some decryption and that it is counted in full, is shown the tally, votes and results of the ledger. -/
theorem C105_mixed_results_agree (E : Env) (plain : ElGamalKey → Ciphertext → Bytes) (hS : ShuffleSound E plain) (shown real : List SignedTx) (m m' : MemStore) (e : ElectionTx)
    (h : Verified E shown m e) (h' : Verified E real m' e) (hsort : real.Pairwise IdLt) (hf : NothingForged m.toStore m'.toStore) (ht : e.trusteesThreshold ≠ 0)
    (key : Signed EncryptionKeyTx) (hkey : m'.getTransaction (singleId e.id .encryptionKey) = some (.encryptionKey key)) (hK : SoundKeys E plain m'.toStore e key.tx.encryptionKey)
    (hmix : e.mixConfig ≠ none) (hM : MixedOnce m'.toStore) (hcount : Counted m.toStore e) (hcount' : Counted m'.toStore e) (d : Signed DecryptionTx)
    (hd : InStore m.toStore (.decryption d)) :
    E2e.tally m e.id = E2e.tally m' e.id ∧ E2e.printVotes m e.id = E2e.printVotes m' e.id ∧ ∀ winners, E2e.printResults winners m e.id = E2e.printResults winners m' e.id := by
  have hm := h.ledger
  have hm' := h'.ledger
  have hK1 := soundKeys_shown hf hK
  obtain ⟨-, hdone⟩ := hcount.2 hmix
  obtain ⟨-, hdone'⟩ := hcount'.2 hmix
  have agree := fun d hd => (C105_shown_decryptions_are_real_partial E plain shown real m m' e h h' hf ht key hkey hK d hd).2
  -- what is shown to be decrypted is decrypted on the ledger
  have hA : ∀ d : Signed DecryptionTx, InStore m.toStore (.decryption d) → ∃ d' : Signed DecryptionTx, InStore m'.toStore (.decryption d') ∧ d.tx.id = d'.tx.id ∧
      d'.tx.decryptedVote = d.tx.decryptedVote := by
    intro d hd
    obtain ⟨hel, x, hx, hxid, hxc, hn⟩ := mix_of_decryption h hK1 hmix hd
    have hxr : InStore m'.toStore (.mix x) := hf.signed _ hx (by simp) (by simp)
    obtain ⟨p, hp, -, h1, h2, h3⟩ := share_real h ht hf hd
    obtain ⟨d', hd', h5, a, b, c⟩ := hdone' x hxr (mix_filed h' hxr).1 (fun y hy => by rw [hxid, ← h1]; exact hM.last p hp y hy) d.tx.upstreamIndex hn
    rw [hxid] at a
    rw [hxc] at c
    refine ⟨d', hd', ?_, agree d hd d' hd' a b c⟩
    rw [decryption_id hm hd, decryption_id hm' hd', hel, h5, a, b, c]
  -- what is decrypted on the ledger is shown to be
  have hB : ∀ d' : Signed DecryptionTx, InStore m'.toStore (.decryption d') → ∃ d : Signed DecryptionTx, InStore m.toStore (.decryption d) ∧ d.tx.id = d'.tx.id ∧
      d'.tx.decryptedVote = d.tx.decryptedVote := by
    intro d' hd'
    obtain ⟨hel, z, hz, hzid, hzc, hn⟩ := mix_of_decryption h' hK hmix hd'
    obtain ⟨p, hp, -, h1, -, -⟩ := share_real h' ht (nothingForged_refl _) hd'
    have hlz : ∀ x : Signed MixTx, InStore m'.toStore (.mix x) → x.tx.prevMixId ≠ some z.tx.id := fun y hy => by rw [hzid, ← h1]; exact hM.last p hp y hy
    -- somebody has voted in the contest
    obtain ⟨v, hv, ev, hev, hevc⟩ : ∃ v : Signed VoteTx, InStore m'.toStore (.vote v) ∧ ∃ ev ∈ v.tx.encryptedVotes, ev.contestIndex = z.tx.contestIndex := by
      obtain ⟨m0, f, votes0, key', ksig', -, hfv, hst, -, -, -, -, hall0, -, -, hperm⟩ := C25_mixing_preserves_votes E plain hS m' hm' z hz
      have hlen := hperm.length_eq
      rw [List.length_map, List.length_map] at hlen
      rw [contestVotes_flatMap] at hlen
      have hne : (votes0.flatMap fun v => (v.tx.encryptedVotes.filter fun ev => ev.contestIndex = z.tx.contestIndex).map (·.selections)) ≠ [] := by
        intro h0
        rw [h0] at hlen
        simp only [List.length_nil] at hlen
        omega
      obtain ⟨c, hc⟩ := List.exists_mem_of_ne_nil _ hne
      obtain ⟨v, hv, hc⟩ := List.mem_flatMap.1 hc
      obtain ⟨ev, hev, -⟩ := List.mem_map.1 hc
      obtain ⟨hev, hc⟩ := List.mem_filter.1 hev
      refine ⟨v, ?_, ev, hev, of_decide_eq_true hc⟩
      obtain ⟨h1, h2, h3⟩ := (hall0.1 (.vote v)).2 ⟨v, hv, rfl⟩
      have h4 : (m0.set (.mix f)).getTransaction v.tx.id = some (.vote v) := by
        rw [MemStore.get_set, if_neg ?_]
        · exact h1
        · intro heq
          have h5 : f.tx.id.txType = .mix := (SignedTx.validate_ok.1 hfv).1
          have h6 : v.tx.id.txType = .vote := h3
          rw [show v.tx.id = f.tx.id from heq, h5] at h6
          cases h6
      exact hst.extends _ _ h4
    -- the vote is shown, and mixed, and an output of the last mix of it is shown to be decrypted
    have hvs := C105_mixed_votes_cannot_be_hidden E shown real m m' e h h' hsort hf hmix d hd v hv
    obtain ⟨x, hx, -, hxc, hxv⟩ := (hcount.2 hmix).1 v hvs (h.filed _ hvs) ev hev
    obtain ⟨y, hy, hyc, hyv, hly⟩ := last_mix hm _ hx rfl
    have hyr : InStore m'.toStore (.mix y) := hf.signed _ hy (by simp) (by simp)
    have hpos : 0 < y.tx.mixedCiphertexts.length := by
      obtain ⟨chain, hc, hl⟩ := C24_mix_chain E m hm y hy
      rw [hc.outputs y (List.mem_of_getLast? hl), hyv]
      exact List.length_pos_of_mem hxv
    obtain ⟨d0, hd0, -, a0, -, -⟩ := hdone y hy (mix_filed h hy).1 hly 0 hpos
    obtain ⟨p0, hp0, -, g1, -, -⟩ := share_real h ht hf hd0
    -- so it is the mix decrypted on the ledger
    have hyz : y = z := last_mix_unique h' hyr hz (hyc.trans (hxc.trans hevc)) ((hM.batch y hyr).trans (hM.batch z hz).symm)
      (fun w hw => by rw [← a0, ← g1]; exact hM.last p0 hp0 w hw) hlz
    subst hyz
    obtain ⟨d1, hd1, h5, a, b, c⟩ := hdone y hy (mix_filed h hy).1 hly d'.tx.upstreamIndex hn
    rw [hzid] at a
    rw [hzc] at c
    refine ⟨d1, hd1, ?_, agree d1 hd1 d' hd' a.symm b.symm c.symm⟩
    rw [decryption_id hm hd1, decryption_id hm' hd', hel, h5, a, b, c]
  obtain ⟨ds, hds, hmem, hpw⟩ := hm.lawful.getMultiple e.id .decryption
  obtain ⟨ds', hds', hmem', hpw'⟩ := hm'.lawful.getMultiple e.id .decryption
  have dec : ∀ {m : MemStore}, Ledger E m → ∀ {t : SignedTx}, InStore m.toStore t → t.id.txType = .decryption → ∃ d, t = .decryption d := by
    intro m hm t hin hty
    have := hm.replay.typed (id := t.id) hin
    rw [hty] at this
    cases t <;> simp [SignedTx.transactionType] at this ⊢
  have hall : List.Forall₂ (fun t t' => t.id = t'.id ∧ ∃ d d' : Signed DecryptionTx, t = .decryption d ∧ t' = .decryption d' ∧ d'.tx.decryptedVote = d.tx.decryptedVote) ds ds' := by
    refine forall₂_of_sorted (fun a b h => h.1) hpw hpw' ?_ ?_
    · intro t htm
      obtain ⟨hin, hel, hty⟩ := (hmem t).1 htm
      obtain ⟨d, rfl⟩ := dec hm hin hty
      obtain ⟨d', hd', hid, hsame⟩ := hA d hin
      refine ⟨.decryption d', (hmem' _).2 ⟨hd', h'.filed _ hd', ?_⟩, hid, d, d', rfl, rfl, hsame⟩
      exact hm'.replay.typed (id := (SignedTx.decryption d').id) hd'
    · intro t htm
      obtain ⟨hin, hel, hty⟩ := (hmem' t).1 htm
      obtain ⟨d', rfl⟩ := dec hm' hin hty
      obtain ⟨d, hd, hid, hsame⟩ := hB d' hin
      refine ⟨.decryption d, (hmem _).2 ⟨hd, h.filed _ hd, ?_⟩, hid, d, d', rfl, rfl, hsame⟩
      exact hm.replay.typed (id := (SignedTx.decryption d).id) hd
  have htally : E2e.tally m e.id = E2e.tally m' e.id := by
    unfold E2e.tally
    rw [hds, hds']
    simp only [Res.bind]
    rw [mapM'_forall₂ (hall.imp ?_)]
    rintro _ _ ⟨-, d, d', rfl, rfl, hs⟩
    simp [SignedTx.intoDecryption, hs]
  refine ⟨htally, ?_, fun winners => ?_⟩
  · unfold E2e.printVotes
    rw [hds, hds']
    simp only [Res.bind]
    rw [mapM'_forall₂ (hall.imp ?_)]
    rintro _ _ ⟨-, d, d', rfl, rfl, hs⟩
    simp [SignedTx.intoDecryption, hs]
  · unfold E2e.printResults
    rw [htally]

/-! ## A concrete election -/

namespace Toy

/-- another transaction that decrypts the second vote, unsigned and naming the trustees in another order -/
def remadeDec : Signed DecryptionTx := ⟨⟨DecryptionTx.buildId eid mix2Tx.id 0 1, eid, mix2Tx.id, 1, 0, [2, 1], [sel "b"]⟩, sig 99⟩

/-- the complete election with this transaction -/
def remade : List SignedTx := complete.dropLast ++ [.decryption remadeDec]

theorem remade_checks : checks remade election = true := by decide +kernel

/-- the check of `MixedOnce` on a list of all that is stored -/
def mixedOnceCheck (ts : List SignedTx) : Bool :=
  ts.all fun t => match t with
    | .mix x => decide (x.tx.batch = 0)
    | .partialDecryption p => ts.all fun u => match u with | .mix y => decide (y.tx.prevMixId ≠ some p.tx.upstreamId) | _ => true
    | _ => true

theorem mixedOnce_of_check {S : Store} {ts : List SignedTx} (hS : ∀ t, InStore S t ↔ t ∈ ts) (h : mixedOnceCheck ts = true) : MixedOnce S := by
  constructor
  · intro x hx
    exact of_decide_eq_true (List.all_eq_true.1 h _ ((hS _).1 hx))
  · intro p hp y hy
    exact of_decide_eq_true (List.all_eq_true.1 (List.all_eq_true.1 h _ ((hS _).1 hp)) _ ((hS _).1 hy))

end Toy

/-- The hypotheses can be met: a node shows a decryption that it has made itself instead of the one on the ledger. -/
example : ShuffleSound Toy.env (fun _ c => c.raw) ∧ Verified Toy.env Toy.remade (MemStore.ofList Toy.remade) Toy.election ∧
    Verified Toy.env Toy.complete (MemStore.ofList Toy.complete) Toy.election ∧ Toy.complete.Pairwise IdLt ∧
    NothingForged (MemStore.ofList Toy.remade).toStore (MemStore.ofList Toy.complete).toStore ∧ Toy.election.trusteesThreshold ≠ 0 ∧
    (MemStore.ofList Toy.complete).getTransaction (singleId Toy.eid .encryptionKey) = some (.encryptionKey Toy.keyOf) ∧
    SoundKeys Toy.env (fun _ c => c.raw) (MemStore.ofList Toy.complete).toStore Toy.election Toy.keyOf.tx.encryptionKey ∧ Toy.election.mixConfig ≠ none ∧
    MixedOnce (MemStore.ofList Toy.complete).toStore ∧ Counted (MemStore.ofList Toy.remade).toStore Toy.election ∧ Counted (MemStore.ofList Toy.complete).toStore Toy.election ∧
    InStore (MemStore.ofList Toy.remade).toStore (.decryption (Toy.decOf Toy.mix2Tx.id 0 "a")) ∧
    (∃ d, InStore (MemStore.ofList Toy.remade).toStore (.decryption d) ∧ ¬ InStore (MemStore.ofList Toy.complete).toStore (.decryption d)) ∧
    E2e.tally (MemStore.ofList Toy.remade) Toy.eid = .ok [(str "a", 1), (str "b", 1)] := by
  obtain ⟨h1, -⟩ := Toy.verified_of_checks (sig := Toy.sig 1) (List.mem_cons_self ..) Toy.remade_checks
  obtain ⟨h2, hK⟩ := Toy.verified_of_checks (sig := Toy.sig 1) (List.mem_cons_self ..) Toy.complete_checks
  refine ⟨Toy.shuffle_sound, h1, h2, ?_, Toy.nothingForged_of h1.distinct h2.distinct ?_ (by decide +kernel), by decide, by rfl, hK _, by simp [Toy.election],
    Toy.mixedOnce_of_check (Toy.stored_iff h2.distinct) (by decide +kernel), E2e.Toy.counted_of_check (Toy.stored_iff h1.distinct) (by decide +kernel),
    E2e.Toy.counted_of_check (Toy.stored_iff h2.distinct) (by decide +kernel), by rfl, ⟨Toy.remadeDec, by rfl, ?_⟩,
    by decide +kernel⟩
  · unfold IdLt
    decide +kernel
  · intro t ht
    rcases List.mem_append.1 ht with ht | ht
    · exact .inl (List.dropLast_subset _ ht)
    · exact .inr (.inr ⟨_, List.mem_singleton.1 ht⟩)
  · intro hin
    have h3 : InStore (MemStore.ofList Toy.complete).toStore (.decryption (Toy.decOf Toy.mix2Tx.id 1 "b")) := by rfl
    have := hin.symm.trans h3
    simp only [Option.some.injEq, SignedTx.decryption.injEq] at this
    exact absurd this (by decide +kernel)

end CB
