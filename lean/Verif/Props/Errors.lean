import Verif.Lemmas.Errors
import Verif.Props.Setup
import Verif.Props.Decrypting
import Verif.Props.Mixing
import Verif.Examples.Toy
/-!
# C110: a refused transaction is refused for the reason given
-/

namespace CB
open Spec

/-- **C110 (partial)** Whatever a node has stored: when it refuses a transaction, the reason it gives is true (`Fault`), except for four reasons that can
be given although what they say is not the case, and then what is wrong is as in `Misleading`.  Missing: those four, which are false of the code
(the theorems `C110_..._false`). -/
theorem C110_reasons_are_true_partial (E : Env) (m : MemStore) (hm : Replay E m) (t : SignedTx) (e : ValErr)
    (h : t.validate E m.toStore = .err e) : Fault E m.toStore t e ∨ Misleading m.toStore t e := by
  rw [SignedTx.validate_eq] at h
  simp only [Res.bind_eq_err, Res.failIf_eq_err, bne_iff_ne] at h
  rcases h with ⟨h, rfl⟩ | ⟨_, _, h | ⟨_, _, h⟩⟩
  · exact .inl (.type (by rw [kindOf_eq]; exact h))
  · have hs : e = .signatureError := by
      cases t <;> simp only [SignedTx.verifySignature, Signed.verifySignature] at h <;> split at h <;>
        first | (split at h <;> cases h <;> rfl) | cases h
    subst hs
    refine .inl (.signature fun hv => ?_)
    rw [SignedTx.verifySignature_ok.2 hv] at h
    cases h
  · cases t with
    | election s => exact fault_election h
    | keyGenCommitment s => exact .inl (fault_commitment h)
    | keyGenShare s => exact fault_share h
    | keyGenPublicKey s => exact .inl (fault_publicKey h)
    | encryptionKey s => exact .inl (fault_encryptionKey hm h)
    | vote s => exact .inl (fault_vote hm h)
    | votingEnd s => exact .inl (fault_votingEnd h)
    | mix s => exact fault_mix hm h
    | partialDecryption s => exact fault_partial hm h
    | decryption s => exact fault_decryption hm h

/-- **C110** The reason given is always true for votes, for the end of voting, for the encryption key and for the first and last step of key
generation. -/
theorem C110_voters_are_told_the_truth (E : Env) (m : MemStore) (hm : Replay E m) (t : SignedTx) (e : ValErr)
    (hk : kindOf t ∈ [.vote, .votingEnd, .encryptionKey, .keyGenCommitment, .keyGenPublicKey])
    (h : t.validate E m.toStore = .err e) : Fault E m.toStore t e := by
  rcases C110_reasons_are_true_partial E m hm t e h with h | h
  · exact h
  · cases h with
    | manyAuthenticators => simp [kindOf] at hk
    | shareOfOther => simp [kindOf] at hk
    | listedTwice => simp [kindOf] at hk
    | longMix hi => cases t <;> first | (simp [kindOf] at hk; done) | simp [itemOf] at hi

/-- **C110 (partial)** The reasons are reasons: a transaction of which one of them is true is not accepted, provided that arithmetic is checked (for mixes)
and that the election has no two authenticators and no two ballots of the same id (for votes).  Missing: "vote anonymous key collision", which is also given as a reason but is
true of votes that are accepted (C21). -/
theorem C110_faults_refuse_partial (E : Env) (m : MemStore) (hm : Replay E m) (t : SignedTx) (e : ValErr) (h : Fault E m.toStore t e)
    (hcol : e ≠ .voteAnonymousKeyCollision) (hov : kindOf t = .mix → E.overflowChecks = true)
    (hnd : kindOf t = .vote → ∀ el, ElectionAt m.toStore (electionOf t) el → (el.authenticators.map (·.id)).Nodup ∧ (el.ballots.map (·.id)).Nodup) :
    t.validate E m.toStore ≠ .ok () := by
  intro hok
  obtain ⟨hty, hsig, hin⟩ := SignedTx.validate_ok.1 hok
  cases h with
  | type h => rw [kindOf_eq] at h; exact h hty
  | signature h => exact h hsig
  | id hb h => exact h (accepted_id hm hok hb)
  | noElection hk h =>
    obtain ⟨el, he⟩ := accepted_election hm hok hk
    exact h el he
  | notTrustee htr he h =>
    obtain ⟨⟨el, he', h'⟩, _⟩ := C13_trustee_steps_by_trustees E t m.toStore hok _ _ htr
    cases he.eq he'
    exact h h'
  | notAuthority ha he h =>
    cases t <;> simp only [authorityOf, Option.some.injEq, reduceCtorEq] at ha <;> subst ha
    · obtain ⟨el, he', h', _⟩ := EncryptionKeyTx.validateTx_ok.1 hin
      cases he.eq he'
      exact h h'
    · obtain ⟨el, he', h'⟩ := VotingEndTx.validateTx_ok.1 hin
      cases he.eq he'
      exact h h'
  | trusteeThreshold h =>
    obtain ⟨_, h', _⟩ := ElectionTx.validateTx_ok.1 hin
    omega
  | authThreshold h =>
    obtain ⟨_, _, h'⟩ := ElectionTx.validateTx_ok.1 hin
    omega
  | shareCount he h =>
    obtain ⟨el, he', _, h', _⟩ := KeyGenShareTx.validateTx_ok.1 hin
    cases he.eq he'
    exact h h'
  | shareMissing he htr h =>
    obtain ⟨el, he', _, _, h'⟩ := KeyGenShareTx.validateTx_ok.1 hin
    cases he.eq he'
    obtain ⟨s, hs⟩ := Option.isSome_iff_exists.1 (h' _ htr)
    exact h s ((IndexMap.get_eq_some _ _ _).1 hs)
  | keyCount he hp hn h =>
    obtain ⟨el, he', _, pks, hscan, hlen, _⟩ := EncryptionKeyTx.validateTx_ok.1 hin
    cases he.eq he'
    obtain ⟨h1, h2⟩ := keyStored_of_scan hm hscan
    have : _ = pks.length := ((List.perm_ext_iff_of_nodup hn h2).2 fun p => (hp p).trans (h1 p).symm).length_eq
    exact h (this.trans hlen)
  | keyMissing he htr h =>
    obtain ⟨el, he', _, pks, hscan, _, hall, _⟩ := EncryptionKeyTx.validateTx_ok.1 hin
    cases he.eq he'
    obtain ⟨p, hp, h'⟩ := hall _ htr
    exact h p (((keyStored_of_scan hm hscan).1 p).1 hp) h'
  | keyDiffers hp h =>
    obtain ⟨el, _, _, pks, hscan, _, _, hall⟩ := EncryptionKeyTx.validateTx_ok.1 hin
    exact h (hall _ (((keyStored_of_scan hm hscan).1 _).2 hp))
  | collision => exact hcol rfl
  | noKey h =>
    obtain ⟨_, _, _, _, h', _⟩ := (VoteTx.validateTx_ok hm.lawful).1 hin
    exact h h'
  | ended h =>
    obtain ⟨_, _, _, _, _, h', _⟩ := (VoteTx.validateTx_ok hm.lawful).1 hin
    exact h' h
  | authUnknown he ha h =>
    obtain ⟨_, el, he', _, _, _, hau, _⟩ := (VoteTx.validateTx_ok hm.lawful).1 hin
    cases he.eq he'
    obtain ⟨au, hf, _⟩ := hau _ ha
    have := List.find?_some hf
    simp only [beq_iff_eq] at this
    exact h au (List.mem_of_find?_eq_some hf) this.symm
  | authFailed he ha hmem hid h =>
    obtain ⟨_, el, he', _, _, _, hau, _⟩ := (VoteTx.validateTx_ok hm.lawful).1 hin
    cases he.eq he'
    obtain ⟨au, hf, hv⟩ := hau _ ha
    have hid' := List.find?_some hf
    simp only [beq_iff_eq] at hid'
    cases inj_of_nodup (hnd rfl _ he).1 hmem (List.mem_of_find?_eq_some hf) (hid.trans hid')
    obtain ⟨rsa, d, h1, h2, h3⟩ := Authenticator.verify_ok.1 hv
    exact h ⟨rsa, d, (IndexMap.get_eq_some _ _ _).1 h1, h2, h3⟩
  | noBallot he h =>
    obtain ⟨_, el, he', _, _, _, _, b, hb, _⟩ := (VoteTx.validateTx_ok hm.lawful).1 hin
    cases he.eq he'
    have := List.find?_some hb
    exact h b (List.mem_of_find?_eq_some hb) (by simpa using this)
  | @wrongContest t el b ev he hmem hid hev h =>
    obtain ⟨_, el', he', _, _, _, _, b', hb, hall⟩ := (VoteTx.validateTx_ok hm.lawful).1 hin
    cases he.eq he'
    have hb' : b'.id = t.tx.ballotId := by simpa using List.find?_some hb
    cases inj_of_nodup (hnd rfl _ he).2 hmem (List.mem_of_find?_eq_some hb) (hid.trans hb'.symm)
    exact h (hall _ hev)
  | noMixnet he h =>
    obtain ⟨_, el, he', h', _⟩ := (MixTx.validateTx_ok hm.lawful).1 hin
    cases he.eq he'
    exact h' h
  | order h =>
    obtain ⟨_, el, _, _, _, h0, hi, _, inputs, hinp, _⟩ := (MixTx.validateTx_ok hm.lawful).1 hin
    refine h ⟨toNat_pred (fun h => h0 ⟨h, hov rfl⟩) hi, fun hn => ?_⟩
    cases hinp with
    | first _ h0 => exact h0
    | next hp => rw [hp] at hn; cases hn
  | outputs h =>
    obtain ⟨_, el, _, _, _, _, _, h', _⟩ := (MixTx.validateTx_ok hm.lawful).1 hin
    exact h h'
  | voteCount hp hl hn h =>
    obtain ⟨_, el, _, _, _, _, _, _, inputs, hinp, _⟩ := (MixTx.validateTx_ok hm.lawful).1 hin
    cases hinp with
    | next hp' => rw [hp] at hp'; cases hp'
    | @first vs _ _ hall hids =>
      have : _ = (vs.map SignedTx.vote).length := ((List.perm_ext_iff_of_nodup hn (nodup_of_idLt hall.2)).2 fun x => by
        rw [hl, hall.1, List.mem_map]
        exact ⟨fun ⟨v, a, b⟩ => ⟨v, a, b.symm⟩, fun ⟨v, a, b⟩ => ⟨v, a, b.symm⟩⟩).length_eq
      rw [List.length_map] at this
      rw [hids, List.length_map] at h
      exact h this
  | unsorted hp h =>
    obtain ⟨_, el, _, _, _, _, _, _, inputs, hinp, _⟩ := (MixTx.validateTx_ok hm.lawful).1 hin
    cases hinp with
    | next hp' => rw [hp] at hp'; cases hp'
    | @first vs _ _ hall hids =>
      refine h ?_
      rw [hids, List.pairwise_map]
      exact (List.pairwise_map.1 hall.2).imp fun hab => .inl hab
  | leftOut hp hx he hk h =>
    obtain ⟨_, el, _, _, _, _, _, _, inputs, hinp, _⟩ := (MixTx.validateTx_ok hm.lawful).1 hin
    cases hinp with
    | next hp' => rw [hp] at hp'; cases hp'
    | @first vs _ _ hall hids =>
      obtain ⟨v, hv, rfl⟩ := (hall.1 _).1 ⟨hx, he, hk⟩
      exact h (by rw [hids]; exact List.mem_map.2 ⟨v, hv, rfl⟩)
  | noPrev hp h =>
    obtain ⟨_, el, _, _, _, _, _, _, inputs, hinp, _⟩ := (MixTx.validateTx_ok hm.lawful).1 hin
    cases hinp with
    | first hp' => rw [hp] at hp'; cases hp'
    | next hp' hg =>
      rw [hp] at hp'; cases hp'
      rw [h] at hg; cases hg
  | badPrev hp hg h =>
    obtain ⟨_, el, _, _, _, _, _, _, inputs, hinp, h255, _⟩ := (MixTx.validateTx_ok hm.lawful).1 hin
    cases hinp with
    | first hp' => rw [hp] at hp'; cases hp'
    | next hp' hg' h1 h2 h3 h4 h5 =>
      have hne := h255 _ _ _ hp' hg'
      rw [hp] at hp'; cases hp'
      rw [hg] at hg'; cases hg'
      exact h ⟨toNat_succ (fun h => hne ⟨h, hov rfl⟩) h1, h2, h3, h4, h5⟩
  | mixNoKey h =>
    obtain ⟨_, el, _, _, _, _, _, _, inputs, _, _, key, sig, hg, _⟩ := (MixTx.validateTx_ok hm.lawful).1 hin
    exact h ⟨_, hg⟩
  | shuffle hs hk h =>
    obtain ⟨_, el, _, _, _, _, _, _, inputs, hinp, _, key, sig, hg, h'⟩ := (MixTx.validateTx_ok hm.lawful).1 hin
    rw [hk] at hg; cases hg
    cases hs with
    | votes hp hall =>
      cases hinp with
      | next hp' => rw [hp] at hp'; cases hp'
      | first _ _ hall' =>
        cases allVotes_unique hall hall'
        exact absurd (h.symm.trans h') (by decide)
    | mix hp hm =>
      cases hinp with
      | first hp' => rw [hp] at hp'; cases hp'
      | next hp' hg' =>
        rw [hp] at hp'; cases hp'
        rw [hm] at hg'; cases hg'
        exact absurd (h.symm.trans h') (by decide)
  | upstreamKind hi he h1 h2 =>
    obtain ⟨el, cts, he', hit⟩ := accepted_item hok hi
    rw [he.eq he'] at h1 h2
    generalize hc : el.mixConfig = cfg at hit
    cases hit with
    | ofVote _ h => exact h1 ⟨h, hc⟩
    | ofMix _ h => exact h2 ⟨h, by rw [hc]; simp⟩
  | upstreamMissing hi hty h =>
    obtain ⟨el, cts, he', hit⟩ := accepted_item hok hi
    generalize hc : el.mixConfig = cfg at hit
    cases hit with
    | ofVote hg h' => exact h _ hg (by rw [← hty, h']; rfl)
    | ofMix hg h' => exact h _ hg (by rw [← hty, h']; rfl)
  | votePosition hi hty h =>
    obtain ⟨el, cts, he', hit⟩ := accepted_item hok hi
    generalize hc : el.mixConfig = cfg at hit
    cases hit with
    | ofVote _ _ h' => exact h h'
    | ofMix _ h' => rw [hty] at h'; cases h'
  | mixPosition hi hg h =>
    obtain ⟨el, cts, he', hit⟩ := accepted_item hok hi
    generalize hc : el.mixConfig = cfg at hit
    cases hit with
    | ofVote hg' => rw [hg] at hg'; cases hg'
    | ofMix hg' _ _ h' =>
      rw [hg] at hg'; cases hg'
      obtain ⟨hlt, _⟩ := List.getElem?_eq_some_iff.1 h'
      exact absurd hlt (Nat.not_lt.2 h)
  | voteContest hi hg h =>
    obtain ⟨el, cts, he', hit⟩ := accepted_item hok hi
    generalize hc : el.mixConfig = cfg at hit
    cases hit with
    | ofVote hg' _ _ hl =>
      rw [hg] at hg'; cases hg'
      exact h ⟨_, cts⟩ (by simp [hl]) rfl
    | ofMix hg' => rw [hg] at hg'; cases hg'
  | mixContest hi hg h =>
    obtain ⟨el, cts, he', hit⟩ := accepted_item hok hi
    generalize hc : el.mixConfig = cfg at hit
    cases hit with
    | ofVote hg' => rw [hg] at hg'; cases hg'
    | ofMix hg' _ h' => rw [hg] at hg'; cases hg'; exact h h'
  | notEnded h =>
    obtain ⟨_, _, _, _, h', _⟩ := PartialDecryptionTx.validateTx_ok.1 hin
    exact h h'
  | noTrusteeKey h1 h2 h3 h =>
    obtain ⟨_, _, _, _, _, _, _, pk, sig, hg, _⟩ := PartialDecryptionTx.validateTx_ok.1 hin
    refine h ⟨pk, sig⟩ ?_
    rw [keyId_eq h1 h2 h3]
    exact hg
  | trusteeKey hp hu h =>
    obtain ⟨_, _, _, _, _, _, _, pk, sig, hg, h1, h2, _⟩ := PartialDecryptionTx.validateTx_ok.1 hin
    have hs := hp.1
    have : _ = _ := keyId_eq hp.2 (hm.typed hp.1) hu
    rw [InStore, SignedTx.id, this, hg] at hs
    cases hs
    exact h ⟨h1, h2⟩
  | proof he hit hp hu h =>
    obtain ⟨el, he', _, _, _, cts, hc, pk, sig, hg, h1, h2, hlen, hv⟩ := PartialDecryptionTx.validateTx_ok.1 hin
    cases he.eq he'
    cases itemAt_unique hit (encryptedVoteFromUpstream_sound hc)
    have hs := hp.1
    have : _ = _ := keyId_eq hp.2 (hm.typed hp.1) hu
    rw [InStore, SignedTx.id, this, hg] at hs
    cases hs
    exact h ⟨hlen.symm, hv⟩
  | @unknownTrustee t el i he hi h =>
    obtain ⟨_, el', cts, he', _, hall, _⟩ := C30_decryption_is_threshold_decryption_partial E m hm t.tx t.sig hok
    cases he.eq he'
    obtain ⟨⟨tr, htr, h'⟩, _⟩ := hall i hi
    exact h tr htr h'
  | @noPartial t i id hi h1 h2 h3 h =>
    obtain ⟨_, el', cts, he', _, hall, _⟩ := C30_decryption_is_threshold_decryption_partial E m hm t.tx t.sig hok
    obtain ⟨_, p, hp, _⟩ := hall i hi
    exact h p hp
  | @tooFew t el he h =>
    obtain ⟨_, el', cts, he', _, _, hk, _⟩ := C30_decryption_is_threshold_decryption_partial E m hm t.tx t.sig hok
    cases he.eq he'
    omega
  | @undecryptable t el cts j c shares err he hit hj hs h =>
    obtain ⟨_, el', cts', he', hit', _, _, hlen, hsel⟩ := C30_decryption_is_threshold_decryption_partial E m hm t.tx t.sig hok
    cases he.eq he'
    cases itemAt_unique hit hit'
    obtain ⟨s, hs'⟩ := getElem?_of_length hlen hj
    obtain ⟨shares', raw, a, b, c⟩ := hsel j _ s hj hs'
    cases shares_unique hm (itemAt_kind hit) rfl rfl rfl rfl (fun _ => Iff.rfl) hs a
    rw [h] at b; cases b
  | @undecodable t el cts j c shares raw he hit hj hs h hd =>
    obtain ⟨_, el', cts', he', hit', _, _, hlen, hsel⟩ := C30_decryption_is_threshold_decryption_partial E m hm t.tx t.sig hok
    cases he.eq he'
    cases itemAt_unique hit hit'
    obtain ⟨s, hs'⟩ := getElem?_of_length hlen hj
    obtain ⟨shares', raw', a, b, c⟩ := hsel j _ s hj hs'
    cases shares_unique hm (itemAt_kind hit) rfl rfl rfl rfl (fun _ => Iff.rfl) hs a
    rw [h] at b; cases b
    rw [hd] at c; cases c
  | @otherVote t el cts out he hit hd h =>
    obtain ⟨_, el', cts', he', hit', _, _, hlen, hsel⟩ := C30_decryption_is_threshold_decryption_partial E m hm t.tx t.sig hok
    cases he.eq he'
    cases itemAt_unique hit hit'
    refine h (List.ext_getElem? fun j => ?_)
    cases hj : cts[j]? with
    | none =>
      have := List.getElem?_eq_none_iff.1 hj
      rw [List.getElem?_eq_none_iff.2 (by rw [hd.1]; exact this), List.getElem?_eq_none_iff.2 (by rw [hlen]; exact this)]
    | some c =>
      obtain ⟨s, hs⟩ := getElem?_of_length hlen hj
      obtain ⟨s', hs'⟩ := getElem?_of_length hd.1 hj
      obtain ⟨_, _, a1, b1, c1⟩ := hsel j _ s hj hs
      obtain ⟨_, _, a2, b2, c2⟩ := hd.2 j _ s' hj hs'
      cases shares_unique hm (itemAt_kind hit) rfl rfl rfl rfl (fun _ => Iff.rfl) a1 a2
      rw [b1] at b2; cases b2
      rw [c1] at c2; cases c2
      rw [hs, hs']

/-- The share transaction of trustee 1 that has no share for trustee 2. -/
def oneShareLost : KeyGenShareTx := KeyGenShareTx.new Toy.eid 1 (Toy.key 11) ⟨[(1, ⟨[]⟩), (3, ⟨[]⟩)], by decide⟩

/-- **C110 is false of the code (1)**: "trustee 1 share is missing" is given for a transaction that has a share for trustee 1 and none for trustee 2. -/
theorem C110_missing_share_false :
    ¬ ∀ (E : Env) (m : MemStore), Replay E m → ∀ t e, t.validate E m.toStore = .err e → Fault E m.toStore t e := by
  intro h
  have hv : (SignedTx.keyGenShare ⟨oneShareLost, Toy.sig 11⟩).validate Toy.env (MemStore.ofList [Toy.electionTx]).toStore
      = .err (.trusteeShareMissing 1) := by decide +kernel
  have := h Toy.env _ (replay_of_run (by decide +kernel)) _ _ hv
  generalize hy : ValErr.trusteeShareMissing 1 = y at this
  cases this
  case shareMissing h =>
    injection hy with hy
    exact h ⟨[]⟩ (by rw [← hy]; simp [oneShareLost, KeyGenShareTx.new])
  all_goals cases hy

/-- **C110 is false of the code (2)**: "threshold is invalid for number of authenticators" is given for one of 256. -/
theorem C110_authenticators_false :
    ¬ ∀ (E : Env) (m : MemStore), Replay E m → ∀ t e, t.validate E m.toStore = .err e → Fault E m.toStore t e := by
  intro h
  have hv : (SignedTx.election ⟨{ Toy.election with authenticators := List.replicate 256 (Toy.authenticator 21) }, Toy.sig 1⟩).validate
      Toy.env MemStore.empty.toStore = .err .invalidAuthThreshold := by decide +kernel
  have := h Toy.env _ .empty _ _ hv
  cases this with
  | authThreshold h => exact absurd h (by decide +kernel)

/-- **C110 is false of the code (3)**: "mix vote_ids are not sorted ascending" is given for a list that is ascending but has an id twice. -/
theorem C110_ascending_false :
    ¬ ∀ (E : Env) (m : MemStore), Replay E m → ∀ t e, t.validate E m.toStore = .err e → Fault E m.toStore t e := by
  intro h
  have hv : (Toy.mixTx 1 11 none [VoteTx.buildId Toy.eid (Toy.key 31), VoteTx.buildId Toy.eid (Toy.key 31)] [[Toy.ct "b"], [Toy.ct "a"]]).validate
      Toy.env (MemStore.ofList Toy.setup).toStore = .err .mixVoteIdsNotSorted := by decide +kernel
  have := h Toy.env _ Toy.setup_ledger.replay _ _ hv
  have hs : [VoteTx.buildId Toy.eid (Toy.key 31), VoteTx.buildId Toy.eid (Toy.key 31)].Pairwise IdLe := by simp [IdLe]
  revert this
  generalize hx : Toy.mixTx 1 11 none _ _ = x
  intro this
  cases this with
  | unsorted _ h => exact h (by cases hx; exact hs)

/-- **C110 is false of the code (4)**: in a mix of exactly 65536 items, a partial decryption of any position, all of which exist, is refused with
"invalid upstream index". -/
theorem C110_positions_false (E : Env) (S : Store) (t : PartialDecryptionTx) (sig : Signature) (e : ElectionTx) (mix : Signed MixTx)
    (hv : SignatureValid E (.partialDecryption ⟨t, sig⟩)) (he : ElectionAt S t.electionId e) (htr : IsTrustee e t.trusteeIndex t.trusteePublicKey)
    (hid : t.id = PartialDecryptionTx.buildId t.electionId t.upstreamId t.contestIndex t.upstreamIndex t.trusteeIndex)
    (hend : SlotFilled S t.electionId .votingEnd) (hcfg : e.mixConfig ≠ none) (hty : t.upstreamId.txType = .mix)
    (hmix : S.getTransaction t.upstreamId = some (.mix mix)) (hc : mix.tx.contestIndex = t.contestIndex)
    (hlen : mix.tx.mixedCiphertexts.length = 65536) :
    (SignedTx.partialDecryption ⟨t, sig⟩).validate E S = .err .invalidUpstreamIndex ∧
      t.upstreamIndex.toNat < mix.tx.mixedCiphertexts.length := by
  refine ⟨?_, by rw [hlen]; exact t.upstreamIndex.toNat_lt⟩
  obtain ⟨esig, he⟩ := he
  have he : S.getElection t.electionId = .ok ⟨e, esig⟩ := Store.getElection_ok.2 he
  obtain ⟨tr, htr⟩ := fullTrustee_find.2 htr
  have hi := List.find?_some htr
  simp only [Bool.and_eq_true, beq_iff_eq] at hi
  obtain ⟨x, hx⟩ := hend
  have hx : S.getTransaction (Identifier.new t.electionId .votingEnd none) = some x := hx
  have hm : S.getMix t.upstreamId = .ok mix := Store.getMix_ok.2 hmix
  have hn : decide (t.upstreamIndex ≥ UInt16.ofNat 65536) = true := by
    simp [UInt16.le_iff_toNat_le]
  have hcfg : e.mixConfig.isNone = false := by cases h : e.mixConfig <;> simp_all
  have hup : encryptedVoteFromUpstream S t.upstreamId t.upstreamIndex t.contestIndex e.mixConfig = .err .invalidUpstreamIndex := by
    unfold encryptedVoteFromUpstream
    rw [hty]
    simp only [hm, Res.bind_def, Res.ok_bind, hc, hcfg, hlen, hn]
    simp [Res.failIf]
  rw [SignedTx.validate_eq]
  have h1 : (SignedTx.partialDecryption ⟨t, sig⟩).id.txType = (SignedTx.partialDecryption ⟨t, sig⟩).transactionType := by
    show t.id.txType = .partialDecryption
    rw [hid]; rfl
  rw [h1, SignedTx.verifySignature_ok.2 hv]
  simp only [bne_self_eq_false, Res.failIf, Bool.false_eq_true, if_false, Res.ok_bind]
  show PartialDecryptionTx.validateTx E t S = _
  simp only [PartialDecryptionTx.validateTx, Res.bind_def, he, Res.ok_bind, htr, Res.ofOption, hi.1, ← hid, bne_self_eq_false, Res.failIf, hx, hup]
  rfl

/-- The hypotheses of the last theorem: a store with the election, its end and a mix of 65536 items. -/
example : ∃ (S : Store) (t : PartialDecryptionTx) (sig : Signature) (e : ElectionTx) (mix : Signed MixTx),
    SignatureValid Toy.env (.partialDecryption ⟨t, sig⟩) ∧ ElectionAt S t.electionId e ∧ IsTrustee e t.trusteeIndex t.trusteePublicKey ∧
    t.id = PartialDecryptionTx.buildId t.electionId t.upstreamId t.contestIndex t.upstreamIndex t.trusteeIndex ∧
    SlotFilled S t.electionId .votingEnd ∧ e.mixConfig ≠ none ∧ t.upstreamId.txType = .mix ∧
    S.getTransaction t.upstreamId = some (.mix mix) ∧ mix.tx.contestIndex = t.contestIndex ∧ mix.tx.mixedCiphertexts.length = 65536 := by
  let mx : Signed MixTx := ⟨MixTx.new Toy.eid none (Toy.trustee 1 11) 0 0 0 Toy.ids (List.replicate 65536 []) ⟨[]⟩, Toy.sig 11⟩
  let p := PartialDecryptionTx.new Toy.eid (MixTx.buildId Toy.eid 0 0 0 1) 3 1 0 (Toy.key 11) []
  refine ⟨⟨fun id => match id.txType with | .election => some Toy.electionTx | .mix => some (.mix mx) | _ => some Toy.endTx, fun _ _ => .ok []⟩,
    p, Toy.sig 11, Toy.election, mx, ?_, ⟨Toy.sig 1, rfl⟩, ⟨Toy.trustee 1 11, by simp [Toy.election], rfl, rfl⟩, rfl, ⟨_, rfl⟩,
    by simp [Toy.election], rfl, rfl, rfl, List.length_replicate⟩
  intro k hk
  cases hk
  decide +kernel

/-! Refusals whose reason the theorem covers, on the ledger of a complete election and before. -/
example : Replay Toy.env (MemStore.ofList Toy.complete) := Toy.complete_ledger.replay
example : (Toy.voteTx 33 "a").validate Toy.env (MemStore.ofList Toy.complete).toStore = .err .votingHasEnded := by decide +kernel
example : (Toy.voteTx 33 "a").validate Toy.env (MemStore.ofList [Toy.electionTx]).toStore = .err .encryptionKeyTransactionDoesNotExist := by
  decide +kernel
example : (Toy.voteTx 33 "a").validate Toy.env MemStore.empty.toStore = .err (.transactionNotFound Toy.eid .election) := by decide +kernel
example : (Toy.shareTx 3 13).validate Toy.env (MemStore.ofList [Toy.electionTx]).toStore = .err (.trusteeDoesNotExist 3) := by decide +kernel
example : Toy.encTx.validate Toy.env (MemStore.ofList [Toy.electionTx, Toy.pkTx 1 11]).toStore = .err .wrongNumberOfPublicKeyTransactions := by
  decide +kernel
example : (Toy.mixTx 1 11 none [VoteTx.buildId Toy.eid (Toy.key 31)] [[Toy.ct "b"]]).validate Toy.env (MemStore.ofList Toy.complete).toStore
    = .err .mixWrongNumberOfVotes := by decide +kernel
example : (Toy.decTx 0 "b").validate Toy.env (MemStore.ofList Toy.complete).toStore = .err .voteDecryptionMismatch := by decide +kernel
/-! A fault, of a vote after the end of voting, in an election whose authenticators and ballots have different ids. -/
example : Fault Toy.env (MemStore.ofList Toy.complete).toStore (Toy.voteTx 33 "a") .votingHasEnded := by
  refine .ended (t := ⟨_, _⟩) ?_
  exact Option.isSome_iff_exists.1 (by decide +kernel)
example : Toy.env.overflowChecks = true := rfl
example : (Toy.election.authenticators.map (·.id)).Nodup ∧ (Toy.election.ballots.map (·.id)).Nodup := by decide +kernel
example : ∀ el, ElectionAt (MemStore.ofList Toy.complete).toStore (electionOf (Toy.voteTx 33 "a")) el → el = Toy.election := by
  intro el hel
  exact hel.eq ⟨Toy.sig 1, rfl⟩
example : kindOf (Toy.voteTx 33 "a") ∈ [.vote, .votingEnd, .encryptionKey, .keyGenCommitment, .keyGenPublicKey] := by decide

end CB
