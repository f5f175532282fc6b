import Verif.Spec.Final
import Verif.Props.Errors
import Verif.Props.Order
/-!
# Refusals that stay
-/

namespace CB
open Spec

variable {E : Env} {m m' : MemStore} {e : ValErr}

theorem upstream_err_keeps {S S' : Store} (h : Keeps S S') {up : Identifier} {n : UInt16} {c : UInt32} {cfg : Option MixConfig}
    (hi : encryptedVoteFromUpstream S up n c cfg = .err e) (hp : ¬ Passing e) : encryptedVoteFromUpstream S' up n c cfg = .err e := by
  unfold encryptedVoteFromUpstream at hi ⊢
  split at hi
  · simp only [Res.bind_def, Res.bind_eq_err, Store.getVote_ok] at hi ⊢
    rcases hi with hi | ⟨x, hx, hi | ⟨y, hy, hi | ⟨s, hs, hi⟩⟩⟩
    · exact .inl hi
    · exact .inr ⟨x, hx, .inl hi⟩
    · unfold Store.getVote at hi
      split at hi
      · cases hi
      · cases hi; exact absurd trivial hp
    · exact .inr ⟨x, hx, .inr ⟨y, hy, .inr ⟨s, h _ _ hs, hi⟩⟩⟩
  · simp only [Res.bind_def, Res.bind_eq_err, Store.getMix_ok] at hi ⊢
    rcases hi with hi | ⟨s, hs, hi⟩
    · unfold Store.getMix at hi
      split at hi
      · cases hi
      · cases hi; exact absurd trivial hp
    · exact .inr ⟨s, h _ _ hs, hi⟩
  · exact hi

theorem itemAt_stays {S S' : Store} (hk : Keeps S S') {up : Identifier} {n : UInt16} {c : UInt32} {cfg : Option MixConfig} {cts : List Ciphertext}
    (h : ItemAt S up n c cfg cts) : ItemAt S' up n c cfg cts := by
  cases h with
  | ofVote h1 h2 h3 h4 h5 => exact .ofVote (hk _ _ h1) h2 h3 h4 h5
  | ofMix h1 h2 h3 h4 => exact .ofMix (hk _ _ h1) h2 h3 h4

theorem keyStored_stays {S S' : Store} (hk : Keeps S S') {el : Identifier} {p : Signed KeyGenPublicKeyTx} (h : KeyStored S el p) : KeyStored S' el p :=
  ⟨hk _ _ h.1, h.2⟩

theorem fault_stays {S S' : Store} (hk : Keeps S S') {t : SignedTx} (h : Fault E S t e) (hp : ¬ Passing e) (h1 : kindOf t ≠ .vote) (h2 : kindOf t ≠ .mix)
    (h3 : ∀ i, e ≠ .missingKeyGenPublicKeyTransaction i) : Fault E S' t e := by
  cases h with
  | type h => exact .type h
  | signature h => exact .signature h
  | id a b => exact .id a b
  | notTrustee a b c => exact .notTrustee a (electionAt_keeps hk b) c
  | notAuthority a b c => exact .notAuthority a (electionAt_keeps hk b) c
  | trusteeThreshold a => exact .trusteeThreshold a
  | authThreshold a => exact .authThreshold a
  | shareCount a b => exact .shareCount (electionAt_keeps hk a) b
  | shareMissing a b c => exact .shareMissing (electionAt_keeps hk a) b c
  | keyMissing => exact absurd rfl (h3 _)
  | keyDiffers a b => exact .keyDiffers (keyStored_stays hk a) b
  | upstreamKind a b c d => exact .upstreamKind a (electionAt_keeps hk b) c d
  | votePosition a b c => exact .votePosition a b c
  | mixPosition a b c => exact .mixPosition a (hk _ _ b) c
  | voteContest a b c => exact .voteContest a (hk _ _ b) c
  | mixContest a b c => exact .mixContest a (hk _ _ b) c
  | trusteeKey a b c => exact .trusteeKey (keyStored_stays hk a) b c
  | proof a b c d f => exact .proof (electionAt_keeps hk a) (itemAt_stays hk b) (keyStored_stays hk c) d f
  | unknownTrustee a b c => exact .unknownTrustee (electionAt_keeps hk a) b c
  | tooFew a b => exact .tooFew (electionAt_keeps hk a) b
  | _ => first | exact absurd trivial hp | exact absurd rfl h1 | exact absurd rfl h2

theorem final_encryptionKey (hm : Replay E m) (hm' : Replay E m') (hk : Keeps m.toStore m'.toStore) {t : Signed EncryptionKeyTx} {i : UInt8}
    (h : t.tx.validateTx m.toStore = .err (.missingKeyGenPublicKeyTransaction i)) (hok : t.tx.validateTx m'.toStore = .ok ()) : False := by
  obtain ⟨el', he', _, pks', hs', hl', hall, _⟩ := EncryptionKeyTx.validateTx_ok.1 hok
  obtain ⟨l, hl, _⟩ := hm.lawful.getMultiple t.tx.election .keyGenPublicKey
  simp only [EncryptionKeyTx.validateTx, Res.bind_def, Res.bind_eq_err, Res.failIf_eq_err, bne_iff_ne, Store.getElection_err,
    Store.getElection_ok, hl, Res.ok_bind, reduceCtorEq, and_false, false_or, Res.failIf_eq_ok, bne_eq_false_iff_eq] at h
  obtain ⟨s, hs, _, _, h⟩ := h
  cases he'.eq (electionAt_keeps hk (electionAt_of hs))
  rcases h with h | ⟨pks, hp, _, hlen, h | ⟨_, _, h⟩⟩
  · obtain ⟨x, _, h⟩ := Res.mapM'_eq_err h
    exact (SignedTx.intoKeyGenPublicKey_err.1 h).elim
  · rw [mapM'_into (fun t s => SignedTx.intoKeyGenPublicKey_ok (t := t) (s := s))] at hp
    subst hp
    obtain ⟨tr, htr, h⟩ := Res.forEach_eq_err h
    simp only [Res.failIf_eq_err, Bool.not_eq_true', List.any_eq_false] at h
    obtain ⟨h, _⟩ := h
    obtain ⟨p, hp, hpe⟩ := hall tr htr
    obtain ⟨k1, n1⟩ := keyStored_of_scan hm hl
    obtain ⟨k2, _⟩ := keyStored_of_scan hm' hs'
    have hsub : pks.Subperm pks' := List.subperm_of_subset n1 fun q hq => (k2 q).2 (keyStored_stays hk ((k1 q).1 hq))
    have hmem : p ∈ pks := (hsub.perm_of_length_le (by rw [hl', hlen])).mem_iff.2 hp
    exact h p hmem (by simp [hpe.1, hpe.2])
  · obtain ⟨p, _, h⟩ := Res.forEach_eq_err h
    rw [Res.failIf_eq_err] at h
    cases h.2

theorem final_vote (hm : Replay E m) (hm' : Replay E m') (hk : Keeps m.toStore m'.toStore) {t : Signed VoteTx}
    (h : t.tx.validateTx E m.toStore = .err e) (hp : ¬ Passing e) (hok : t.tx.validateTx E m'.toStore = .ok ()) : False := by
  obtain ⟨hid, el, he, hcol, _, hend, hau, b', hb', hct⟩ := (VoteTx.validateTx_ok hm'.lawful).1 hok
  obtain ⟨l, hl, hl2, _⟩ := hm.lawful.range_ok (collisionId t.tx.election t.tx.anonymousKey) (collisionId t.tx.election t.tx.anonymousKey) (.inr rfl)
  simp only [VoteTx.validateTx, Res.bind_def, Res.bind_eq_err, Res.failIf_eq_err, bne_iff_ne, Store.getElection_err, Store.getElection_ok,
    start_collision, Res.ok_bind, hl, decide_eq_true_eq] at h
  rcases h with ⟨h, rfl⟩ | ⟨_, _, ⟨h, rfl⟩ | ⟨s, hs, ⟨h, rfl⟩ | ⟨_, _, ⟨h, rfl⟩ | ⟨_, _, ⟨h, rfl⟩ | ⟨_, _, h | ⟨_, _, h⟩⟩⟩⟩⟩⟩
  · exact h hid.symm
  · exact hp trivial
  · cases l with
    | nil => simp at h
    | cons x l =>
      obtain ⟨a, b, c⟩ := (hl2 x).1 (by simp)
      have := hk _ _ a
      rw [← idLe_antisymm b c, hcol] at this
      cases this
  · exact hp trivial
  · exact hend (slot_keeps hk (Option.isSome_iff_exists.1 h))
  · cases he.eq (electionAt_keeps hk (electionAt_of hs))
    obtain ⟨a, ha, h⟩ := Res.forEach_eq_err h
    obtain ⟨au, h1, h2⟩ := hau a ha
    simp only [Res.bind_eq_err, Res.ofOption_eq_err, Res.ofOption_eq_ok, Res.mapErr_eq_err, h1, reduceCtorEq, false_and, false_or, Option.some.injEq,
      exists_eq_left', h2] at h
    obtain ⟨_, h, _⟩ := h
  · cases he.eq (electionAt_keeps hk (electionAt_of hs))
    simp only [Res.ofOption_eq_err, Res.ofOption_eq_ok, hb', reduceCtorEq, false_and, false_or, Option.some.injEq, exists_eq_left'] at h
    obtain ⟨ev, hev, h⟩ := Res.forEach_eq_err h
    simp only [Res.failIf_eq_err, Bool.not_eq_true', ← Bool.not_eq_true, List.contains_iff_mem] at h
    exact h.1 (hct ev hev)

theorem allVotes_same {S S' : Store} (hk : Keeps S S') {el : Identifier} {votes votes' : List (Signed VoteTx)} (hv : AllVotes S el votes)
    (hv' : AllVotes S' el votes') (h : votes.map (·.tx.id) = votes'.map (·.tx.id)) : votes = votes' := by
  have hlen : votes.length = votes'.length := by simpa using congrArg List.length h
  refine List.ext_getElem hlen fun i h1 h2 => ?_
  have hid : votes[i].tx.id = votes'[i].tx.id := by
    have := congrArg (fun l => l[i]?) h
    simpa [List.getElem?_map, h1, h2] using this
  have a := hk _ _ ((hv.1 (.vote votes[i])).2 ⟨votes[i], List.getElem_mem h1, rfl⟩).1
  have b := ((hv'.1 (.vote votes'[i])).2 ⟨votes'[i], List.getElem_mem h2, rfl⟩).1
  have b : S'.getTransaction votes'[i].tx.id = _ := b
  have a : S'.getTransaction votes[i].tx.id = _ := a
  rw [hid, b] at a
  exact (SignedTx.vote.inj (Option.some.inj a)).symm

theorem final_mix (hm : Replay E m) (hm' : Replay E m') (hk : Keeps m.toStore m'.toStore) {t : Signed MixTx}
    (h : t.tx.validateTx E m.toStore = .err e) (hp : ¬ Passing e) (hok : t.tx.validateTx E m'.toStore = .ok ()) : False := by
  obtain ⟨hid, el, he, hmix, htr, h0, hidx, hlen, inputs', hin', h255, key', sig', hkey', hsh⟩ := (MixTx.validateTx_ok hm'.lawful).1 hok
  simp only [MixTx.validateTx, Res.bind_def, Res.bind_eq_err, Res.failIf_eq_err, bne_iff_ne, Store.getElection_err, Store.getElection_ok,
    Env.subU8_err, Env.subU8_ok, false_or, Res.ofOption_eq_err, Res.ofOption_eq_ok, SignedTx.intoEncryptionKey_err,
    SignedTx.intoEncryptionKey_ok] at h
  rcases h with ⟨h, rfl⟩ | ⟨_, _, ⟨h, rfl⟩ | ⟨s, hs, ⟨h, rfl⟩ | ⟨_, _, ⟨h, rfl⟩ | ⟨_, _, _, ⟨_, rfl⟩, ⟨h, rfl⟩ | ⟨_, _, ⟨h, rfl⟩ |
    ⟨_, _, h | ⟨inputs, hin, ⟨h, rfl⟩ | ⟨raw, hraw, key, rfl, h⟩⟩⟩⟩⟩⟩⟩⟩
  · exact h hid.symm
  · exact hp trivial
  · cases he.eq (electionAt_keeps hk (electionAt_of hs))
    exact hmix (by simpa using h)
  · cases he.eq (electionAt_keeps hk (electionAt_of hs))
    rw [trusteeExists_iff.2 htr] at h
    cases h
  · exact h hidx
  · exact h hlen
  · unfold MixTx.inputs at h
    split at h
    · rename_i p hpr
      simp only [MixTx.inputsFromPrev, Res.bind_def, Res.bind_eq_err, Res.failIf_eq_err, Res.ofOption_eq_err, Res.ofOption_eq_ok,
        SignedTx.intoMix_err, SignedTx.intoMix_ok, Env.addU8_err, Env.addU8_ok, Res.pure_def, false_or] at h
      rcases h with ⟨h, rfl⟩ | ⟨raw, hraw, prev, rfl, _, ⟨_, rfl⟩, ⟨h, rfl⟩ | ⟨_, _, h⟩⟩
      · exact hp trivial
      · cases hin' with
        | first hp' => rw [hpr] at hp'; cases hp'
        | next hp' hg h1 h2 h3 h4 h5 =>
          rw [hpr] at hp'; cases hp'
          rw [hk _ _ hraw] at hg; cases hg
          simp [h1, h2, h3, h4, h5] at h
      · cases h
    · rename_i hpr
      cases hin' with
      | next hp' => rw [hpr] at hp'; cases hp'
      | @first votes' _ hz hall' hids' =>
        have e' : votes'.map (·.tx.id) = (votes'.map SignedTx.vote).map SignedTx.id := by rw [List.map_map]; rfl
        obtain ⟨l, hl, hl2, hl3⟩ := hm.lawful.getMultiple t.tx.electionId .vote
        simp only [Store.getMultiple, Identifier.start_none, Identifier.end_none, Res.bind_def, Res.ok_bind] at hl
        simp only [MixTx.inputsFromVotes, Res.bind_def, Res.bind_eq_err, Res.failIf_eq_err, bne_iff_ne, Identifier.start_none, Identifier.end_none,
          Res.ok_bind, hl, Res.failIf_eq_ok, Bool.not_eq_true', Bool.not_eq_false', isSortedIds_iff, bne_eq_false_iff_eq] at h
        rcases h with ⟨h, rfl⟩ | ⟨_, _, ⟨h, rfl⟩ | ⟨_, hs, ⟨h, rfl⟩ | ⟨_, _, ⟨h, rfl⟩ | ⟨_, hlen, h | ⟨_, _, h⟩⟩⟩⟩⟩
        · exact h hz
        · rw [(isSortedIds_iff _).2 (by rw [hids', e']; exact idLt_sorted hall'.2)] at h
          cases h
        · rw [(hasUniqueElements_iff _ _).2 ⟨by rw [hids', e']; exact idLt_nodup hall'.2, by simp⟩] at h
          cases h
        · exact hp trivial
        · obtain ⟨rfl, hne⟩ := voteIdsMatch_err h
          obtain ⟨x, hx, hxn⟩ := exists_missing hs hl3 hlen hne
          obtain ⟨a, b, c⟩ := (hl2 x).1 hx
          obtain ⟨v, hv, rfl⟩ := (hall'.1 _).1 ⟨hk _ _ a, b, c⟩
          exact hxn (by rw [hids']; exact List.mem_map.2 ⟨v, hv, rfl⟩)
        · obtain ⟨x, _, h⟩ := Res.flatMapM_eq_err h
          simp only [Res.bind_eq_err, SignedTx.intoVote_err, false_or, Res.pure_def] at h
          obtain ⟨_, _, h⟩ := h
          cases h
  · exact hp trivial
  · simp only [MixTx.verifyMix, Res.failIf_eq_err, Bool.not_eq_true'] at h
    obtain ⟨h, rfl⟩ := h
    have hkey := hk _ _ hraw
    rw [show Identifier.new t.tx.electionId .encryptionKey none = singleId t.tx.electionId .encryptionKey from rfl, hkey'] at hkey
    cases hkey
    have hsame : inputs = inputs' := by
      unfold MixTx.inputs at hin
      split at hin
      · rename_i p hpr
        obtain ⟨prev, sig, hg, _, _, _, _, _, _, rfl⟩ := MixTx.inputsFromPrev_ok.1 hin
        cases hin' with
        | first hp' => rw [hpr] at hp'; cases hp'
        | next hp' hg' =>
          rw [hpr] at hp'; cases hp'
          rw [hk _ _ hg] at hg'; cases hg'
          rfl
      · rename_i hpr
        obtain ⟨_, votes, hv, hids, rfl⟩ := (MixTx.inputsFromVotes_ok hm.lawful).1 hin
        cases hin' with
        | next hp' => rw [hpr] at hp'; cases hp'
        | @first votes' _ _ hall' hids' => rw [allVotes_same hk hv hall' (hids.symm.trans hids')]
    rw [hsame] at h
    rw [h] at hsh
    cases hsh

end CB
