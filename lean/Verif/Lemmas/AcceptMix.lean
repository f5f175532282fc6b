import Verif.Lemmas.Accept
/-!
# Exact acceptance conditions: mix and decryption
-/

namespace CB
open Spec

theorem Env.subU8_ok {ε : Type} {E : Env} {a b c : UInt8} :
    (E.subU8 a b : Res ε UInt8) = .ok c ↔ ¬ (a < b ∧ E.overflowChecks = true) ∧ c = a - b := by
  unfold Env.subU8
  by_cases h : a < b ∧ E.overflowChecks = true
  · rw [if_pos h]; exact ⟨fun h' => (nomatch h'), fun h' => absurd h h'.1⟩
  · rw [if_neg h]; exact ⟨fun h' => ⟨h, (Res.ok.inj h').symm⟩, fun h' => by rw [h'.2]⟩

theorem Env.addU8_ok {ε : Type} {E : Env} {a b c : UInt8} :
    (E.addU8 a b : Res ε UInt8) = .ok c ↔ ¬ (a.toNat + b.toNat ≥ 256 ∧ E.overflowChecks = true) ∧ c = a + b := by
  unfold Env.addU8
  by_cases h : a.toNat + b.toNat ≥ 256 ∧ E.overflowChecks = true
  · rw [if_pos h]; exact ⟨fun h' => (nomatch h'), fun h' => absurd h h'.1⟩
  · rw [if_neg h]; exact ⟨fun h' => ⟨h, (Res.ok.inj h').symm⟩, fun h' => by rw [h'.2]⟩

theorem isSortedIds_iff (l : List Identifier) : isSortedIds l = true ↔ l.Pairwise IdLe := by
  have trans : ∀ {a b c : Identifier}, IdLe a b → IdLe b c → IdLe a c := by
    intro a b c h1 h2
    rcases h1 with h1 | rfl
    · rcases h2 with h2 | rfl
      · left
        rw [Identifier.cmp_eq_cmpBytes] at *
        exact cmpBytes_lt_trans h1 h2
      · exact .inl h1
    · exact h2
  induction l using isSortedIds.induct with
  | case1 => simp [isSortedIds]
  | case2 => simp [isSortedIds]
  | case3 a b rest ih =>
    have hab : IdLe a b ↔ a.cmp b ≠ .gt := by
      rw [IdLe, ← Identifier.cmp_eq_iff]
      cases a.cmp b <;> simp
    rw [isSortedIds, Bool.and_eq_true, Identifier.partialCmp_eq, List.pairwise_cons (a := a)]
    refine Iff.trans (and_congr (c := IdLe a b) ?_ ih) ?_
    · rw [hab]; cases a.cmp b <;> simp
    constructor
    · rintro ⟨h, hp⟩
      refine ⟨fun x hx => ?_, hp⟩
      rcases List.mem_cons.1 hx with rfl | hx
      · exact h
      · exact trans h ((List.pairwise_cons.1 hp).1 x hx)
    · rintro ⟨h, hp⟩
      exact ⟨h b (by simp), hp⟩

theorem hasUniqueElements_iff {α : Type} [DecidableEq α] (seen l : List α) :
    hasUniqueElements seen l = true ↔ l.Nodup ∧ ∀ x ∈ l, x ∉ seen := by
  induction l generalizing seen with
  | nil => simp [hasUniqueElements]
  | cons a l ih =>
    simp only [hasUniqueElements, Bool.and_eq_true, Bool.not_eq_true', List.nodup_cons, List.mem_cons]
    rw [ih, ← Bool.not_eq_true, List.contains_iff_mem]
    constructor
    · rintro ⟨h1, h2, h3⟩
      refine ⟨⟨fun h => h3 a h (by simp), h2⟩, ?_⟩
      rintro x (rfl | hx)
      · exact h1
      · exact fun h => h3 x hx (by simp [h])
    · rintro ⟨⟨h1, h2⟩, h3⟩
      refine ⟨h3 a (.inl rfl), h2, fun x hx h => ?_⟩
      rcases List.mem_cons.1 h with rfl | h
      · exact h1 hx
      · exact h3 x (.inr hx) h

theorem voteIdsMatch_ok {ids : List Identifier} {vs : List SignedTx} (hl : vs.length = ids.length) :
    voteIdsMatch ids vs = .ok () ↔ ids = vs.map SignedTx.id := by
  induction vs generalizing ids with
  | nil => cases ids <;> simp_all [voteIdsMatch]
  | cons v vs ih =>
    cases ids with
    | nil => simp at hl
    | cons i is =>
      simp only [voteIdsMatch, List.map_cons, List.cons.injEq]
      by_cases h : i = v.id
      · simp only [h, ne_eq, not_true_eq_false, if_false, true_and]
        exact ih (by simpa using hl)
      · simp [h]

theorem voteIdsMatch_not_panic {ids : List Identifier} {vs : List SignedTx} (hl : vs.length = ids.length) (p : Panic) :
    voteIdsMatch ids vs ≠ .panic p := by
  induction vs generalizing ids with
  | nil => cases ids <;> simp_all [voteIdsMatch]
  | cons v vs ih =>
    cases ids with
    | nil => simp at hl
    | cons i is =>
      simp only [voteIdsMatch]
      split
      · simp
      · exact ih (by simpa using hl)

theorem idLt_nodup {l : List SignedTx} (h : l.Pairwise IdLt) : (l.map SignedTx.id).Nodup := by
  rw [List.Nodup, List.pairwise_map]
  refine h.imp fun {a b} hab heq => ?_
  unfold IdLt at hab
  rw [(Identifier.cmp_eq_iff _ _).2 heq] at hab
  cases hab

theorem idLt_sorted {l : List SignedTx} (h : l.Pairwise IdLt) : (l.map SignedTx.id).Pairwise IdLe := by
  rw [List.pairwise_map]
  exact h.imp fun {a b} hab => .inl hab

theorem contestVotes_eq (c : UInt32) (votes : List (Signed VoteTx)) :
    contestVotes c votes = (votes.map fun v => (v.tx.encryptedVotes.filter fun ev => ev.contestIndex == c).map (·.selections)).flatten := by
  induction votes with
  | nil => rfl
  | cons v vs ih =>
    simp only [contestVotes, List.map_cons, List.flatten_cons, ih]
    congr 3

theorem map_intoVote {raw : List SignedTx} {f : Signed VoteTx → List (List Ciphertext)} {rs : List (List (List Ciphertext))}
    (h : raw.map (fun v => (SignedTx.intoVote v).bind fun vote => (Res.ok (f vote) : VRes _)) = rs.map Res.ok) :
    ∃ votes : List (Signed VoteTx), raw = votes.map .vote ∧ rs = votes.map f := by
  induction raw generalizing rs with
  | nil => cases rs with
    | nil => exact ⟨[], rfl, rfl⟩
    | cons => simp at h
  | cons r raw ih =>
    cases rs with
    | nil => simp at h
    | cons x xs =>
      simp only [List.map_cons, List.cons.injEq, Res.bind_eq_ok, SignedTx.intoVote_ok] at h
      obtain ⟨⟨v, rfl, hv⟩, h⟩ := h
      cases hv
      obtain ⟨votes, rfl, rfl⟩ := ih h
      exact ⟨v :: votes, rfl, rfl⟩

theorem MixTx.inputsFromVotes_ok_store {t : MixTx} {S : Store} {inputs : List (List Ciphertext)} :
    t.inputsFromVotes S = .ok inputs ↔ t.mixIndex = 0 ∧ t.voteIds.Pairwise IdLe ∧ t.voteIds.Nodup ∧
      ∃ votes : List (Signed VoteTx), S.getMultiple t.electionId .vote = .ok (votes.map .vote) ∧
        t.voteIds = votes.map (·.tx.id) ∧ inputs = contestVotes t.contestIndex votes := by
  simp only [inputsFromVotes, Res.bind_def, Res.bind_eq_ok, Res.exists_unit, Res.failIf_eq_ok, bne_eq_false_iff_eq, Identifier.start_none,
    Identifier.end_none, Res.ok_bind, Bool.not_eq_false', isSortedIds_iff, hasUniqueElements_iff, Res.flatMapM_eq_ok, Store.getMultiple,
    Res.pure_def]
  constructor
  · rintro ⟨h0, h1, ⟨h2, _⟩, raw, hraw, hl, hm, rs, hrs, rfl⟩
    obtain ⟨votes, rfl, rfl⟩ := map_intoVote hrs
    rw [voteIdsMatch_ok hl, List.map_map] at hm
    exact ⟨h0, h1, h2, votes, hraw, hm, (contestVotes_eq _ _).symm⟩
  · rintro ⟨h0, h1, h2, votes, hraw, hm, rfl⟩
    have hl : (votes.map SignedTx.vote).length = t.voteIds.length := by rw [hm]; simp
    refine ⟨h0, h1, ⟨h2, by simp⟩, _, hraw, hl, ?_, votes.map (fun v => (v.tx.encryptedVotes.filter fun ev => ev.contestIndex == t.contestIndex).map (·.selections)), ?_, contestVotes_eq _ _⟩
    · rw [voteIdsMatch_ok hl, hm, List.map_map]; rfl
    · simp [List.map_map, Function.comp_def, SignedTx.intoVote]

/-- What a mix must name as its inputs. -/
inductive Spec.MixInputs (S : Store) (t : MixTx) : List (List Ciphertext) → Prop
  /-- a first mix: all votes of the election, as they are stored -/
  | first {votes : List (Signed VoteTx)} : t.prevMixId = none → t.mixIndex = 0 → AllVotes S t.electionId votes →
      t.voteIds = votes.map (·.tx.id) → MixInputs S t (contestVotes t.contestIndex votes)
  /-- a later mix: the outputs of the mix it names, of the same election, contest, batch and vote list, one index before -/
  | next {prevId : Identifier} {prev : MixTx} {sig : Signature} : t.prevMixId = some prevId →
      S.getTransaction prevId = some (.mix ⟨prev, sig⟩) → t.mixIndex = prev.mixIndex + 1 → t.electionId = prev.electionId →
      t.contestIndex = prev.contestIndex → t.batch = prev.batch → t.voteIds = prev.voteIds → MixInputs S t prev.mixedCiphertexts

theorem allVotes_of_getMultiple {S : Store} (h : Lawful S) {e : Identifier} {votes : List (Signed VoteTx)} :
    S.getMultiple e .vote = .ok (votes.map .vote) ↔ AllVotes S e votes := by
  obtain ⟨l, h1, h2, h3⟩ := h.getMultiple e .vote
  constructor
  · intro hg
    rw [h1] at hg
    cases hg
    exact ⟨fun t => by rw [← h2]; simp [eq_comm], h3⟩
  · rintro ⟨ha, hp⟩
    rw [h1]
    congr 1
    exact MemStore.idLt_ext h3 hp fun t => by rw [h2, ha]; simp [eq_comm]

theorem MixTx.inputsFromVotes_ok {t : MixTx} {S : Store} (h : Lawful S) {inputs : List (List Ciphertext)} :
    t.inputsFromVotes S = .ok inputs ↔ t.mixIndex = 0 ∧ ∃ votes, AllVotes S t.electionId votes ∧
      t.voteIds = votes.map (·.tx.id) ∧ inputs = contestVotes t.contestIndex votes := by
  rw [inputsFromVotes_ok_store]
  constructor
  · rintro ⟨h0, _, _, votes, hv, h1, h2⟩
    exact ⟨h0, votes, (allVotes_of_getMultiple h).1 hv, h1, h2⟩
  · rintro ⟨h0, votes, hv, h1, h2⟩
    have e : votes.map (·.tx.id) = (votes.map SignedTx.vote).map SignedTx.id := by rw [List.map_map]; rfl
    refine ⟨h0, ?_, ?_, votes, (allVotes_of_getMultiple h).2 hv, h1, h2⟩
    · rw [h1, e]; exact idLt_sorted hv.2
    · rw [h1, e]; exact idLt_nodup hv.2

theorem MixTx.inputsFromPrev_ok {E : Env} {t : MixTx} {S : Store} {prevId : Identifier} {inputs : List (List Ciphertext)} :
    t.inputsFromPrev E S prevId = .ok inputs ↔ ∃ prev sig, S.getTransaction prevId = some (.mix ⟨prev, sig⟩) ∧
      ¬ (prev.mixIndex = 255 ∧ E.overflowChecks = true) ∧ t.mixIndex = prev.mixIndex + 1 ∧ t.electionId = prev.electionId ∧
      t.contestIndex = prev.contestIndex ∧ t.batch = prev.batch ∧ t.voteIds = prev.voteIds ∧ inputs = prev.mixedCiphertexts := by
  have h255 : ∀ a : UInt8, (a.toNat + (1 : UInt8).toNat ≥ 256) ↔ a = 255 := by
    intro a
    have := a.toNat_lt
    rw [← UInt8.toNat_inj]
    simp
    omega
  simp only [inputsFromPrev, Res.bind_def, Res.bind_eq_ok, Res.exists_unit, Res.failIf_eq_ok, Res.ofOption_eq_ok, SignedTx.intoMix_ok,
    Env.addU8_ok, Res.pure_def, Bool.or_eq_false_iff, bne_eq_false_iff_eq, h255]
  constructor
  · rintro ⟨raw, hraw, prev, rfl, next, ⟨hov, rfl⟩, ⟨⟨⟨⟨h1, h2⟩, h3⟩, h4⟩, h5⟩, h6⟩
    cases h6
    exact ⟨prev.tx, prev.sig, hraw, hov, h1, h2, h3, h4, h5, rfl⟩
  · rintro ⟨prev, sig, hraw, hov, h1, h2, h3, h4, h5, rfl⟩
    exact ⟨_, hraw, ⟨prev, sig⟩, rfl, _, ⟨hov, rfl⟩, ⟨⟨⟨⟨h1, h2⟩, h3⟩, h4⟩, h5⟩, rfl⟩

theorem MixTx.validateTx_ok {E : Env} {t : MixTx} {S : Store} (h : Lawful S) :
    t.validateTx E S = .ok () ↔
      t.id = MixTx.buildId t.electionId t.contestIndex t.batch t.mixIndex t.trusteeIndex ∧
      ∃ e, ElectionAt S t.electionId e ∧ e.mixConfig ≠ none ∧ IsTrustee e t.trusteeIndex t.trusteePublicKey ∧
      ¬ (t.trusteeIndex = 0 ∧ E.overflowChecks = true) ∧ t.mixIndex = t.trusteeIndex - 1 ∧
      t.mixedCiphertexts.length = t.voteIds.length ∧
      ∃ inputs, MixInputs S t inputs ∧
        (∀ pid prev sig, t.prevMixId = some pid → S.getTransaction pid = some (.mix ⟨prev, sig⟩) →
          ¬ (prev.mixIndex = 255 ∧ E.overflowChecks = true)) ∧
        ∃ key sig, S.getTransaction (singleId t.electionId .encryptionKey) = some (.encryptionKey ⟨key, sig⟩) ∧
          E.shuffleVerify (pedersenSeed t.trusteeIndex t.mixIndex t.contestIndex t.batch) inputs.length t.proof inputs
            t.mixedCiphertexts key.encryptionKey = true := by
  have h0 : ∀ a : UInt8, a < 1 ↔ a = 0 := by
    intro a
    rw [← UInt8.toNat_inj, UInt8.lt_iff_toNat_lt]
    simp
  have hinp : ∀ inputs, t.inputs E S = .ok inputs ↔ MixInputs S t inputs ∧ (∀ pid prev sig, t.prevMixId = some pid → S.getTransaction pid = some (.mix ⟨prev, sig⟩) →
          ¬ (prev.mixIndex = 255 ∧ E.overflowChecks = true)) := by
    intro inputs
    rw [MixTx.inputs]
    cases hp : t.prevMixId with
    | none =>
      simp only
      rw [inputsFromVotes_ok h]
      constructor
      · rintro ⟨a, votes, b, c, rfl⟩; exact ⟨.first hp a b c, by simp⟩
      · rintro ⟨hm, _⟩
        cases hm with
        | first _ a b c => exact ⟨a, _, b, c, rfl⟩
        | next a => rw [hp] at a; cases a
    | some prevId =>
      simp only
      rw [inputsFromPrev_ok]
      constructor
      · rintro ⟨prev, sig, a, b, c, d, f, g, i, rfl⟩
        refine ⟨.next hp a c d f g i, ?_⟩
        rintro pid prev' sig' hpid hg
        cases hpid
        rw [a] at hg
        cases hg
        exact b
      · rintro ⟨hm, hov⟩
        cases hm with
        | first a => rw [hp] at a; cases a
        | next a b c d f g i =>
          rw [hp] at a
          cases a
          exact ⟨_, _, b, hov _ _ _ rfl b, c, d, f, g, i, rfl⟩
  simp only [validateTx, Res.bind_def, Res.bind_eq_ok, Res.exists_unit, Res.failIf_eq_ok, Store.getElection_ok, bne_eq_false_iff_eq,
    Bool.not_eq_false', trusteeExists_iff, Env.subU8_ok, hinp, Res.ofOption_eq_ok, SignedTx.intoEncryptionKey_ok, verifyMix, h0]
  constructor
  · rintro ⟨hid, s, hs, hcfg, htr, _, ⟨hov, rfl⟩, hmi, hlen, inputs, ⟨hin, hov'⟩, raw, hraw, key, rfl, hver⟩
    exact ⟨hid.symm, s.tx, ⟨s.sig, hs⟩, by cases hm : s.tx.mixConfig <;> simp_all, htr, hov, hmi, hlen, inputs, hin, hov', key.tx, key.sig, hraw, hver⟩
  · rintro ⟨hid, e, ⟨sg, hs⟩, hcfg, htr, hov, hmi, hlen, inputs, hin, hov', key, sig, hraw, hver⟩
    exact ⟨hid.symm, ⟨e, sg⟩, hs, by cases hm : e.mixConfig <;> simp_all, htr, _, ⟨hov, rfl⟩, hmi, hlen, inputs, ⟨hin, hov'⟩, _, hraw, ⟨key, sig⟩, rfl, hver⟩

/-! ## Decryption -/

theorem find_first {l : List EncryptedVote} {c : UInt32} {ev : EncryptedVote} :
    l.find? (fun ev => ev.contestIndex == c) = some ev ↔
      ∃ before after, l = before ++ ev :: after ∧ ev.contestIndex = c ∧ ∀ x ∈ before, x.contestIndex ≠ c := by
  rw [List.find?_eq_some_iff_append]
  constructor
  · rintro ⟨h, b, a, rfl, hb⟩
    exact ⟨b, a, rfl, by simpa using h, by simpa using hb⟩
  · rintro ⟨b, a, rfl, h, hb⟩
    exact ⟨by simpa using h, b, a, rfl, by simpa using hb⟩

theorem encryptedVoteFromUpstream_sound {S : Store} {up : Identifier} {i : UInt16} {c : UInt32} {cfg : Option MixConfig}
    {cts : List Ciphertext} (h : encryptedVoteFromUpstream S up i c cfg = .ok cts) : ItemAt S up i c cfg cts := by
  unfold encryptedVoteFromUpstream at h
  split at h
  · rename_i hty
    simp only [Res.bind_def, Res.bind_eq_ok, Res.exists_unit, Res.failIf_eq_ok, Store.getVote_ok, bne_eq_false_iff_eq] at h
    obtain ⟨hc, hi, s, hs, hf⟩ := h
    split at hf
    · rename_i ev hev
      cases hf
      obtain ⟨b, a, hl, hce, hb⟩ := find_first.1 hev
      obtain ⟨ci, sel⟩ := ev
      simp only at hce
      subst hce
      cases cfg with
      | some _ => simp at hc
      | none => exact .ofVote (v := s.tx) (sig := s.sig) hs hty hi hl hb
    · cases hf
  · rename_i hty
    simp only [Res.bind_def, Res.bind_eq_ok, Res.exists_unit, Res.failIf_eq_ok, Store.getMix_ok, bne_eq_false_iff_eq, Res.unwrap_eq_ok] at h
    obtain ⟨s, hs, hc, hcfg, _, hl⟩ := h
    cases cfg with
    | none => simp at hcfg
    | some cfg => exact .ofMix (m := s.tx) (sig := s.sig) hs hty hc hl
  · cases h

theorem encryptedVoteFromUpstream_complete {S : Store} {up : Identifier} {i : UInt16} {c : UInt32} {cfg : Option MixConfig}
    {cts : List Ciphertext} (h : ItemAt S up i c cfg cts)
    (hsmall : ∀ m sig, S.getTransaction up = some (.mix ⟨m, sig⟩) → m.mixedCiphertexts.length < 65536) :
    encryptedVoteFromUpstream S up i c cfg = .ok cts := by
  unfold encryptedVoteFromUpstream
  cases h with
  | @ofVote v sig before after _ hg hty hi hl hb =>
    have : S.getVote up = .ok ⟨v, sig⟩ := Store.getVote_ok.2 hg
    have hf : v.encryptedVotes.find? (fun ev => ev.contestIndex == c) = some ⟨c, cts⟩ := find_first.2 ⟨before, after, hl, rfl, hb⟩
    rw [hty]
    simp only [this, hi, Res.bind_def, Res.ok_bind, hf]
    rfl
  | @ofMix m sig cfg _ hg hty hc hl =>
    have : S.getMix up = .ok ⟨m, sig⟩ := Store.getMix_ok.2 hg
    rw [hty]
    have hlt : i.toNat < m.mixedCiphertexts.length := by
      rw [List.getElem?_eq_some_iff] at hl; exact hl.1
    have hn : ¬ (i ≥ UInt16.ofNat m.mixedCiphertexts.length) := by
      have := hsmall m sig hg
      rw [ge_iff_le, UInt16.le_iff_toNat_le]
      simp
      omega
    simp only [this, hc, Res.bind_def, Res.ok_bind, hn, hl]
    simp [Res.failIf, Res.unwrap]

theorem verifyShares_ok {E : Env} {proof : PubkeyProof} {ss : List DecryptShare} {cs : List Ciphertext} (hl : cs.length = ss.length) :
    PartialDecryptionTx.verifyShares E proof ss cs = .ok () ↔
      ∀ (i : Nat) s c, ss[i]? = some s → cs[i]? = some c → E.shareVerify s proof c = true := by
  induction ss generalizing cs with
  | nil => simp [PartialDecryptionTx.verifyShares]
  | cons s ss ih =>
    cases cs with
    | nil => simp at hl
    | cons c cs =>
      simp only [PartialDecryptionTx.verifyShares]
      constructor
      · intro h i
        split at h
        · rename_i hv
          cases i with
          | zero => simpa using hv
          | succ i => simpa using (ih (by simpa using hl)).1 h i
        · cases h
      · intro h
        have h0 := h 0 s c (by simp) (by simp)
        rw [if_pos h0, ih (by simpa using hl)]
        intro i s' c' hs hc
        exact h (i + 1) s' c' (by simpa using hs) (by simpa using hc)

theorem verifyShares_not_panic {E : Env} {proof : PubkeyProof} {ss : List DecryptShare} {cs : List Ciphertext} (hl : cs.length = ss.length)
    (p : Panic) : PartialDecryptionTx.verifyShares E proof ss cs ≠ .panic p := by
  induction ss generalizing cs with
  | nil => simp [PartialDecryptionTx.verifyShares]
  | cons s ss ih =>
    cases cs with
    | nil => simp at hl
    | cons c cs =>
      simp only [PartialDecryptionTx.verifyShares]
      split
      · exact ih (by simpa using hl)
      · simp

theorem fullTrustee_find {e : ElectionTx} {i : UInt8} {k : PublicKey} :
    (∃ tr, e.getFullTrustees.find? (fun tr => tr.index == i && tr.publicKey == k) = some tr) ↔ IsTrustee e i k := by
  rw [← Option.isSome_iff_exists, List.find?_isSome]
  simp only [ElectionTx.getFullTrustees, IsTrustee, List.mem_map, Bool.and_eq_true, beq_iff_eq]
  constructor
  · rintro ⟨_, ⟨tr, htr, rfl⟩, h1, h2⟩
    exact ⟨tr, htr, h1, h2⟩
  · rintro ⟨tr, htr, h1, h2⟩
    exact ⟨_, ⟨tr, htr, rfl⟩, h1, h2⟩

theorem PartialDecryptionTx.validateTx_ok {E : Env} {t : PartialDecryptionTx} {S : Store} :
    t.validateTx E S = .ok () ↔ ∃ e, ElectionAt S t.electionId e ∧ IsTrustee e t.trusteeIndex t.trusteePublicKey ∧
      t.id = buildId t.electionId t.upstreamId t.contestIndex t.upstreamIndex t.trusteeIndex ∧
      SlotFilled S t.electionId .votingEnd ∧
      ∃ cts, encryptedVoteFromUpstream S t.upstreamId t.upstreamIndex t.contestIndex e.mixConfig = .ok cts ∧
      ∃ pk sig, S.getTransaction (KeyGenPublicKeyTx.buildId t.electionId t.trusteeIndex) = some (.keyGenPublicKey ⟨pk, sig⟩) ∧
        pk.trusteeIndex = t.trusteeIndex ∧ pk.trusteePublicKey = t.trusteePublicKey ∧
        cts.length = t.partialDecryption.length ∧
        ∀ (i : Nat) s c, t.partialDecryption[i]? = some s → cts[i]? = some c → E.shareVerify s pk.publicKeyProof c = true := by
  have hv : (S.getTransaction (Identifier.new t.electionId .votingEnd none)).isNone = false ↔ SlotFilled S t.electionId .votingEnd := by
    show (S.getTransaction (singleId t.electionId .votingEnd)).isNone = false ↔ _
    simp only [SlotFilled]
    cases S.getTransaction (singleId t.electionId .votingEnd) <;> simp
  simp only [validateTx, Res.bind_def, Res.bind_eq_ok, Res.exists_unit, Res.failIf_eq_ok, Store.getElection_ok, bne_eq_false_iff_eq,
    Res.ofOption_eq_ok, Store.getKeygenPublicKey_ok, Bool.or_eq_false_iff, hv]
  constructor
  · rintro ⟨s, hs, tr, htr, hid, hve, cts, hcts, pk, hpk, ⟨h1, h2⟩, hlen, hver⟩
    have hi : tr.index = t.trusteeIndex := by
      have := List.find?_some htr
      simp only [Bool.and_eq_true, beq_iff_eq] at this
      exact this.1
    rw [hi] at hid
    exact ⟨s.tx, ⟨s.sig, hs⟩, fullTrustee_find.1 ⟨tr, htr⟩, hid.symm, hve, cts, hcts, pk.tx, pk.sig, hpk, h1.symm, h2.symm, hlen,
      (verifyShares_ok hlen).1 hver⟩
  · rintro ⟨e, ⟨sg, hs⟩, htr, hid, hve, cts, hcts, pk, sig, hpk, h1, h2, hlen, hver⟩
    obtain ⟨tr, htr⟩ := fullTrustee_find.2 htr
    have hi : tr.index = t.trusteeIndex := by
      have := List.find?_some htr
      simp only [Bool.and_eq_true, beq_iff_eq] at this
      exact this.1
    exact ⟨⟨e, sg⟩, hs, tr, htr, by rw [hi]; exact hid.symm, hve, cts, hcts, ⟨pk, sig⟩, hpk, ⟨h1.symm, h2.symm⟩, hlen, (verifyShares_ok hlen).2 hver⟩

end CB
