import Mathlib.Tactic.ByContra
import Mathlib.Data.List.Perm.Subperm
import Mathlib.Data.List.Sort
import Verif.Lemmas.AcceptDec
import Verif.Props.Mixing
import Verif.Props.Voting
import Verif.Props.Decrypting
import Verif.Props.Setup
import Verif.Spec.Errors
/-!
# Why transactions are refused
-/

namespace CB
open Spec

namespace Res
variable {ε ε' α β : Type}

theorem mapErr_eq_err {f : ε → ε'} {x : Res ε α} {e : ε'} : x.mapErr f = err e ↔ ∃ e', x = err e' ∧ f e' = e := by
  cases x <;> simp [mapErr]

theorem forEach_eq_err {f : α → Res ε Unit} {l : List α} {e : ε} (h : forEach f l = err e) : ∃ x ∈ l, f x = err e := by
  induction l with
  | nil => simp [forEach] at h
  | cons a l ih =>
    rw [forEach, bind_eq_err] at h
    rcases h with h | ⟨_, _, h⟩
    · exact ⟨a, by simp, h⟩
    · obtain ⟨x, hx, hp⟩ := ih h
      exact ⟨x, by simp [hx], hp⟩

theorem mapM'_eq_err {f : α → Res ε β} {l : List α} {e : ε} (h : mapM' f l = err e) : ∃ x ∈ l, f x = err e := by
  induction l with
  | nil => simp [mapM'] at h
  | cons a l ih =>
    rw [mapM', bind_eq_err] at h
    rcases h with h | ⟨_, _, h⟩
    · exact ⟨a, by simp, h⟩
    · rw [bind_eq_err] at h
      rcases h with h | ⟨_, _, h⟩
      · obtain ⟨x, hx, hp⟩ := ih h
        exact ⟨x, by simp [hx], hp⟩
      · cases h

theorem flatMapM_eq_err {f : α → Res ε (List β)} {l : List α} {e : ε} (h : flatMapM f l = err e) : ∃ x ∈ l, f x = err e := by
  induction l with
  | nil => simp [flatMapM] at h
  | cons a l ih =>
    rw [flatMapM, bind_eq_err] at h
    rcases h with h | ⟨_, _, h⟩
    · exact ⟨a, by simp, h⟩
    · rw [bind_eq_err] at h
      rcases h with h | ⟨_, _, h⟩
      · obtain ⟨x, hx, hp⟩ := ih h
        exact ⟨x, by simp [hx], hp⟩
      · cases h

end Res

theorem Store.getElection_err {S : Store} {id : Identifier} {e : ValErr} :
    S.getElection id = .err e ↔ (∀ x, ¬ ElectionAt S id x) ∧ e = .transactionNotFound id .election := by
  unfold Store.getElection ElectionAt
  split
  · rename_i s h
    constructor
    · intro h'; cases h'
    · rintro ⟨h', _⟩; exact absurd ⟨s.sig, h⟩ (h' s.tx)
  · rename_i h
    constructor
    · intro h'; cases h'
      exact ⟨fun x ⟨sig, hx⟩ => h _ hx, rfl⟩
    · rintro ⟨_, rfl⟩; rfl

theorem SignedTx.intoKeyGenPublicKey_err {t : SignedTx} {e : ValErr} : t.intoKeyGenPublicKey = .err e ↔ False := by
  cases t <;> simp [SignedTx.intoKeyGenPublicKey]
theorem SignedTx.intoMix_err {t : SignedTx} {e : ValErr} : t.intoMix = .err e ↔ False := by cases t <;> simp [SignedTx.intoMix]
theorem SignedTx.intoVote_err {t : SignedTx} {e : ValErr} : t.intoVote = .err e ↔ False := by cases t <;> simp [SignedTx.intoVote]
theorem SignedTx.intoEncryptionKey_err {t : SignedTx} {e : ValErr} : t.intoEncryptionKey = .err e ↔ False := by
  cases t <;> simp [SignedTx.intoEncryptionKey]
theorem Env.subU8_err {E : Env} {a b : UInt8} {e : ValErr} : E.subU8 a b = .err e ↔ False := by unfold Env.subU8; split <;> simp
theorem Env.addU8_err {E : Env} {a b : UInt8} {e : ValErr} : E.addU8 a b = .err e ↔ False := by unfold Env.addU8; split <;> simp

theorem electionAt_of {S : Store} {id : Identifier} {s : Signed ElectionTx} (h : S.getTransaction id = some (.election s)) : ElectionAt S id s.tx :=
  ⟨s.sig, h⟩

theorem itemBytes_eq (up : Identifier) (n : UInt16) (c : UInt32) (i : UInt8) : (buildUniqueInfo up c n i).val = itemBytes up n c i := by
  unfold buildUniqueInfo itemBytes
  have h : ∀ n, u32be n = be32 n := fun _ => rfl
  split <;> rename_i h1 <;> simp [h, h1, u16be]

variable {E : Env} {m : MemStore} {e : ValErr}

theorem fault_election {t : Signed ElectionTx} (h : t.tx.validateTx = .err e) : Fault E m.toStore (.election t) e ∨ Misleading m.toStore (.election t) e := by
  simp only [ElectionTx.validateTx, Res.bind_def, Res.bind_eq_err, Res.failIf_eq_err, bne_iff_ne, decide_eq_true_eq] at h
  rcases h with ⟨h, rfl⟩ | ⟨_, _, ⟨h, rfl⟩ | ⟨_, _, h, rfl⟩⟩
  · left
    refine .id (bytes := List.replicate 16 0) rfl fun ⟨_, h2, h3⟩ => h ?_
    show (⟨_, _, _⟩ : Identifier) = t.tx.id
    have h2 : t.tx.id.txType = .election := h2
    have h3 : t.tx.id.uniqueInfo = BArr.fill 16 0 := Subtype.ext h3
    rw [← h2, ← h3]
  · exact .inl (.trusteeThreshold (by omega))
  · by_cases hn : 256 ≤ t.tx.authenticators.length
    · exact .inr (.manyAuthenticators hn)
    · left
      refine .authThreshold ?_
      simp only [GT.gt, UInt8.lt_iff_toNat_lt, UInt8.toNat_ofNat'] at h
      rwa [Nat.mod_eq_of_lt (by omega)] at h

theorem fault_trustee {t : SignedTx} {el : Identifier} {i : UInt8} {k : PublicKey} {next : Signed ElectionTx → VRes Unit} (S : Store)
    (h : (S.getElection el).bind (fun s => (Res.failIf (!trusteeExists s.tx.trustees i k) (.trusteeDoesNotExist i)).bind fun _ => next s) = .err e)
    (hel : electionOf t = el) (htr : trusteeOf t = some (i, k)) :
    Fault E S t e ∨ ∃ s : Signed ElectionTx, ElectionAt S el s.tx ∧ IsTrustee s.tx i k ∧ next s = .err e := by
  simp only [Res.bind_eq_err, Store.getElection_err, Store.getElection_ok, Res.failIf_eq_err, Res.failIf_eq_ok, Bool.not_eq_true',
    ← Bool.not_eq_true, trusteeExists_iff] at h
  subst hel
  rcases h with ⟨h, rfl⟩ | ⟨s, hs, ⟨h, rfl⟩ | ⟨_, h1, h2⟩⟩
  · exact .inl (.noElection (by cases t <;> simp_all [kindOf, trusteeOf]) h)
  · exact .inl (.notTrustee htr (electionAt_of hs) h)
  · refine .inr ⟨s, electionAt_of hs, ?_, h2⟩
    simpa [trusteeExists_iff] using h1

theorem fault_commitment {S : Store} {t : Signed KeyGenCommitmentTx} (h : t.tx.validateTx S = .err e) : Fault E S (.keyGenCommitment t) e := by
  rcases fault_trustee (t := .keyGenCommitment t) (next := fun _ => .ok ()) S (e := e) (by
    rw [← h]; simp only [KeyGenCommitmentTx.validateTx, Res.bind_def]; congr 1; funext s
    cases Res.failIf (!trusteeExists s.tx.trustees t.tx.trusteeIndex t.tx.trusteePublicKey) (ValErr.trusteeDoesNotExist t.tx.trusteeIndex) <;> rfl)
    rfl rfl with h | ⟨_, _, _, h⟩
  · exact h
  · cases h

theorem fault_publicKey {S : Store} {t : Signed KeyGenPublicKeyTx} (h : t.tx.validateTx S = .err e) : Fault E S (.keyGenPublicKey t) e := by
  rcases fault_trustee (t := .keyGenPublicKey t) (next := fun _ => .ok ()) S (e := e) (by
    rw [← h]; simp only [KeyGenPublicKeyTx.validateTx, Res.bind_def]; congr 1; funext s
    cases Res.failIf (!trusteeExists s.tx.trustees t.tx.trusteeIndex t.tx.trusteePublicKey) (ValErr.trusteeDoesNotExist t.tx.trusteeIndex) <;> rfl)
    rfl rfl with h | ⟨_, _, _, h⟩
  · exact h
  · cases h

theorem fault_share {S : Store} {t : Signed KeyGenShareTx} (h : t.tx.validateTx S = .err e) :
    Fault E S (.keyGenShare t) e ∨ Misleading S (.keyGenShare t) e := by
  replace h := fault_trustee (E := E) (t := .keyGenShare t) S h rfl rfl
  rcases h with h | ⟨s, hs, _, h⟩
  · exact .inl h
  · simp only [Res.bind_def, Res.bind_eq_err, Res.failIf_eq_err, bne_iff_ne] at h
    rcases h with ⟨h, rfl⟩ | ⟨_, _, h⟩
    · exact .inl (.shareCount hs h)
    · replace h := Res.forEach_eq_err h
      obtain ⟨tr, htr, h⟩ := h
      simp only [Res.failIf_eq_err, Bool.not_eq_true', IndexMap.containsKey] at h
      obtain ⟨h, rfl⟩ := h
      refine .inr (.shareOfOther hs htr fun s hmem => ?_)
      rw [(IndexMap.get_eq_some _ _ _).2 hmem] at h
      cases h

theorem fault_votingEnd {S : Store} {t : Signed VotingEndTx} (h : t.tx.validateTx S = .err e) : Fault E S (.votingEnd t) e := by
  simp only [VotingEndTx.validateTx, Res.bind_def, Res.bind_eq_err, Res.failIf_eq_err, bne_iff_ne, Store.getElection_err, Store.getElection_ok] at h
  rcases h with ⟨h, rfl⟩ | ⟨s, hs, h, rfl⟩
  · exact .noElection (by simp [kindOf]) h
  · exact .notAuthority rfl (electionAt_of hs) h

/-- a type scan of public keys in a replayed store -/
theorem keyStored_of_scan (hm : Replay E m) {el : Identifier} {pks : List (Signed KeyGenPublicKeyTx)}
    (h : m.toStore.getMultiple el .keyGenPublicKey = .ok (pks.map .keyGenPublicKey)) : (∀ p, p ∈ pks ↔ KeyStored m.toStore el p) ∧ pks.Nodup := by
  obtain ⟨l, h1, h2, h3⟩ := hm.lawful.getMultiple el .keyGenPublicKey
  rw [h] at h1
  cases h1
  constructor
  · intro p
    have := h2 (.keyGenPublicKey p)
    constructor
    · intro hp
      obtain ⟨a, b, _⟩ := this.1 (List.mem_map.2 ⟨p, hp, rfl⟩)
      exact ⟨a, b⟩
    · rintro ⟨a, b⟩
      obtain ⟨q, hq, heq⟩ := List.mem_map.1 (this.2 ⟨a, b, hm.typed a⟩)
      cases heq
      exact hq
  · have := idLt_nodup h3
    rw [List.Nodup, List.pairwise_map, List.pairwise_map] at this
    exact this.imp fun {a b} hab heq => hab (by rw [heq])

theorem fault_encryptionKey (hm : Replay E m) {t : Signed EncryptionKeyTx} (h : t.tx.validateTx m.toStore = .err e) :
    Fault E m.toStore (.encryptionKey t) e := by
  obtain ⟨l, hl, _⟩ := hm.lawful.getMultiple t.tx.election .keyGenPublicKey
  simp only [EncryptionKeyTx.validateTx, Res.bind_def, Res.bind_eq_err, Res.failIf_eq_err, bne_iff_ne, Store.getElection_err,
    Store.getElection_ok, hl, Res.ok_bind] at h
  rcases h with ⟨h, rfl⟩ | ⟨s, hs, ⟨h, rfl⟩ | ⟨_, _, h | ⟨pks, hp, h⟩⟩⟩
  · exact .noElection (by simp [kindOf]) h
  · exact .notAuthority rfl (electionAt_of hs) h
  · replace h := Res.mapM'_eq_err h
    obtain ⟨x, _, h⟩ := h
    exact (SignedTx.intoKeyGenPublicKey_err.1 h).elim
  · rw [mapM'_into (fun t s => SignedTx.intoKeyGenPublicKey_ok (t := t) (s := s))] at hp
    subst hp
    obtain ⟨hk, hn⟩ := keyStored_of_scan hm hl
    rcases h with ⟨h, rfl⟩ | ⟨_, _, h | ⟨_, _, h⟩⟩
    · exact .keyCount (electionAt_of hs) hk hn h
    · replace h := Res.forEach_eq_err h
      obtain ⟨tr, htr, h⟩ := h
      simp only [Res.failIf_eq_err, Bool.not_eq_true', List.any_eq_false] at h
      obtain ⟨h, rfl⟩ := h
      refine .keyMissing (electionAt_of hs) htr fun p hp hpe => h p ((hk p).2 hp) ?_
      simp [hpe.1, hpe.2]
    · replace h := Res.forEach_eq_err h
      obtain ⟨p, hp, h⟩ := h
      simp only [Res.failIf_eq_err, bne_iff_ne] at h
      obtain ⟨h, rfl⟩ := h
      exact .keyDiffers ((hk p).1 hp) h

theorem fault_vote (hm : Replay E m) {t : Signed VoteTx} (h : t.tx.validateTx E m.toStore = .err e) : Fault E m.toStore (.vote t) e := by
  obtain ⟨l, hl, hl2, _⟩ := hm.lawful.range_ok (collisionId t.tx.election t.tx.anonymousKey) (collisionId t.tx.election t.tx.anonymousKey) (.inr rfl)
  simp only [VoteTx.validateTx, Res.bind_def, Res.bind_eq_err, Res.failIf_eq_err, bne_iff_ne, Store.getElection_err, Store.getElection_ok,
    start_collision, Res.ok_bind, hl, decide_eq_true_eq] at h
  rcases h with ⟨h, rfl⟩ | ⟨_, _, ⟨h, rfl⟩ | ⟨s, hs, ⟨h, rfl⟩ | ⟨_, _, ⟨h, rfl⟩ | ⟨_, _, ⟨h, rfl⟩ | ⟨_, _, h | ⟨_, _, h⟩⟩⟩⟩⟩⟩
  · refine .id rfl fun ⟨h1, h2, h3⟩ => h ?_
    show (⟨_, _, _⟩ : Identifier) = t.tx.id
    have h1 : t.tx.id.electionId = t.tx.election.electionId := h1
    have h2 : t.tx.id.txType = .vote := h2
    have h3 : t.tx.id.uniqueInfo = VoteTx.keyPrefix16 t.tx.anonymousKey := Subtype.ext h3
    simp only [Option.getD_some, ← h1, ← h2, ← h3]
  · exact .noElection (by simp [kindOf]) h
  · cases l with
    | nil => simp at h
    | cons x l =>
      obtain ⟨a, b, c⟩ := (hl2 x).1 (by simp)
      have hx := idLe_antisymm b c
      refine .collision (x := x) a (by rw [← hx]; rfl) (by rw [← hx]; rfl) ?_
      rw [← hx]
      have := t.tx.anonymousKey.property
      simp only [collisionId]
      rw [List.take_append_of_le_length (by simp; omega), List.take_take]
      simp
  · refine .noKey fun ⟨x, hx⟩ => ?_
    have : (m.toStore.getTransaction (singleId t.tx.election .encryptionKey)).isNone = true := h
    rw [hx] at this; cases this
  · exact .ended (Option.isSome_iff_exists.1 h)
  · replace h := Res.forEach_eq_err h
    obtain ⟨a, ha, h⟩ := h
    simp only [Res.bind_eq_err, Res.ofOption_eq_err, Res.ofOption_eq_ok, Res.mapErr_eq_err] at h
    rcases h with ⟨h, rfl⟩ | ⟨au, hau, _, h, rfl⟩
    · refine .authUnknown (electionAt_of hs) ha fun au hau heq => ?_
      have := List.find?_eq_none.1 h au hau
      simp [heq] at this
    · refine .authFailed (electionAt_of hs) ha (List.mem_of_find?_eq_some hau) ?_ ?_
      · have := List.find?_some hau
        simp only [beq_iff_eq] at this
        exact this.symm
      · rintro ⟨rsa, d, h1, h2, h3⟩
        have := Authenticator.verify_ok.2 ⟨rsa, d, (IndexMap.get_eq_some _ _ _).2 h1, h2, h3⟩
        rw [this] at h; cases h
  · simp only [Res.ofOption_eq_err, Res.ofOption_eq_ok] at h
    rcases h with ⟨h, rfl⟩ | ⟨b, hb, h⟩
    · refine .noBallot (electionAt_of hs) fun b hb heq => ?_
      have := List.find?_eq_none.1 h b hb
      simp [heq] at this
    · replace h := Res.forEach_eq_err h
      obtain ⟨ev, hev, h⟩ := h
      simp only [Res.failIf_eq_err, Bool.not_eq_true', ← Bool.not_eq_true, List.contains_iff_mem] at h
      obtain ⟨h, rfl⟩ := h
      refine .wrongContest (electionAt_of hs) (List.mem_of_find?_eq_some hb) ?_ hev h
      have := List.find?_some hb
      simpa using this

/-! ## Mixes -/

theorem voteIdsMatch_err {ids : List Identifier} {vs : List SignedTx} (h : voteIdsMatch ids vs = .err e) :
    e = .mixVotesNotAccountedFor ∧ ids ≠ vs.map SignedTx.id := by
  induction vs generalizing ids with
  | nil => cases ids <;> cases h
  | cons v vs ih =>
    cases ids with
    | nil => cases h
    | cons i is =>
      simp only [voteIdsMatch] at h
      by_cases hi : i = v.id
      · rw [if_neg (by simp [hi])] at h
        obtain ⟨h1, h2⟩ := ih h
        exact ⟨h1, fun heq => h2 (List.cons.inj heq).2⟩
      · rw [if_pos hi] at h
        cases h
        exact ⟨rfl, fun heq => hi (List.cons.inj heq).1⟩

/-- Two ascending lists without repetition and of one length: if they differ, the second has an element that the first lacks. -/
theorem exists_missing {ids : List Identifier} {vs : List SignedTx} (h1 : ids.Pairwise IdLe) (hv : vs.Pairwise IdLt)
    (hl : vs.length = ids.length) (hne : ids ≠ vs.map SignedTx.id) : ∃ x ∈ vs, x.id ∉ ids := by
  by_contra hall
  have hall : ∀ x ∈ vs, x.id ∈ ids := by
    intro x hx
    by_contra hn
    exact hall ⟨x, hx, hn⟩
  have hsub : (vs.map SignedTx.id).Subperm ids := List.subperm_of_subset (idLt_nodup hv) fun i hi => by
    obtain ⟨x, hx, rfl⟩ := List.mem_map.1 hi
    exact hall x hx
  have hp : (vs.map SignedTx.id).Perm ids := hsub.perm_of_length_le (by simp [hl])
  exact hne (hp.symm.eq_of_pairwise (fun a b _ _ => idLe_antisymm) h1 (idLt_sorted hv))

theorem fault_inputsFromVotes (hm : Replay E m) {t : Signed MixTx} (hp : t.tx.prevMixId = none) (h : t.tx.inputsFromVotes m.toStore = .err e) :
    Fault E m.toStore (.mix t) e ∨ Misleading m.toStore (.mix t) e := by
  obtain ⟨l, hl, hl2, hl3⟩ := hm.lawful.getMultiple t.tx.electionId .vote
  simp only [Store.getMultiple, Identifier.start_none, Identifier.end_none, Res.bind_def, Res.ok_bind] at hl
  simp only [MixTx.inputsFromVotes, Res.bind_def, Res.bind_eq_err, Res.failIf_eq_err, bne_iff_ne, Identifier.start_none, Identifier.end_none,
    Res.ok_bind, hl, Res.failIf_eq_ok, Bool.not_eq_true', Bool.not_eq_false', isSortedIds_iff, bne_eq_false_iff_eq] at h
  rcases h with ⟨h, rfl⟩ | ⟨_, _, ⟨h, rfl⟩ | ⟨_, hs, ⟨h, rfl⟩ | ⟨_, _, ⟨h, rfl⟩ | ⟨_, hlen, h | ⟨_, _, h⟩⟩⟩⟩⟩
  · exact .inl (.order fun ⟨_, h2⟩ => h (h2 hp))
  · refine .inl (.unsorted hp fun hs => ?_)
    rw [(isSortedIds_iff _).2 hs] at h
    cases h
  · refine .inr (.listedTwice hp fun hn => ?_)
    rw [(hasUniqueElements_iff _ _).2 ⟨hn, by simp⟩] at h
    cases h
  · refine .inl (.voteCount hp hl2 ?_ h)
    have := idLt_nodup hl3
    rw [List.Nodup, List.pairwise_map] at this
    exact this.imp fun {a b} hab heq => hab (by rw [heq])
  · obtain ⟨rfl, hne⟩ := voteIdsMatch_err h
    obtain ⟨x, hx, hxn⟩ := exists_missing hs hl3 hlen hne
    obtain ⟨a, b, c⟩ := (hl2 x).1 hx
    exact .inl (.leftOut hp a b c hxn)
  · obtain ⟨x, _, h⟩ := Res.flatMapM_eq_err h
    simp only [Res.bind_eq_err, SignedTx.intoVote_err, false_or, Res.pure_def] at h
    obtain ⟨_, _, h⟩ := h
    cases h

theorem toNat_succ_of {a b : UInt8} (h : a.toNat = b.toNat + 1) : a = b + 1 := by
  apply UInt8.toNat_inj.1
  have := a.toNat_lt
  rw [UInt8.toNat_add, h]
  simp
  omega

theorem fault_inputsFromPrev {S : Store} {t : Signed MixTx} {p : Identifier} (hp : t.tx.prevMixId = some p) (h : t.tx.inputsFromPrev E S p = .err e) :
    Fault E S (.mix t) e := by
  simp only [MixTx.inputsFromPrev, Res.bind_def, Res.bind_eq_err, Res.failIf_eq_err, Res.ofOption_eq_err, Res.ofOption_eq_ok,
    SignedTx.intoMix_err, SignedTx.intoMix_ok, Env.addU8_err, Env.addU8_ok, Res.pure_def, false_or] at h
  rcases h with ⟨h, rfl⟩ | ⟨raw, hraw, prev, rfl, _, ⟨_, rfl⟩, ⟨h, rfl⟩ | ⟨_, _, h⟩⟩
  · exact .noPrev hp h
  · refine .badPrev hp hraw fun ⟨h1, h2, h3, h4, h5⟩ => ?_
    simp [toNat_succ_of h1, h2, h3, h4, h5] at h
  · cases h

theorem toShuffle_of {S : Store} {t : MixTx} {inputs : List (List Ciphertext)} (h : MixInputs S t inputs) : ToShuffle S t inputs := by
  cases h with
  | first a _ b _ => exact .votes a b
  | next a b => exact .mix a b

theorem fault_mix (hm : Replay E m) {t : Signed MixTx} (h : t.tx.validateTx E m.toStore = .err e) :
    Fault E m.toStore (.mix t) e ∨ Misleading m.toStore (.mix t) e := by
  simp only [MixTx.validateTx, Res.bind_def, Res.bind_eq_err, Res.failIf_eq_err, bne_iff_ne, Store.getElection_err, Store.getElection_ok,
    Env.subU8_err, Env.subU8_ok, false_or, Res.ofOption_eq_err, Res.ofOption_eq_ok, SignedTx.intoEncryptionKey_err,
    SignedTx.intoEncryptionKey_ok] at h
  rcases h with ⟨h, rfl⟩ | ⟨_, _, ⟨h, rfl⟩ | ⟨s, hs, ⟨h, rfl⟩ | ⟨_, _, ⟨h, rfl⟩ | ⟨_, _, _, ⟨_, rfl⟩, ⟨h, rfl⟩ | ⟨_, _, ⟨h, rfl⟩ |
    ⟨_, _, h | ⟨inputs, hin, ⟨h, rfl⟩ | ⟨raw, hraw, key, rfl, h⟩⟩⟩⟩⟩⟩⟩⟩
  · left
    refine .id rfl fun ⟨h1, h2, h3⟩ => h ?_
    have h1 : t.tx.id.electionId = t.tx.electionId.electionId := h1
    have h2 : t.tx.id.txType = .mix := h2
    have h3 : t.tx.id.uniqueInfo = MixTx.uniqueInfo t.tx.contestIndex t.tx.batch t.tx.mixIndex t.tx.trusteeIndex := Subtype.ext h3
    show (⟨_, _, _⟩ : Identifier) = t.tx.id
    simp only [Option.getD_some, ← h1, ← h2, ← h3]
  · exact .inl (.noElection (by simp [kindOf]) h)
  · exact .inl (.noMixnet (electionAt_of hs) (by simpa using h))
  · refine .inl (.notTrustee rfl (electionAt_of hs) fun htr => ?_)
    rw [trusteeExists_iff.2 htr] at h
    cases h
  · refine .inl (.order fun ⟨h1, _⟩ => h ?_)
    rw [toNat_succ_of h1]
    simp
  · exact .inl (.outputs h)
  · unfold MixTx.inputs at h
    split at h
    · rename_i p hp
      exact .inl (fault_inputsFromPrev hp h)
    · rename_i hp
      exact fault_inputsFromVotes hm hp h
  · refine .inl (.mixNoKey fun ⟨x, hx⟩ => ?_)
    have : m.toStore.getTransaction (singleId t.tx.electionId .encryptionKey) = none := h
    rw [hx] at this
    cases this
  · simp only [MixTx.verifyMix, Res.failIf_eq_err, Bool.not_eq_true'] at h
    obtain ⟨h, rfl⟩ := h
    refine .inl (.shuffle (inputs := inputs) (key := key) ?_ hraw (by rw [← pedersenSeed_eq]; exact h))
    unfold MixTx.inputs at hin
    split at hin
    · rename_i p hp
      obtain ⟨prev, sig, hg, _, _, _, _, _, _, rfl⟩ := MixTx.inputsFromPrev_ok.1 hin
      exact .mix hp hg
    · rename_i hp
      obtain ⟨_, votes, hv, _, rfl⟩ := (MixTx.inputsFromVotes_ok hm.lawful).1 hin
      exact .votes hp hv

/-! ## Decryptions -/

theorem fault_item {S : Store} {t : SignedTx} {up : Identifier} {i : UInt16} {c : UInt32} {el : ElectionTx} (ht : itemOf t = some (up, i, c))
    (he : ElectionAt S (electionOf t) el) (h : encryptedVoteFromUpstream S up i c el.mixConfig = .err e) :
    Fault E S t e ∨ Misleading S t e := by
  unfold encryptedVoteFromUpstream at h
  split at h
  · rename_i hty
    simp only [Res.bind_def, Res.bind_eq_err, Res.failIf_eq_err, Res.failIf_eq_ok, bne_iff_ne] at h
    rcases h with ⟨h, rfl⟩ | ⟨_, _, ⟨h, rfl⟩ | ⟨_, _, h | ⟨v, hv, h⟩⟩⟩
    · refine .inl (.upstreamKind ht he (fun h' => ?_) (fun h' => ?_))
      · rw [h'.2] at h; cases h
      · rw [hty] at h'; cases h'.1
    · exact .inl (.votePosition ht hty h)
    · unfold Store.getVote at h
      split at h
      · cases h
      · rename_i hn
        cases h
        refine .inl (.upstreamMissing ht hty fun x hx hk => ?_)
        cases x <;> first | exact hn _ hx | cases hk
    · split at h
      · cases h
      · rename_i hf
        cases h
        refine .inl (.voteContest ht (Store.getVote_ok.1 hv) fun ev hev heq => ?_)
        have := List.find?_eq_none.1 hf ev hev
        simp [heq] at this
  · rename_i hty
    simp only [Res.bind_def, Res.bind_eq_err, Res.failIf_eq_err, Res.failIf_eq_ok, bne_iff_ne, decide_eq_true_eq, Res.unwrap_ne_err] at h
    rcases h with h | ⟨x, hx, ⟨h, rfl⟩ | ⟨_, _, ⟨h, rfl⟩ | ⟨_, _, ⟨h, rfl⟩ | ⟨_, _, h⟩⟩⟩⟩
    · unfold Store.getMix at h
      split at h
      · cases h
      · rename_i hn
        cases h
        refine .inl (.upstreamMissing ht hty fun x hx hk => ?_)
        cases x <;> first | exact hn _ hx | cases hk
    · exact .inl (.mixContest ht (Store.getMix_ok.1 hx) h)
    · refine .inl (.upstreamKind ht he (fun h' => ?_) (fun h' => ?_))
      · rw [hty] at h'; cases h'.1
      · exact h'.2 (by simpa using h)
    · by_cases hn : 65536 ≤ x.tx.mixedCiphertexts.length
      · exact .inr (.longMix ht (Store.getMix_ok.1 hx) hn)
      · refine .inl (.mixPosition ht (Store.getMix_ok.1 hx) ?_)
        rw [ge_iff_le, UInt16.le_iff_toNat_le] at h
        simp at h
        omega
    · exact h.elim
  · rename_i h1 h2
    cases h
    exact .inl (.upstreamKind ht he (fun h' => h1 h'.1) (fun h' => h2 h'.1))

theorem verifyShares_err {proof : PubkeyProof} {ss : List DecryptShare} {cs : List Ciphertext}
    (h : PartialDecryptionTx.verifyShares E proof ss cs = .err e) : e = .partialDecryptionProofFailed := by
  induction ss generalizing cs with
  | nil => cases h
  | cons s ss ih =>
    cases cs with
    | nil => cases h
    | cons c cs =>
      simp only [PartialDecryptionTx.verifyShares] at h
      split at h
      · exact ih h
      · cases h; rfl

theorem fault_partial (hm : Replay E m) {t : Signed PartialDecryptionTx} (h : t.tx.validateTx E m.toStore = .err e) :
    Fault E m.toStore (.partialDecryption t) e ∨ Misleading m.toStore (.partialDecryption t) e := by
  simp only [PartialDecryptionTx.validateTx, Res.bind_def, Res.bind_eq_err, Res.failIf_eq_err, bne_iff_ne, Store.getElection_err,
    Store.getElection_ok, Res.ofOption_eq_err, Res.ofOption_eq_ok, Res.failIf_eq_ok, bne_eq_false_iff_eq] at h
  rcases h with ⟨h, rfl⟩ | ⟨s, hs, ⟨h, rfl⟩ | ⟨tr, htr, ⟨h, rfl⟩ | ⟨_, _, ⟨h, rfl⟩ | ⟨_, _, h | ⟨cts, hc, h⟩⟩⟩⟩⟩
  · exact .inl (.noElection (by simp [kindOf]) h)
  · refine .inl (.notTrustee rfl (electionAt_of hs) fun htr => ?_)
    obtain ⟨tr, htr⟩ := fullTrustee_find.2 htr
    rw [htr] at h
    cases h
  · left
    refine .id rfl fun ⟨h1, h2, h3⟩ => h ?_
    have hi := List.find?_some htr
    simp only [Bool.and_eq_true, beq_iff_eq] at hi
    have h1 : t.tx.id.electionId = t.tx.electionId.electionId := h1
    have h2 : t.tx.id.txType = .partialDecryption := h2
    have h3 : t.tx.id.uniqueInfo = buildUniqueInfo t.tx.upstreamId t.tx.contestIndex t.tx.upstreamIndex tr.index :=
      Subtype.ext (by rw [itemBytes_eq, hi.1]; exact h3)
    show (⟨_, _, _⟩ : Identifier) = t.tx.id
    simp only [Option.getD_some, ← h1, ← h2, ← h3]
  · refine .inl (.notEnded fun ⟨x, hx⟩ => ?_)
    have : (m.toStore.getTransaction (singleId t.tx.electionId .votingEnd)).isNone = true := h
    rw [hx] at this
    cases this
  · exact fault_item rfl (electionAt_of hs) h
  · left
    rcases h with h | ⟨pk, hpk, h⟩
    · unfold Store.getKeygenPublicKey at h
      split at h
      · cases h
      · rename_i hn
        cases h
        exact .noTrusteeKey rfl rfl rfl fun p hp => hn _ hp
    · rw [Store.getKeygenPublicKey_ok] at hpk
      have hid : pk.tx.id = KeyGenPublicKeyTx.buildId t.tx.electionId t.tx.trusteeIndex := MemStore.get_id hm.wf hpk
      have hk : KeyStored m.toStore t.tx.electionId pk := by
        refine ⟨?_, by rw [hid]; rfl⟩
        show m.getTransaction pk.tx.id = _
        rw [hid]
        exact hpk
      rcases h with ⟨h, rfl⟩ | ⟨_, _, ⟨h, rfl⟩ | ⟨_, hlen, h⟩⟩
      · refine .trusteeKey hk (by rw [hid]; rfl) fun ⟨h1, h2⟩ => ?_
        simp [h1, h2] at h
      · exact .proof (electionAt_of hs) (encryptedVoteFromUpstream_sound hc) hk (by rw [hid]; rfl) fun ⟨h1, _⟩ => h h1.symm
      · cases verifyShares_err h
        refine .proof (electionAt_of hs) (encryptedVoteFromUpstream_sound hc) hk (by rw [hid]; rfl) fun ⟨_, h2⟩ => ?_
        rw [(verifyShares_ok hlen).2 h2] at h
        cases h

theorem sharesFor_err {trs : List Trustee} {pks : List KeyGenPublicKeyTx} {ps : List PartialDecryptionTx} {j : Nat} :
    sharesFor trs pks ps j ≠ .err e := by
  intro h
  obtain ⟨tr, _, h⟩ := Res.flatMapM_eq_err h
  split at h
  · simp only [Res.bind_def, Res.bind_eq_err, Res.unwrap_ne_err, false_or] at h
    obtain ⟨_, _, h⟩ := h
    cases h
  · cases h

theorem decryptVoteFrom_err {k : UInt8} {trs : List Trustee} {pks : List KeyGenPublicKeyTx} {ps : List PartialDecryptionTx} {n : Nat}
    {cts : List Ciphertext} (h : decryptVoteFrom E k trs pks ps n cts = .err e) :
    ∃ (j : Nat) (c : Ciphertext) (shares : List (Nat × PubkeyProof × DecryptShare)), cts[j]? = some c ∧ sharesFor trs pks ps (n + j) = .ok shares ∧
      ((∃ err, E.thresholdDecrypt k.toNat c shares = .error err ∧ e = .voteDecryptionFailed err) ∨
       (∃ raw, E.thresholdDecrypt k.toNat c shares = .ok raw ∧ Selection.decode raw = none ∧ e = .voteDecodingError)) := by
  induction cts generalizing n with
  | nil => cases h
  | cons c cs ih =>
    simp only [decryptVoteFrom, Res.bind_def, Res.bind_eq_err, Res.ofOption_eq_err, Res.ofOption_eq_ok] at h
    rcases h with h | ⟨shares, hsh, h | ⟨raw, hraw, ⟨h, rfl⟩ | ⟨_, _, h | ⟨_, _, h⟩⟩⟩⟩
    · exact absurd h sharesFor_err
    · split at h
      · cases h
      · rename_i err herr
        cases h
        exact ⟨0, c, shares, rfl, hsh, .inl ⟨err, herr, rfl⟩⟩
    · split at hraw
      · rename_i b hb
        cases hraw
        exact ⟨0, c, shares, rfl, hsh, .inr ⟨_, hb, h, rfl⟩⟩
      · cases hraw
    · obtain ⟨j, c', sh, h1, h2, h3⟩ := ih h
      exact ⟨j + 1, c', sh, h1, by rw [← h2]; congr 1; omega, h3⟩
    · cases h

theorem fault_decryption (hm : Replay E m) {t : Signed DecryptionTx} (h : t.tx.validateTx E m.toStore = .err e) :
    Fault E m.toStore (.decryption t) e ∨ Misleading m.toStore (.decryption t) e := by
  obtain ⟨l, hl, _⟩ := hm.lawful.getMultiple t.tx.electionId .keyGenPublicKey
  simp only [DecryptionTx.validateTx, Res.bind_def, Res.bind_eq_err, Res.failIf_eq_err, bne_iff_ne, Store.getElection_err,
    Store.getElection_ok, hl, Res.ok_bind, decide_eq_true_eq] at h
  rcases h with ⟨h, rfl⟩ | ⟨_, _, ⟨h, rfl⟩ | ⟨s, hs, h | ⟨cts, hc, h | ⟨pks, hp, h⟩⟩⟩⟩
  · left
    refine .id rfl fun ⟨h1, h2, h3⟩ => h ?_
    have h1 : t.tx.id.electionId = t.tx.electionId.electionId := h1
    have h2 : t.tx.id.txType = .decryption := h2
    have h3 : t.tx.id.uniqueInfo = buildUniqueInfo t.tx.upstreamId t.tx.contestIndex t.tx.upstreamIndex 0 :=
      Subtype.ext (by rw [itemBytes_eq]; exact h3)
    show (⟨_, _, _⟩ : Identifier) = t.tx.id
    simp only [Option.getD_some, ← h1, ← h2, ← h3]
  · exact .inl (.noElection (by simp [kindOf]) h)
  · exact fault_item rfl (electionAt_of hs) h
  · replace h := Res.mapM'_eq_err h
    obtain ⟨x, _, h⟩ := h
    exact (SignedTx.intoKeyGenPublicKey_err.1 h).elim
  · left
    rw [mapM'_into (fun t s => SignedTx.intoKeyGenPublicKey_ok (t := t) (s := s))] at hp
    subst hp
    have hitem := encryptedVoteFromUpstream_sound hc
    have hty := itemAt_type hitem
    rcases h with h | ⟨ps, hps, h⟩
    · replace h := Res.mapM'_eq_err h
      obtain ⟨i, hi, h⟩ := h
      simp only [Res.bind_eq_err, Res.ofOption_eq_err, Res.ofOption_eq_ok] at h
      rcases h with ⟨h, rfl⟩ | ⟨tr, htr, h⟩
      · refine .unknownTrustee (electionAt_of hs) hi fun tr htr heq => ?_
        have := List.find?_eq_none.1 h tr htr
        simp [heq] at this
      · rw [(getTrustee_index htr).2] at h
        unfold Store.getPartialDecryption at h
        split at h
        · cases h
        · rename_i hn
          cases h
          exact .noPartial hi rfl rfl (itemBytes_eq _ _ _ _) fun p hp => hn p ((partialFor_iff hm hty).2 hp)
    · obtain ⟨hlen, hall, hall'⟩ := mapM'_getElem hps
      simp only [Res.bind_eq_ok, Res.ofOption_eq_ok, Store.getPartialDecryption_ok] at hall hall'
      rcases h with ⟨h, rfl⟩ | ⟨_, _, h⟩
      · rw [← hlen] at h ⊢
        exact .tooFew (electionAt_of hs) h
      · have hpf : ∀ p ∈ ps, p.tx.trusteeIndex ∈ t.tx.trustees ∧ PartialFor m.toStore t.tx p.tx.trusteeIndex p := by
          intro p hp
          obtain ⟨i, hi, tr, htr, hg⟩ := hall' p hp
          rw [(getTrustee_index htr).2] at hg
          have := (partialFor_iff hm hty).1 hg
          rw [this.trustee]
          exact ⟨hi, this⟩
        have hps' : ∀ i, (∃ p ∈ ps, p.tx.trusteeIndex = i) ↔ i ∈ t.tx.trustees := by
          intro i
          constructor
          · rintro ⟨p, hp, rfl⟩; exact (hpf p hp).1
          · intro hi
            obtain ⟨p, hp, tr, htr, hg⟩ := hall i hi
            rw [(getTrustee_index htr).2] at hg
            exact ⟨p, hp, ((partialFor_iff hm hty).1 hg).trustee⟩
        have hsh := fun (j : Nat) (sh : List (Nat × PubkeyProof × DecryptShare)) =>
          sharesFor_ok (j := j) (trs := s.tx.trustees) (shares := sh) hm hty hl hps' fun p hp => (hpf p hp).2
        rcases h with h | ⟨out, hout, h, rfl⟩
        · obtain ⟨j, c, sh, h1, h2, h3⟩ := decryptVoteFrom_err h
          rw [Nat.zero_add] at h2
          have h2 := (hsh _ _).1 h2
          rcases h3 with ⟨err, h3, rfl⟩ | ⟨raw, h3, h4, rfl⟩
          · exact .undecryptable (electionAt_of hs) hitem h1 h2 h3
          · exact .undecodable (electionAt_of hs) hitem h1 h2 h3 h4
        · obtain ⟨h1, h2⟩ := decryptVoteFrom_ok.1 hout
          refine .otherVote (electionAt_of hs) hitem ⟨h1, fun j c sel hc hsel => ?_⟩ h
          obtain ⟨sh, raw, a, b, d⟩ := h2 j c sel hc hsel
          rw [Nat.zero_add] at a
          exact ⟨sh, raw, (hsh _ _).1 a, b, d⟩

/-! ## What is at fault is refused -/

theorem Spec.ElectionAt.eq {S : Store} {id : Identifier} {x y : ElectionTx} (hx : ElectionAt S id x) (hy : ElectionAt S id y) : x = y := by
  obtain ⟨_, hx⟩ := hx
  obtain ⟨_, hy⟩ := hy
  rw [hx] at hy
  cases hy
  rfl

theorem inj_of_nodup {α β : Type} {f : α → β} {l : List α} (h : (l.map f).Nodup) {a b : α} (ha : a ∈ l) (hb : b ∈ l) (hab : f a = f b) : a = b := by
  induction l with
  | nil => cases ha
  | cons x l ih =>
    rw [List.map_cons, List.nodup_cons] at h
    rcases List.mem_cons.1 ha with rfl | ha' <;> rcases List.mem_cons.1 hb with rfl | hb'
    · rfl
    · exact absurd (List.mem_map.2 ⟨b, hb', hab.symm⟩) h.1
    · exact absurd (List.mem_map.2 ⟨a, ha', hab⟩) h.1
    · exact ih h.2 ha' hb'

/-- what `validate_tx` of an accepted transaction establishes about the election it names -/
theorem accepted_election {t : SignedTx} (hm : Replay E m) (h : t.validate E m.toStore = .ok ()) (hne : kindOf t ≠ .election) :
    ∃ el, ElectionAt m.toStore (electionOf t) el := by
  have hin := (SignedTx.validate_ok.1 h).2.2
  cases t with
  | election => exact absurd rfl hne
  | keyGenCommitment s => obtain ⟨el, he, _⟩ := KeyGenCommitmentTx.validateTx_ok.1 hin; exact ⟨el, he⟩
  | keyGenShare s => obtain ⟨el, he, _⟩ := KeyGenShareTx.validateTx_ok.1 hin; exact ⟨el, he⟩
  | keyGenPublicKey s => obtain ⟨el, he, _⟩ := KeyGenPublicKeyTx.validateTx_ok.1 hin; exact ⟨el, he⟩
  | encryptionKey s => obtain ⟨el, he, _⟩ := EncryptionKeyTx.validateTx_ok.1 hin; exact ⟨el, he⟩
  | vote s => obtain ⟨_, el, he, _⟩ := VoteTx.validateTx_ok_store.1 hin; exact ⟨el, he⟩
  | votingEnd s => obtain ⟨el, he, _⟩ := VotingEndTx.validateTx_ok.1 hin; exact ⟨el, he⟩
  | mix s => obtain ⟨_, el, he, _⟩ := (MixTx.validateTx_ok hm.lawful).1 hin; exact ⟨el, he⟩
  | partialDecryption s => obtain ⟨el, he, _⟩ := PartialDecryptionTx.validateTx_ok.1 hin; exact ⟨el, he⟩
  | decryption s => obtain ⟨_, el, he, _⟩ := DecryptionTx.validateTx_ok.1 hin; exact ⟨el, he⟩

theorem accepted_item {t : SignedTx} {up : Identifier} {i : UInt16} {c : UInt32} (h : t.validate E m.toStore = .ok ()) (ht : itemOf t = some (up, i, c)) :
    ∃ el cts, ElectionAt m.toStore (electionOf t) el ∧ ItemAt m.toStore up i c el.mixConfig cts := by
  have hin := (SignedTx.validate_ok.1 h).2.2
  cases t <;> simp only [itemOf, Option.some.injEq, Prod.mk.injEq, reduceCtorEq] at ht
  · obtain ⟨rfl, rfl, rfl⟩ := ht
    obtain ⟨el, he, _, _, _, cts, hc, _⟩ := PartialDecryptionTx.validateTx_ok.1 hin
    exact ⟨el, cts, he, encryptedVoteFromUpstream_sound hc⟩
  · obtain ⟨rfl, rfl, rfl⟩ := ht
    obtain ⟨_, el, he, cts, hc, _⟩ := DecryptionTx.validateTx_ok.1 hin
    exact ⟨el, cts, he, encryptedVoteFromUpstream_sound hc⟩

theorem accepted_id {t : SignedTx} {bytes : Bytes} (hm : Replay E m) (h : t.validate E m.toStore = .ok ()) (ht : idBytes t = some bytes) :
    t.id.electionId = (electionOf t).electionId ∧ t.id.txType = kindOf t ∧ t.id.uniqueInfo.val = bytes := by
  obtain ⟨hty, _, hin⟩ := SignedTx.validate_ok.1 h
  cases t <;> simp only [idBytes, Option.some.injEq, reduceCtorEq] at ht <;> subst ht
  case election s _ =>
    obtain ⟨hid, _⟩ := ElectionTx.validateTx_ok.1 hin
    refine ⟨rfl, hty, ?_⟩
    show s.tx.id.uniqueInfo.val = _
    rw [hid]; rfl
  case vote s _ =>
    obtain ⟨hid, _⟩ := VoteTx.validateTx_ok_store.1 hin
    refine ⟨?_, hty, ?_⟩
    · show s.tx.id.electionId = _
      rw [hid]; rfl
    · show s.tx.id.uniqueInfo.val = _
      rw [hid]; rfl
  case mix s _ =>
    obtain ⟨hid, _⟩ := (MixTx.validateTx_ok hm.lawful).1 hin
    refine ⟨?_, hty, ?_⟩
    · show s.tx.id.electionId = _
      rw [hid]; rfl
    · show s.tx.id.uniqueInfo.val = _
      rw [hid]; rfl
  case partialDecryption s _ =>
    obtain ⟨_, _, _, hid, _⟩ := PartialDecryptionTx.validateTx_ok.1 hin
    refine ⟨?_, hty, ?_⟩
    · show s.tx.id.electionId = _
      rw [hid]; rfl
    · show s.tx.id.uniqueInfo.val = _
      rw [hid, ← itemBytes_eq]; rfl
  case decryption s _ =>
    obtain ⟨hid, _⟩ := DecryptionTx.validateTx_ok.1 hin
    refine ⟨?_, hty, ?_⟩
    · show s.tx.id.electionId = _
      rw [hid]; rfl
    · show s.tx.id.uniqueInfo.val = _
      rw [hid, ← itemBytes_eq]; rfl

theorem toNat_pred {a b : UInt8} (ha : a ≠ 0) (h : b = a - 1) : a.toNat = b.toNat + 1 := by
  have h0 : a.toNat ≠ 0 := fun h => ha (UInt8.toNat_inj.1 h)
  rw [h, UInt8.toNat_sub_of_le _ _ (by rw [UInt8.le_iff_toNat_le]; simp; omega)]
  simp
  omega

theorem toNat_succ {a b : UInt8} (ha : a ≠ 255) (h : b = a + 1) : b.toNat = a.toNat + 1 := by
  have h0 : a.toNat ≠ 255 := fun h => ha (UInt8.toNat_inj.1 h)
  have := a.toNat_lt
  rw [h, UInt8.toNat_add]
  simp
  omega

theorem nodup_of_idLt {l : List SignedTx} (h : l.Pairwise IdLt) : l.Nodup := by
  have := idLt_nodup h
  rw [List.Nodup, List.pairwise_map] at this
  exact this.imp fun {a b} hab heq => hab (by rw [heq])

theorem keyId_eq {id el : Identifier} {i : UInt8} (h1 : id.electionId = el.electionId) (h2 : id.txType = .keyGenPublicKey)
    (h3 : id.uniqueInfo.val = i :: List.replicate 15 0) : id = KeyGenPublicKeyTx.buildId el i := by
  obtain ⟨a, b, c, hc⟩ := id
  subst h1 h2
  show (⟨_, _, _⟩ : Identifier) = ⟨_, _, _⟩
  congr 1
  exact Subtype.ext h3

theorem itemAt_kind {S : Store} {up : Identifier} {n : UInt16} {c : UInt32} {cfg : Option MixConfig} {x : List Ciphertext}
    (h : ItemAt S up n c cfg x) : (up.txType = .vote ∧ n = 0) ∨ up.txType = .mix := by
  cases h with
  | ofVote _ a b => exact .inl ⟨a, b⟩
  | ofMix _ a => exact .inr a

theorem getElem?_of_length {α β : Type} {l : List α} {k : List β} (h : l.length = k.length) {j : Nat} {b : β} (hj : k[j]? = some b) :
    ∃ a, l[j]? = some a := by
  obtain ⟨hlt, _⟩ := List.getElem?_eq_some_iff.1 hj
  exact ⟨l[j]'(by omega), List.getElem?_eq_getElem _⟩

end CB
