import Verif.Lemmas.Ledger
/-!
# When a decryption is accepted
-/

namespace CB
open Spec

theorem SignedTx.intoPartialDecryption_ok {t : SignedTx} {s : Signed PartialDecryptionTx} :
    t.intoPartialDecryption = .ok s ↔ t = .partialDecryption s := by cases t <;> simp [SignedTx.intoPartialDecryption]

theorem mapM'_into {α : Type} {f : SignedTx → VRes α} {g : α → SignedTx} (hf : ∀ t s, f t = .ok s ↔ t = g s) {raw : List SignedTx} {l : List α} :
    Res.mapM' f raw = .ok l ↔ raw = l.map g := by
  rw [Res.mapM'_eq_ok]
  induction raw generalizing l with
  | nil => cases l <;> simp
  | cons r raw ih => cases l with
    | nil => simp
    | cons a l => simp only [List.map_cons, List.cons.injEq, hf, ih]

theorem mapM'_getElem {α β : Type} {f : α → VRes β} {l : List α} {r : List β} (h : Res.mapM' f l = .ok r) :
    l.length = r.length ∧ (∀ a ∈ l, ∃ b ∈ r, f a = .ok b) ∧ (∀ b ∈ r, ∃ a ∈ l, f a = .ok b) := by
  rw [Res.mapM'_eq_ok] at h
  induction l generalizing r with
  | nil => cases r <;> simp_all
  | cons a l ih => cases r with
    | nil => simp at h
    | cons b r =>
      simp only [List.map_cons, List.cons.injEq] at h
      obtain ⟨h1, h2, h3⟩ := ih h.2
      refine ⟨by simp [h1], ?_, ?_⟩
      · intro x hx
        rcases List.mem_cons.1 hx with rfl | hx
        · exact ⟨b, by simp, h.1⟩
        · obtain ⟨y, hy, hxy⟩ := h2 x hx
          exact ⟨y, by simp [hy], hxy⟩
      · intro y hy
        rcases List.mem_cons.1 hy with rfl | hy
        · exact ⟨a, by simp, h.1⟩
        · obtain ⟨x, hx, hxy⟩ := h3 y hy
          exact ⟨x, by simp [hx], hxy⟩

theorem lastByIndex_some {α : Type} {key : α → UInt8} {i : UInt8} {l : List α} {a : α} (h : lastByIndex key i l = some a) :
    key a = i ∧ ∃ pre post, l = pre ++ a :: post ∧ ∀ x ∈ post, key x ≠ i := by
  unfold lastByIndex at h
  rw [List.find?_eq_some_iff_append] at h
  obtain ⟨h1, as, bs, h2, h3⟩ := h
  refine ⟨by simpa using h1, bs.reverse, as.reverse, ?_, ?_⟩
  · have := congrArg List.reverse h2
    simpa using this
  · intro x hx
    simpa using h3 x (List.mem_reverse.1 hx)

theorem lastByIndex_none {α : Type} {key : α → UInt8} {i : UInt8} {l : List α} : lastByIndex key i l = none ↔ ∀ x ∈ l, key x ≠ i := by
  unfold lastByIndex
  rw [List.find?_eq_none]
  simp

theorem lastByIndex_mem {α : Type} {key : α → UInt8} {i : UInt8} {l : List α} {a : α} (h : lastByIndex key i l = some a) : a ∈ l ∧ key a = i := by
  obtain ⟨h1, pre, post, h2, _⟩ := lastByIndex_some h
  exact ⟨by simp [h2], h1⟩

/-- The partial decryptions found for the trustees a decryption lists. -/
theorem getTrustee_index {e : ElectionTx} {i : UInt8} {tr : Trustee} (h : e.getTrustee i = some tr) : tr ∈ e.trustees ∧ tr.index = i := by
  have h1 := List.mem_of_find?_eq_some h
  have h2 := List.find?_some h
  simp only [beq_iff_eq] at h2
  exact ⟨h1, h2.symm⟩

theorem getTrustee_isSome {e : ElectionTx} {i : UInt8} : (∃ tr, e.getTrustee i = some tr) ↔ ∃ tr ∈ e.trustees, tr.index = i := by
  constructor
  · rintro ⟨tr, h⟩; exact ⟨tr, getTrustee_index h⟩
  · rintro ⟨tr, h1, h2⟩
    apply Option.isSome_iff_exists.1
    show (e.trustees.find? fun tr => i == tr.index).isSome = true
    rw [List.find?_isSome]
    exact ⟨tr, h1, by simp [h2]⟩

/-- Acceptance of a decryption, with the lists the code builds. -/
theorem DecryptionTx.validateTx_ok {E : Env} {t : DecryptionTx} {S : Store} :
    t.validateTx E S = .ok () ↔ t.id = buildId t.electionId t.upstreamId t.contestIndex t.upstreamIndex ∧
      ∃ e, ElectionAt S t.electionId e ∧
      ∃ cts, encryptedVoteFromUpstream S t.upstreamId t.upstreamIndex t.contestIndex e.mixConfig = .ok cts ∧
      ∃ pks : List (Signed KeyGenPublicKeyTx), S.getMultiple t.electionId .keyGenPublicKey = .ok (pks.map .keyGenPublicKey) ∧
      ∃ ps : List (Signed PartialDecryptionTx), ps.length = t.trustees.length ∧
        (∀ (n : Nat) i p, t.trustees[n]? = some i → ps[n]? = some p → (∃ tr ∈ e.trustees, tr.index = i) ∧
          S.getTransaction (PartialDecryptionTx.buildId t.electionId t.upstreamId t.contestIndex t.upstreamIndex i) = some (.partialDecryption p)) ∧
        e.trusteesThreshold.toNat ≤ t.trustees.length ∧
        decryptVote E cts e.trusteesThreshold e.trustees (pks.map (·.tx)) (ps.map (·.tx)) = .ok t.decryptedVote := by
  have hp : ∀ (e : ElectionTx) (ts : List UInt8) (ps : List (Signed PartialDecryptionTx)),
      Res.mapM' (fun i => (Res.ofOption (e.getTrustee i) (ValErr.trusteeDoesNotExist i)).bind fun trustee =>
        S.getPartialDecryption (PartialDecryptionTx.buildId t.electionId t.upstreamId t.contestIndex t.upstreamIndex trustee.index)) ts = .ok ps ↔
      ps.length = ts.length ∧ ∀ (n : Nat) i p, ts[n]? = some i → ps[n]? = some p → (∃ tr ∈ e.trustees, tr.index = i) ∧
          S.getTransaction (PartialDecryptionTx.buildId t.electionId t.upstreamId t.contestIndex t.upstreamIndex i) = some (.partialDecryption p) := by
    intro e ts
    induction ts with
    | nil => intro ps; cases ps <;> simp [Res.mapM']
    | cons i ts ih =>
      intro ps
      simp only [Res.mapM', Res.bind_eq_ok, Res.ofOption_eq_ok, Store.getPartialDecryption_ok]
      constructor
      · rintro ⟨p, ⟨tr, htr, hg⟩, ps', hps, h⟩
        cases h
        obtain ⟨h1, h2⟩ := (ih ps').1 hps
        obtain ⟨h3, h4⟩ := getTrustee_index htr
        refine ⟨by simp [h1], ?_⟩
        intro n j q hn hq
        cases n with
        | zero =>
          simp only [List.getElem?_cons_zero, Option.some.injEq] at hn hq
          subst hn hq
          exact ⟨⟨tr, h3, h4⟩, by rw [h4] at hg; exact hg⟩
        | succ n => exact h2 n j q (by simpa using hn) (by simpa using hq)
      · rintro ⟨h1, h2⟩
        cases ps with
        | nil => simp at h1
        | cons p ps =>
          obtain ⟨htr, hg⟩ := h2 0 i p rfl rfl
          obtain ⟨tr, htr⟩ := getTrustee_isSome.2 htr
          refine ⟨p, ⟨tr, htr, by rw [(getTrustee_index htr).2]; exact hg⟩, ps, (ih ps).2 ⟨by simpa using h1, ?_⟩, rfl⟩
          intro n j q hn hq
          exact h2 (n + 1) j q (by simpa using hn) (by simpa using hq)
  simp only [validateTx, Res.bind_def, Res.bind_eq_ok, Res.exists_unit, Res.failIf_eq_ok, Store.getElection_ok, bne_eq_false_iff_eq,
    decide_eq_false_iff_not, Nat.not_lt, hp, mapM'_into (fun t s => SignedTx.intoKeyGenPublicKey_ok (t := t) (s := s))]
  constructor
  · rintro ⟨h0, ⟨e, sig⟩, he, cts, hc, raw, hraw, pks, rfl, ps, ⟨hl, hps⟩, hth, dec, hdec, rfl⟩
    exact ⟨h0.symm, e, ⟨sig, he⟩, cts, hc, pks, hraw, ps, hl, hps, by rw [← hl]; exact hth, hdec⟩
  · rintro ⟨h0, e, ⟨sig, he⟩, cts, hc, pks, hraw, ps, hl, hps, hth, hdec⟩
    exact ⟨h0.symm, ⟨e, sig⟩, he, cts, hc, _, hraw, pks, rfl, ps, ⟨hl, hps⟩, by show e.trusteesThreshold.toNat ≤ _; omega, _, hdec, rfl⟩

/-- What `decrypt_vote` returns: one selection per ciphertext. -/
theorem decryptVoteFrom_ok {E : Env} {k : UInt8} {trs : List Trustee} {pks : List KeyGenPublicKeyTx} {ps : List PartialDecryptionTx} {n : Nat}
    {cts : List Ciphertext} {out : List Selection} :
    decryptVoteFrom E k trs pks ps n cts = .ok out ↔ out.length = cts.length ∧
      ∀ (j : Nat) c s, cts[j]? = some c → out[j]? = some s → ∃ shares raw, sharesFor trs pks ps (n + j) = .ok shares ∧
        E.thresholdDecrypt k.toNat c shares = .ok raw ∧ Selection.decode raw = some s := by
  induction cts generalizing n out with
  | nil => cases out <;> simp [decryptVoteFrom]
  | cons c cs ih =>
    simp only [decryptVoteFrom, Res.bind_def, Res.bind_eq_ok, Res.ofOption_eq_ok, Res.pure_def]
    constructor
    · rintro ⟨shares, hsh, raw, hraw, s, hs, rest, hrest, h⟩
      cases h
      obtain ⟨h1, h2⟩ := ih.1 hrest
      refine ⟨by simp [h1], ?_⟩
      intro j c' s' hc hs'
      cases j with
      | zero =>
        simp only [List.getElem?_cons_zero, Option.some.injEq] at hc hs'
        subst hc hs'
        refine ⟨shares, raw, hsh, ?_, hs⟩
        split at hraw
        · rename_i b hb; cases hraw; exact hb
        · cases hraw
      | succ j =>
        obtain ⟨sh, r, a, b, c⟩ := h2 j c' s' (by simpa using hc) (by simpa using hs')
        exact ⟨sh, r, by rw [← a]; congr 1; omega, b, c⟩
    · rintro ⟨hl, h⟩
      cases out with
      | nil => simp at hl
      | cons s rest =>
        obtain ⟨sh, r, a, b, d⟩ := h 0 c s rfl rfl
        refine ⟨sh, a, r, by rw [b], s, d, rest, ih.2 ⟨by simpa using hl, ?_⟩, rfl⟩
        intro j c' s' hc hs'
        obtain ⟨sh, r, a, b, c⟩ := h (j + 1) c' s' (by simpa using hc) (by simpa using hs')
        exact ⟨sh, r, by rw [← a]; congr 1; omega, b, c⟩

/-! ## Partial decryptions are keyed by their own item -/

theorem itemAt_type {S : Store} {up : Identifier} {n : UInt16} {c : UInt32} {cfg : Option MixConfig} {cts : List Ciphertext}
    (h : ItemAt S up n c cfg cts) : (up.txType = .vote ∧ n = 0) ∨ up.txType = .mix := by
  cases h with
  | ofVote _ h1 h2 => exact .inl ⟨h1, h2⟩
  | ofMix _ h1 => exact .inr h1

theorem u32be_inj' {a b : UInt32} (h : u32be a = u32be b) : a = b := by
  have key : ∀ {x y : Nat}, UInt8.ofNat x = UInt8.ofNat y → x % 256 = y % 256 := by
    intro x y h
    have := congrArg UInt8.toNat h
    simpa using this
  simp only [u32be, List.cons.injEq, and_true] at h
  obtain ⟨h1, h2, h3, h4⟩ := h
  have h1 := key h1
  have h2 := key h2
  have h3 := key h3
  have h4 := key h4
  have := a.toNat_lt
  have := b.toNat_lt
  apply UInt32.toNat_inj.1
  omega

theorem u16be_inj' {a b : UInt16} (h : u16be a = u16be b) : a = b := by
  have key : ∀ {x y : Nat}, UInt8.ofNat x = UInt8.ofNat y → x % 256 = y % 256 := by
    intro x y h
    have := congrArg UInt8.toNat h
    simpa using this
  simp only [u16be, List.cons.injEq, and_true] at h
  obtain ⟨h1, h2⟩ := h
  have h1 := key h1
  have h2 := key h2
  have := a.toNat_lt
  have := b.toNat_lt
  apply UInt16.toNat_inj.1
  omega

/-- Equal unique infos of items: same contest, item and trustee. -/
theorem buildUniqueInfo_inj {a b : Identifier} {c d : UInt32} {n k : UInt16} {i j : UInt8}
    (ha : (a.txType = .vote ∧ n = 0) ∨ a.txType = .mix) (hb : (b.txType = .vote ∧ k = 0) ∨ b.txType = .mix)
    (h : buildUniqueInfo a c n i = buildUniqueInfo b d k j) : c = d ∧ i = j ∧ SameItem a n b k := by
  have h := congrArg Subtype.val h
  have pa := a.uniqueInfo.property
  have pb := b.uniqueInfo.property
  rcases ha with ⟨ha, rfl⟩ | ha <;> rcases hb with ⟨hb, rfl⟩ | hb <;> simp only [buildUniqueInfo, ha, hb, List.append_assoc] at h
  all_goals obtain ⟨h1, h⟩ := List.append_inj h (by simp [u32be])
  · obtain ⟨_, h⟩ := List.append_inj h (by simp)
    obtain ⟨h2, h⟩ := List.append_inj h (by simp [pa, pb])
    simp only [List.cons.injEq, and_true] at h
    exact ⟨u32be_inj' h1, h, .vote ha hb h2⟩
  · simp only [List.cons_append, List.nil_append, List.cons.injEq] at h
    exact absurd h.1 (by decide)
  · simp only [List.cons_append, List.nil_append, List.cons.injEq] at h
    exact absurd h.1 (by decide)
  · obtain ⟨_, h⟩ := List.append_inj h (by simp)
    obtain ⟨h2, h⟩ := List.append_inj h (by simp [pa, pb])
    obtain ⟨h3, h4⟩ := List.append_inj h (by simp [u16be])
    simp only [List.cons.injEq, and_true] at h4
    cases u16be_inj' h3
    exact ⟨u32be_inj' h1, h4, .mix ha hb h2⟩

theorem buildUniqueInfo_congr {a b : Identifier} {c : UInt32} {n k : UInt16} {i : UInt8} (h : SameItem a n b k) :
    buildUniqueInfo a c n i = buildUniqueInfo b c k i := by
  apply Subtype.ext
  cases h with
  | vote h1 h2 h3 => simp only [buildUniqueInfo, h1, h2, h3]
  | mix h1 h2 h3 => simp only [buildUniqueInfo, h1, h2, h3]

/-- Every stored partial decryption has an id built from its own fields and refers to an item. -/
theorem Spec.Replay.partial_id {E : Env} {m : MemStore} (h : Replay E m) {p : Signed PartialDecryptionTx} {id : Identifier}
    (hp : m.getTransaction id = some (.partialDecryption p)) :
    p.tx.id = id ∧ p.tx.id = PartialDecryptionTx.buildId p.tx.electionId p.tx.upstreamId p.tx.contestIndex p.tx.upstreamIndex p.tx.trusteeIndex ∧
      ((p.tx.upstreamId.txType = .vote ∧ p.tx.upstreamIndex = 0) ∨ p.tx.upstreamId.txType = .mix) := by
  obtain ⟨m0, _, hv⟩ := h.accepted hp
  obtain ⟨e, _, _, hid, _, cts, hc, _⟩ := PartialDecryptionTx.validateTx_ok.1 (SignedTx.validate_ok.1 hv).2.2
  exact ⟨MemStore.get_id h.wf hp, hid, itemAt_type (encryptedVoteFromUpstream_sound hc)⟩

theorem partialFor_iff {E : Env} {m : MemStore} (h : Replay E m) {t : DecryptionTx} {i : UInt8} {p : Signed PartialDecryptionTx}
    (ht : (t.upstreamId.txType = .vote ∧ t.upstreamIndex = 0) ∨ t.upstreamId.txType = .mix) :
    m.getTransaction (PartialDecryptionTx.buildId t.electionId t.upstreamId t.contestIndex t.upstreamIndex i) = some (.partialDecryption p) ↔
      PartialFor m.toStore t i p := by
  constructor
  · intro hp
    obtain ⟨h1, h2, h3⟩ := h.partial_id hp
    rw [h2] at h1
    simp only [PartialDecryptionTx.buildId, Identifier.new, Identifier.mk.injEq, Option.getD_some, true_and] at h1
    obtain ⟨h4, h5⟩ := h1
    obtain ⟨h6, h7, h8⟩ := buildUniqueInfo_inj h3 ht h5
    refine ⟨?_, h4, h6, h7, h8⟩
    show m.getTransaction p.tx.id = _
    rw [MemStore.get_id h.wf hp |> (show p.tx.id = _ from ·)]
    exact hp
  · rintro ⟨h1, h2, h3, h4, h5⟩
    have hp : m.getTransaction p.tx.id = some (.partialDecryption p) := h1
    obtain ⟨_, hid, _⟩ := h.partial_id hp
    have : PartialDecryptionTx.buildId t.electionId t.upstreamId t.contestIndex t.upstreamIndex i = p.tx.id := by
      rw [hid]
      simp only [PartialDecryptionTx.buildId, Identifier.new, Option.getD_some, h3, h4, h2,
        buildUniqueInfo_congr h5]
    rw [this]
    exact hp

theorem pairwise_after {α : Type} {R : α → α → Prop} {pre post : List α} {a x : α} (h : (pre ++ a :: post).Pairwise R) (hx : x ∈ pre) : R x a := by
  rw [List.pairwise_append] at h
  exact h.2.2 x hx a (by simp)

/-- Last one by index in a type scan = the one with the greatest id. -/
theorem pubkeyFor_iff {S : Store} (hS : Lawful S) {el : Identifier} {pks : List (Signed KeyGenPublicKeyTx)} {i : UInt8}
    (hl : S.getMultiple el .keyGenPublicKey = .ok (pks.map .keyGenPublicKey))
    (htyped : ∀ p : Signed KeyGenPublicKeyTx, InStore S (.keyGenPublicKey p) → p.tx.id.txType = .keyGenPublicKey) :
    (∀ pk, lastByIndex (·.trusteeIndex) i (pks.map (·.tx)) = some pk → ∃ p, PubkeyFor S el i p ∧ p.tx = pk) ∧
    (lastByIndex (·.trusteeIndex) i (pks.map (·.tx)) = none → ∀ p, ¬ PubkeyFor S el i p) := by
  obtain ⟨l, h1, h2, h3⟩ := hS.getMultiple el .keyGenPublicKey
  rw [hl] at h1
  cases h1
  constructor
  · intro pk hpk
    obtain ⟨hi, pre, post, hsplit, hpost⟩ := lastByIndex_some hpk
    obtain ⟨pre', rest, rfl, rfl, hr⟩ := List.map_eq_append_iff.1 hsplit
    obtain ⟨p, post', rfl, rfl, rfl⟩ := List.map_eq_cons_iff.1 hr
    have hmem : ∀ q : Signed KeyGenPublicKeyTx, q ∈ pre' ++ p :: post' ↔
        InStore S (.keyGenPublicKey q) ∧ q.tx.id.electionId = el.electionId ∧ q.tx.id.txType = .keyGenPublicKey := by
      intro q
      refine Iff.trans ?_ (h2 (.keyGenPublicKey q))
      simp
    obtain ⟨a, b, c⟩ := (hmem p).1 (by simp)
    refine ⟨p, ⟨a, b, hi, ?_⟩, rfl⟩
    intro q hq1 hq2 hq3 hq4
    rcases List.mem_append.1 ((hmem q).2 ⟨hq1, hq2, hq3⟩) with h | h
    · rw [List.pairwise_map] at h3
      exact .inl (pairwise_after (R := fun a b => IdLt (.keyGenPublicKey a) (.keyGenPublicKey b)) h3 h)
    · rcases List.mem_cons.1 h with rfl | h
      · exact .inr rfl
      · exact absurd hq4 (hpost _ (List.mem_map.2 ⟨q, h, rfl⟩))
  · intro hnone p hp
    rw [lastByIndex_none] at hnone
    have : SignedTx.keyGenPublicKey p ∈ pks.map SignedTx.keyGenPublicKey := (h2 _).2 ⟨hp.stored, hp.election, htyped p hp.stored⟩
    obtain ⟨q, hq, heq⟩ := List.mem_map.1 this
    cases heq
    exact hnone p.tx (List.mem_map.2 ⟨p, hq, rfl⟩) hp.trustee

theorem PubkeyFor_unique {S : Store} {el : Identifier} {i : UInt8} {p q : Signed KeyGenPublicKeyTx} 
    (htyped : ∀ p : Signed KeyGenPublicKeyTx, InStore S (.keyGenPublicKey p) → p.tx.id.txType = .keyGenPublicKey)
    (hp : PubkeyFor S el i p) (hq : PubkeyFor S el i q) : p = q := by
  have h : p.tx.id = q.tx.id := idLe_antisymm (hq.last p hp.stored hp.election (htyped p hp.stored) hp.trustee)
    (hp.last q hq.stored hq.election (htyped q hq.stored) hq.trustee)
  have h1 : S.getTransaction p.tx.id = some (.keyGenPublicKey p) := hp.stored
  have h2 : S.getTransaction q.tx.id = some (.keyGenPublicKey q) := hq.stored
  rw [h, h2] at h1
  cases h1
  rfl

theorem PartialFor_unique {E : Env} {m : MemStore} (h : Replay E m) {t : DecryptionTx} {i : UInt8} {p q : Signed PartialDecryptionTx}
    (ht : (t.upstreamId.txType = .vote ∧ t.upstreamIndex = 0) ∨ t.upstreamId.txType = .mix)
    (hp : PartialFor m.toStore t i p) (hq : PartialFor m.toStore t i q) : p = q := by
  have h1 := (partialFor_iff h ht).2 hp
  have h2 := (partialFor_iff h ht).2 hq
  rw [h1] at h2
  cases h2
  rfl

/-- The shares the code collects are the ones of the specification. -/
theorem sharesFor_ok {E : Env} {m : MemStore} (hm : Replay E m) {t : DecryptionTx} {pks : List (Signed KeyGenPublicKeyTx)}
    {ps : List (Signed PartialDecryptionTx)} {j : Nat} {trs : List Trustee} {shares : List (Nat × PubkeyProof × DecryptShare)}
    (ht : (t.upstreamId.txType = .vote ∧ t.upstreamIndex = 0) ∨ t.upstreamId.txType = .mix)
    (hl : m.toStore.getMultiple t.electionId .keyGenPublicKey = .ok (pks.map .keyGenPublicKey))
    (hps : ∀ i, (∃ p ∈ ps, p.tx.trusteeIndex = i) ↔ i ∈ t.trustees) (hpf : ∀ p ∈ ps, PartialFor m.toStore t p.tx.trusteeIndex p) :
    sharesFor trs (pks.map (·.tx)) (ps.map (·.tx)) j = .ok shares ↔ Shares m.toStore t j trs shares := by
  have htyped : ∀ p : Signed KeyGenPublicKeyTx, InStore m.toStore (.keyGenPublicKey p) → p.tx.id.txType = .keyGenPublicKey :=
    fun p hp => hm.typed hp
  have hpart : ∀ i p, lastByIndex (·.trusteeIndex) i (ps.map (·.tx)) = some p → i ∈ t.trustees ∧ ∃ q, PartialFor m.toStore t i q ∧ q.tx = p := by
    intro i p h
    obtain ⟨h1, h2⟩ := lastByIndex_mem h
    obtain ⟨q, hq, rfl⟩ := List.mem_map.1 h1
    exact ⟨(hps i).1 ⟨q, hq, h2⟩, q, by rw [← h2]; exact hpf q hq, rfl⟩
  have hpart0 : ∀ i, lastByIndex (·.trusteeIndex) i (ps.map (·.tx)) = none → i ∉ t.trustees := by
    intro i h hi
    rw [lastByIndex_none] at h
    obtain ⟨p, hp, hpi⟩ := (hps i).2 hi
    exact h p.tx (List.mem_map.2 ⟨p, hp, rfl⟩) hpi
  unfold sharesFor
  induction trs generalizing shares with
  | nil =>
    simp only [Res.flatMapM, Res.ok.injEq]
    constructor
    · rintro rfl; exact .nil
    · intro h; cases h; rfl
  | cons tr trs ih =>
    simp only [Res.flatMapM, Res.bind_eq_ok]
    obtain ⟨hk1, hk2⟩ := pubkeyFor_iff hm.lawful (i := tr.index) hl htyped
    constructor
    · rintro ⟨x, hx, ys, hys, h⟩
      cases h
      have hrest := ih.1 hys
      split at hx
      · rename_i p pk hp hpk
        simp only [Res.bind_def, Res.bind_eq_ok, Res.unwrap_eq_ok, Res.pure_def, Res.ok.injEq] at hx
        obtain ⟨s, hs, rfl⟩ := hx
        obtain ⟨hi, q, hq, rfl⟩ := hpart _ _ hp
        obtain ⟨k, hk, rfl⟩ := hk1 _ hpk
        exact .used hi hq hk hs hrest
      · rename_i hno
        simp only [Res.pure_def, Res.ok.injEq] at hx
        subst hx
        refine .skipped ?_ hrest
        cases hp : lastByIndex (·.trusteeIndex) tr.index (ps.map (·.tx)) with
        | none => exact .inl (hpart0 _ hp)
        | some p =>
          cases hpk : lastByIndex (·.trusteeIndex) tr.index (pks.map (·.tx)) with
          | none => exact .inr (hk2 hpk)
          | some pk => exact absurd hpk (hno p pk hp)
    · intro h
      cases h with
      | @used _ _ l p pk s hi hp hpk hs hrest =>
        refine ⟨[(tr.index.toNat, pk.tx.publicKeyProof, s)], ?_, l, ih.2 hrest, rfl⟩
        cases hp' : lastByIndex (·.trusteeIndex) tr.index (ps.map (·.tx)) with
        | none => exact absurd hi (hpart0 _ hp')
        | some p' =>
          cases hpk' : lastByIndex (·.trusteeIndex) tr.index (pks.map (·.tx)) with
          | none => exact absurd hpk (hk2 hpk' pk)
          | some pk' =>
            obtain ⟨_, q, hq, rfl⟩ := hpart _ _ hp'
            obtain ⟨k, hk, rfl⟩ := hk1 _ hpk'
            cases PartialFor_unique hm ht hp hq
            cases PubkeyFor_unique htyped hpk hk
            simp [hs]
      | skipped hno hrest =>
        refine ⟨[], ?_, shares, ih.2 hrest, rfl⟩
        split
        · rename_i p pk hp hpk
          exfalso
          rcases hno with hno | hno
          · exact hno (hpart _ _ hp).1
          · obtain ⟨k, hk, _⟩ := hk1 _ hpk
            exact hno k hk
        · rfl

end CB
