import Verif.Props.Mixing
import Verif.Props.Ids
import Verif.Lemmas.AcceptDec
/-!
# C27–C32: partial decryptions and decryptions
-/

namespace CB
open Spec

/-- **C27** A partial decryption is accepted only if the voting-end slot of its election is filled; its id belongs to its election, has type 9, and is the id built from
its own election, upstream id, contest, position and trustee. -/
theorem C27_partial_only_after_end (E : Env) (S : Store) (t : PartialDecryptionTx) (sig : Signature)
    (h : (SignedTx.partialDecryption ⟨t, sig⟩).validate E S = .ok ()) :
    SlotFilled S t.electionId .votingEnd ∧ t.id.electionId = t.electionId.electionId ∧ t.id.txType = .partialDecryption ∧
    t.id = PartialDecryptionTx.buildId t.electionId t.upstreamId t.contestIndex t.upstreamIndex t.trusteeIndex := by
  obtain ⟨h1, _, h3⟩ := SignedTx.validate_ok.1 h
  obtain ⟨e, _, _, hid, hend, _⟩ := PartialDecryptionTx.validateTx_ok.1 h3
  exact ⟨hend, by rw [hid]; rfl, h1, hid⟩

/-- accepted after the end, refused before -/
example : (Toy.partialTx 0 "a" 1 11).validate Toy.env (MemStore.ofList (Toy.complete.take 13)).toStore = .ok () ∧
    (Toy.partialTx 0 "a" 1 11).validate Toy.env (MemStore.ofList ((Toy.complete.take 13).filter fun t => t.transactionType != .votingEnd)).toStore
      = .err .missingVotingEndTransaction := by decide +kernel

/-- **C28** An accepted partial decryption names an item of its contest (`ItemAt`: without mixnet the first encrypted vote for the contest in a stored vote, at
position 0; with mixnet an in-range position of a stored mix of the contest) and has exactly one share per ciphertext of it, each verifying against that
ciphertext and the public-key proof the trustee has stored; it is signed by a trustee of the election. -/
theorem C28_partial_is_proven (E : Env) (S : Store) (t : PartialDecryptionTx) (sig : Signature)
    (h : (SignedTx.partialDecryption ⟨t, sig⟩).validate E S = .ok ()) :
    ∃ e cts, ElectionAt S t.electionId e ∧ ItemAt S t.upstreamId t.upstreamIndex t.contestIndex e.mixConfig cts ∧
      IsTrustee e t.trusteeIndex t.trusteePublicKey ∧ E.edVerify t.trusteePublicKey t.toCbor.encode sig = true ∧
      t.partialDecryption.length = cts.length ∧
      ∃ pk psig, S.getTransaction (stepId t.electionId (.publicKey t.trusteeIndex)) = some (.keyGenPublicKey ⟨pk, psig⟩) ∧
        pk.trusteeIndex = t.trusteeIndex ∧ pk.trusteePublicKey = t.trusteePublicKey ∧
        ∀ (i : Nat) (s : DecryptShare) (c : Ciphertext), t.partialDecryption[i]? = some s → cts[i]? = some c →
          E.shareVerify s pk.publicKeyProof c = true := by
  obtain ⟨_, h2, h3⟩ := SignedTx.validate_ok.1 h
  obtain ⟨e, he, htr, _, _, cts, hc, pk, psig, hpk, hpi, hpp, hl, hsh⟩ := PartialDecryptionTx.validateTx_ok.1 h3
  exact ⟨e, cts, he, encryptedVoteFromUpstream_sound hc, htr, h2 _ rfl, hl.symm, pk, psig, hpk, hpi, hpp, hsh⟩

/-- a share that does not verify, and one share too many, are refused -/
example : (Toy.partialTx 0 "a" 1 11).validate Toy.env (MemStore.ofList (Toy.complete.take 13)).toStore = .ok () ∧
    (Toy.partialTx 0 "b" 1 11).validate Toy.env (MemStore.ofList (Toy.complete.take 13)).toStore = .err .partialDecryptionProofFailed ∧
    (Toy.partialTx 2 "a" 1 11).validate Toy.env (MemStore.ofList (Toy.complete.take 13)).toStore = .err .invalidUpstreamIndex := by
  decide +kernel

/-! ## C30 -/

/-- **C30 (partial)** An accepted decryption has an id built from its own fields; it names only trustees of the election, each with a stored partial decryption for
this election, contest and item, at least `trustees_threshold` entries; and there is exactly one selection per ciphertext of the item it names, each
being the decoding of what threshold decryption of that ciphertext with the stored shares (`Shares`) returns.  If the item is in a mix and the partial
decryption's upstream mix belongs to the same election, it is the very same mix and position.
Missing: "partial decryptions of *this* item" when votes share 10 key bytes or the upstream belongs to another election
(`C30_decryption_of_own_item_false`). -/
theorem C30_decryption_is_threshold_decryption_partial (E : Env) (m : MemStore) (hm : Replay E m) (t : DecryptionTx) (sig : Signature)
    (h : (SignedTx.decryption ⟨t, sig⟩).validate E m.toStore = .ok ()) :
    t.id = DecryptionTx.buildId t.electionId t.upstreamId t.contestIndex t.upstreamIndex ∧
    ∃ e cts, ElectionAt m.toStore t.electionId e ∧ ItemAt m.toStore t.upstreamId t.upstreamIndex t.contestIndex e.mixConfig cts ∧
      (∀ i ∈ t.trustees, (∃ tr ∈ e.trustees, tr.index = i) ∧ ∃ p, PartialFor m.toStore t i p ∧
        (t.upstreamId.txType = .mix → p.tx.upstreamId.electionId = t.upstreamId.electionId →
          p.tx.upstreamId = t.upstreamId ∧ p.tx.upstreamIndex = t.upstreamIndex)) ∧
      e.trusteesThreshold.toNat ≤ t.trustees.length ∧
      t.decryptedVote.length = cts.length ∧
      ∀ (j : Nat) (c : Ciphertext) (s : Selection), cts[j]? = some c → t.decryptedVote[j]? = some s →
        ∃ shares raw, Shares m.toStore t j e.trustees shares ∧ E.thresholdDecrypt e.trusteesThreshold.toNat c shares = .ok raw ∧
          Selection.decode raw = some s := by
  have h3 := (SignedTx.validate_ok.1 h).2.2
  obtain ⟨hid, e, he, cts, hc, pks, hpks, ps, hl, hps, hth, hdec⟩ := DecryptionTx.validateTx_ok.1 h3
  simp only at hid he hc hpks hl hps hth hdec
  have hitem := encryptedVoteFromUpstream_sound hc
  have hty := itemAt_type hitem
  have hpart : ∀ (n : Nat) i p, t.trustees[n]? = some i → ps[n]? = some p → PartialFor m.toStore t i p :=
    fun n i p h1 h2 => (partialFor_iff hm hty).1 (hps n i p h1 h2).2
  obtain ⟨hlen, hsel⟩ := decryptVoteFrom_ok.1 hdec
  have hidx : ∀ n < ps.length, ∃ i p, t.trustees[n]? = some i ∧ ps[n]? = some p := fun n hn =>
    ⟨t.trustees[n]'(by omega), ps[n], List.getElem?_eq_getElem _, List.getElem?_eq_getElem _⟩
  refine ⟨hid, e, cts, he, hitem, ?_, hth, hlen, ?_⟩
  · intro i hi
    obtain ⟨n, hn, hni⟩ := List.mem_iff_getElem.1 hi
    obtain ⟨i', p, h1, h2⟩ := hidx n (by omega)
    rw [List.getElem?_eq_getElem hn, hni] at h1
    cases h1
    have h1 : t.trustees[n]? = some i := by rw [List.getElem?_eq_getElem hn, hni]
    have hpf := hpart n i p h1 h2
    refine ⟨(hps n i p h1 h2).1, p, hpf, ?_⟩
    intro hmix helec
    have hcon := hpf.contest
    have hit := hpf.item
    -- both mixes are stored, so their ids are built from contest, batch, mix index and trustee
    have hpst : m.getTransaction p.tx.id = some (.partialDecryption p) := hpf.stored
    obtain ⟨m0, hm0, hv0⟩ := hm.accepted hpst
    obtain ⟨e0, _, _, _, _, cts0, hc0, _⟩ := PartialDecryptionTx.validateTx_ok.1 (SignedTx.validate_ok.1 hv0).2.2
    have hmixid : ∀ {m1 : MemStore} {up n c cfg cts}, Replay E m1 → ItemAt m1.toStore up n c cfg cts → up.txType = .mix →
        ∃ el b mi ti, up = MixTx.buildId el c b mi ti := by
      intro m1 up n c cfg cts hm1 hi hmx
      cases hi with
      | ofVote _ hv => rw [hv] at hmx; cases hmx
      | @ofMix mt msig _ _ hg _ hcc _ =>
        obtain ⟨m2, hm2, hv2⟩ := hm1.accepted hg
        have := ((MixTx.validateTx_ok hm2.lawful).1 (SignedTx.validate_ok.1 hv2).2.2).1
        have hk : mt.id = up := MemStore.get_id hm1.wf hg
        rw [← hk, this, hcc]
        exact ⟨_, _, _, _, rfl⟩
    have key : ∀ {a b : Identifier} {x y}, SameItem a x b y → b.txType = .mix →
        a.txType = .mix ∧ (a.uniqueInfo.val.drop 4).take 8 = (b.uniqueInfo.val.drop 4).take 8 ∧ x = y := by
      intro a b x y hs hb
      cases hs with
      | vote _ h => rw [h] at hb; cases hb
      | mix ha _ h => exact ⟨ha, h, rfl⟩
    obtain ⟨ha, hbytes, hxy⟩ := key hit hmix
    obtain ⟨el, b, mi, ti, hu⟩ := hmixid hm0 (encryptedVoteFromUpstream_sound hc0) ha
    obtain ⟨el', b', mi', ti', hu'⟩ := hmixid hm hitem hmix
    refine ⟨?_, hxy⟩
    have e1 : el.electionId = el'.electionId := by
      rw [hu, hu'] at helec; exact helec
    rw [hu, hu'] at hbytes
    simp only [MixTx.buildId, Identifier.new, Option.getD_some, mixUnique_mid] at hbytes
    obtain ⟨q1, q2⟩ := List.append_inj hbytes (by simp [u32be])
    simp only [List.cons.injEq, and_true] at q2
    rw [hu, hu', hcon, u32be_inj q1, q2.1, q2.2]
    simp only [MixTx.buildId, Identifier.new, e1]
  · intro j c s hcj hsj
    obtain ⟨shares, raw, hsh, hraw, hd⟩ := hsel j c s hcj hsj
    refine ⟨shares, raw, ?_, hraw, hd⟩
    rw [Nat.zero_add] at hsh
    refine (sharesFor_ok hm hty hpks ?_ ?_).1 hsh
    · intro i
      constructor
      · rintro ⟨p, hp, hpi⟩
        obtain ⟨n, hn, hnp⟩ := List.mem_iff_getElem.1 hp
        obtain ⟨i', p', h1, h2⟩ := hidx n hn
        rw [List.getElem?_eq_getElem hn, hnp] at h2
        cases h2
        have := (hpart n i' p h1 (by rw [List.getElem?_eq_getElem hn, hnp])).trustee
        rw [← hpi, this]
        exact List.mem_of_getElem? h1
      · intro hi
        obtain ⟨n, hn, hni⟩ := List.mem_iff_getElem.1 hi
        obtain ⟨i', p, h1, h2⟩ := hidx n (by omega)
        rw [List.getElem?_eq_getElem hn, hni] at h1
        cases h1
        exact ⟨p, List.mem_of_getElem? h2, (hpart n i p (by rw [List.getElem?_eq_getElem hn, hni]) h2).trustee⟩
    · intro p hp
      obtain ⟨n, hn, hnp⟩ := List.mem_iff_getElem.1 hp
      obtain ⟨i', p', h1, h2⟩ := hidx n hn
      have hh := hpart n i' p' h1 h2
      rw [List.getElem?_eq_getElem hn, hnp] at h2
      cases h2
      rw [hh.trustee]
      exact hh

example : Replay Toy.env (MemStore.ofList (Toy.complete.take 17)) ∧
    (Toy.decTx 0 "a").validate Toy.env (MemStore.ofList (Toy.complete.take 17)).toStore = .ok () ∧
    (Toy.decTx 0 "b").validate Toy.env (MemStore.ofList (Toy.complete.take 17)).toStore = .err .voteDecryptionMismatch :=
  ⟨replay_of_run (by decide +kernel), by decide +kernel, by decide +kernel⟩

/-! ### votes that share ten key bytes, no mixnet -/

/-- the partial decryption by trustee `i` of the vote of key `k` -/
def votePartial (k : PublicKey) (name : String) (i b : UInt8) : SignedTx :=
  .partialDecryption ⟨PartialDecryptionTx.new Toy.eid (VoteTx.buildId Toy.eid k) 0 i 0 (Toy.key b) [⟨(Toy.ct name).raw⟩], Toy.sig b⟩

/-- a ledger without mixnet: two votes sharing ten key bytes; only the first is partially decrypted -/
def collidingLedger : List SignedTx :=
  Toy.setup none ++ [voteBy colliding1 "a", voteBy colliding2 "b", Toy.endTx, votePartial colliding1 "a" 1 11, votePartial colliding1 "a" 2 12]

/-- **C30**: the reading "partial decryptions of this very item" is false: a decryption of a vote is accepted although only partial decryptions of another vote, which shares
ten key bytes, are stored (if the threshold scheme does not itself reject shares of another ciphertext, as here). -/
theorem C30_decryption_of_own_item_false :
    ¬ ∀ (E : Env) (m : MemStore), Ledger E m → ∀ (t : DecryptionTx) (sig : Signature), (SignedTx.decryption ⟨t, sig⟩).validate E m.toStore = .ok () →
      ∀ i ∈ t.trustees, ∃ p, PartialFor m.toStore t i p ∧ p.tx.upstreamId = t.upstreamId := by
  intro h
  have hl : Ledger Toy.env (MemStore.ofList collidingLedger) := ledger_of_run (by decide +kernel)
  let t : DecryptionTx := ⟨DecryptionTx.buildId Toy.eid (VoteTx.buildId Toy.eid colliding2) 0 0, Toy.eid, VoteTx.buildId Toy.eid colliding2, 0, 0, [1, 2],
    [Toy.sel "b"]⟩
  obtain ⟨p, hp, hu⟩ := h _ _ hl t (Toy.sig 0) (by decide +kernel) 1 (by decide)
  have hst := (partialFor_iff hl.replay (t := t) (.inl ⟨rfl, rfl⟩)).2 hp
  have hg : ((MemStore.ofList collidingLedger).getTransaction (PartialDecryptionTx.buildId t.electionId t.upstreamId t.contestIndex t.upstreamIndex 1)).map
      (fun | .partialDecryption p => p.tx.upstreamId | _ => Toy.eid) = some (VoteTx.buildId Toy.eid colliding1) := by decide +kernel
  rw [hst] at hg
  simp only [Option.map_some, Option.some.injEq] at hg
  rw [hg] at hu
  exact absurd hu (by decide +kernel)

/-! ## C31 -/

/-- Threshold decryption fails with fewer than `threshold` different indexes. -/
def Spec.NeedsQuorum (E : Env) : Prop :=
  ∀ k c shares raw, E.thresholdDecrypt k c shares = .ok raw → ∃ is : List Nat, is.Nodup ∧ k ≤ is.length ∧ ∀ i ∈ is, i ∈ shares.map (·.1)

theorem nodup_eraseDups {α : Type} [DecidableEq α] : (l : List α) → l.eraseDups.Nodup
  | [] => by simp
  | a :: l => by
    rw [List.eraseDups_cons, List.nodup_cons]
    exact ⟨by simp, nodup_eraseDups _⟩
  termination_by l => l.length
  decreasing_by simp; exact Nat.lt_succ_of_le (List.length_filter_le _ _)

theorem toy_needsQuorum (b : Bool) : NeedsQuorum (Toy.env b) := by
  intro k c shares raw h
  simp only [Toy.env] at h
  split at h
  · rename_i hk
    exact ⟨_, nodup_eraseDups _, hk, fun i hi => by simpa using hi⟩
  · cases h

theorem shares_index {S : Store} {t : DecryptionTx} {j : Nat} {trs : List Trustee} {l : List (Nat × PubkeyProof × DecryptShare)}
    (h : Shares S t j trs l) : ∀ n ∈ l.map (·.1), ∃ i ∈ t.trustees, i.toNat = n ∧ ∃ p, PartialFor S t i p := by
  induction h with
  | nil => simp
  | used hi hp _ _ _ ih =>
    intro n hn
    rw [List.map_cons, List.mem_cons] at hn
    rcases hn with rfl | hn
    · exact ⟨_, hi, rfl, _, hp⟩
    · exact ih n hn
  | skipped _ _ ih => exact ih

/-- **C31 (partial)** If threshold decryption itself needs `threshold` different indexes, then behind every accepted decryption of an item with at least one
ciphertext there are `trustees_threshold` pairwise distinct trustees, all named by it, with stored partial decryptions; with a threshold of at least 1
the voting-end slot is filled.  Missing: items without ciphertexts (`C31_distinct_quorum_false`), and thresholds of 0, which validation allows. -/
theorem C31_distinct_quorum_partial (E : Env) (hq : NeedsQuorum E) (m : MemStore) (hm : Ledger E m) (t : DecryptionTx) (sig : Signature)
    (h : (SignedTx.decryption ⟨t, sig⟩).validate E m.toStore = .ok ()) (hne : t.decryptedVote ≠ []) :
    ∃ e, ElectionAt m.toStore t.electionId e ∧
      (∃ is : List UInt8, is.Nodup ∧ e.trusteesThreshold.toNat ≤ is.length ∧
        ∀ i ∈ is, i ∈ t.trustees ∧ (∃ tr ∈ e.trustees, tr.index = i) ∧ ∃ p, PartialFor m.toStore t i p) ∧
      (e.trusteesThreshold ≠ 0 → SlotFilled m.toStore t.electionId .votingEnd) := by
  obtain ⟨_, e, cts, he, hitem, hall, hth, hlen, hsel⟩ := C30_decryption_is_threshold_decryption_partial E m hm.replay t sig h
  obtain ⟨s, rest, hs⟩ := List.exists_cons_of_ne_nil hne
  have hc : ∃ c, cts[0]? = some c := by
    cases cts with
    | nil => rw [hs] at hlen; simp at hlen
    | cons c _ => exact ⟨c, rfl⟩
  obtain ⟨c, hc⟩ := hc
  obtain ⟨shares, raw, hsh, hraw, _⟩ := hsel 0 c s hc (by rw [hs]; rfl)
  obtain ⟨is, hnd, hk, hmem⟩ := hq _ _ _ _ hraw
  have hidx := shares_index hsh
  have hq : ∃ is : List UInt8, is.Nodup ∧ e.trusteesThreshold.toNat ≤ is.length ∧
        ∀ i ∈ is, i ∈ t.trustees ∧ (∃ tr ∈ e.trustees, tr.index = i) ∧ ∃ p, PartialFor m.toStore t i p := by
    refine ⟨is.map UInt8.ofNat, ?_, by simpa using hk, ?_⟩
    · rw [List.Nodup, List.pairwise_map]
      refine List.Pairwise.imp_of_mem ?_ hnd
      intro a b ha hb hab heq
      obtain ⟨i, _, hi, _⟩ := hidx a (hmem a ha)
      obtain ⟨j, _, hj, _⟩ := hidx b (hmem b hb)
      apply hab
      rw [← hi, ← hj] at heq ⊢
      simp only [UInt8.ofNat_toNat] at heq
      rw [heq]
    · intro i hi
      obtain ⟨n, hn, rfl⟩ := List.mem_map.1 hi
      obtain ⟨i, hit, rfl, p, hp⟩ := hidx n (hmem n hn)
      rw [UInt8.ofNat_toNat]
      exact ⟨hit, (hall i hit).1, p, hp⟩
  refine ⟨e, he, hq, ?_⟩
  intro hpos
  obtain ⟨is, _, hk, hmem⟩ := hq
  cases is with
  | nil =>
    exfalso
    apply hpos
    apply UInt8.toNat_inj.1
    simpa using hk
  | cons i is =>
    obtain ⟨_, _, p, hp⟩ := hmem i (by simp)
    obtain ⟨m0, _, _, hv, hsteps⟩ := hm.accepted (id := p.tx.id) (t := .partialDecryption p) hp.stored
    obtain ⟨⟨x, hx⟩, _⟩ := C27_partial_only_after_end E m0.toStore p.tx p.sig hv
    have hne : m0.getTransaction (SignedTx.partialDecryption p).id = none := by assumption
    have hx' : m.getTransaction (singleId p.tx.electionId .votingEnd) = some x := hsteps.extends _ _ (Extends.set_fresh hne _ _ hx)
    refine ⟨x, ?_⟩
    have : singleId t.electionId .votingEnd = singleId p.tx.electionId .votingEnd := by simp [singleId, hp.election]
    rw [this]
    exact hx'

example : NeedsQuorum Toy.env ∧ Ledger Toy.env (MemStore.ofList (Toy.complete.take 17)) ∧
    (Toy.decTx 0 "a").validate Toy.env (MemStore.ofList (Toy.complete.take 17)).toStore = .ok () :=
  ⟨toy_needsQuorum _, ledger_of_run (by decide +kernel), by decide +kernel⟩

/-- an empty vote (no ciphertexts) of key 31, one trustee's (empty) partial decryption of it -/
def emptyVoteLedger : List SignedTx :=
  Toy.setup none ++ [.vote ⟨Toy.vote (Toy.key 31) [Toy.auth 21 (Toy.key 31)] [⟨0, []⟩], Toy.sig 31⟩, Toy.endTx,
    .partialDecryption ⟨PartialDecryptionTx.new Toy.eid (VoteTx.buildId Toy.eid (Toy.key 31)) 0 1 0 (Toy.key 11) [], Toy.sig 11⟩]

/-- **C31 is false of the code**: the same trustee listed twice counts as two. -/
theorem C31_distinct_quorum_false :
    ¬ ∀ (E : Env), NeedsQuorum E → ∀ (m : MemStore), Ledger E m → ∀ (t : DecryptionTx) (sig : Signature),
      (SignedTx.decryption ⟨t, sig⟩).validate E m.toStore = .ok () → ∃ e, ElectionAt m.toStore t.electionId e ∧
      ∃ is : List UInt8, is.Nodup ∧ e.trusteesThreshold.toNat ≤ is.length ∧ ∀ i ∈ is, i ∈ t.trustees := by
  intro h
  obtain ⟨e, ⟨sg, he⟩, is, hnd, hk, hmem⟩ := h Toy.env (toy_needsQuorum _) (MemStore.ofList emptyVoteLedger) (ledger_of_run (by decide +kernel))
    ⟨DecryptionTx.buildId Toy.eid (VoteTx.buildId Toy.eid (Toy.key 31)) 0 0, Toy.eid, VoteTx.buildId Toy.eid (Toy.key 31), 0, 0, [1, 1], []⟩
    (Toy.sig 0) (by decide +kernel)
  have hget : (MemStore.ofList emptyVoteLedger).toStore.getTransaction Toy.eid = some (Toy.electionTx none) := by rfl
  have : some (SignedTx.election ⟨e, sg⟩) = some (Toy.electionTx none) := by rw [← hget]; exact he.symm
  cases this
  have h2 : 2 ≤ is.length := hk
  match is, h2 with
  | a :: b :: _, _ =>
    have ha := hmem a (by simp)
    have hb := hmem b (by simp)
    simp only [List.mem_cons, List.not_mem_nil, or_false, or_self] at ha hb
    rw [ha, hb] at hnd
    simp at hnd

/-! ## C32 -/

theorem shares_unique {E : Env} {m : MemStore} (hm : Replay E m) {t u : DecryptionTx} {j : Nat} {trs : List Trustee}
    {l k : List (Nat × PubkeyProof × DecryptShare)}
    (ht : (t.upstreamId.txType = .vote ∧ t.upstreamIndex = 0) ∨ t.upstreamId.txType = .mix)
    (he : t.electionId = u.electionId) (hu : t.upstreamId = u.upstreamId) (hi : t.upstreamIndex = u.upstreamIndex)
    (hc : t.contestIndex = u.contestIndex) (hset : ∀ i, i ∈ t.trustees ↔ i ∈ u.trustees)
    (h1 : Shares m.toStore t j trs l) (h2 : Shares m.toStore u j trs k) : l = k := by
  have hpf : ∀ i p, PartialFor m.toStore t i p ↔ PartialFor m.toStore u i p := by
    intro i p
    constructor
    · rintro ⟨a, b, c, d, e⟩; exact ⟨a, by rw [← he]; exact b, by rw [← hc]; exact c, d, by rw [← hu, ← hi]; exact e⟩
    · rintro ⟨a, b, c, d, e⟩; exact ⟨a, by rw [he]; exact b, by rw [hc]; exact c, d, by rw [hu, hi]; exact e⟩
  have htyped : ∀ p : Signed KeyGenPublicKeyTx, InStore m.toStore (.keyGenPublicKey p) → p.tx.id.txType = .keyGenPublicKey :=
    fun p hp => hm.typed hp
  induction h1 generalizing k with
  | nil => cases h2; rfl
  | used a1 a2 a3 a4 _ ih =>
    cases h2 with
    | used b1 b2 b3 b4 hr =>
      cases PartialFor_unique hm ht a2 ((hpf _ _).2 b2)
      rw [← he] at b3
      cases PubkeyFor_unique htyped a3 b3
      rw [a4] at b4
      cases b4
      rw [ih hr]
    | skipped hno hr =>
      rcases hno with hno | hno
      · exact absurd ((hset _).1 a1) hno
      · rw [he] at a3; exact absurd a3 (hno _)
  | skipped hno _ ih =>
    cases h2 with
    | used b1 b2 b3 b4 hr =>
      rcases hno with hno | hno
      · exact absurd ((hset _).2 b1) hno
      · rw [← he] at b3; exact absurd b3 (hno _)
    | skipped _ hr => exact ih hr

theorem itemAt_unique {S : Store} {up : Identifier} {n : UInt16} {c : UInt32} {cfg : Option MixConfig} {x y : List Ciphertext}
    (hx : ItemAt S up n c cfg x) (hy : ItemAt S up n c cfg y) : x = y := by
  cases hx with
  | @ofVote v s b a _ g1 _ _ l1 n1 =>
    cases hy with
    | @ofVote v' s' b' a' _ g2 _ _ l2 n2 =>
      rw [g1] at g2
      cases g2
      have f1 := find_first.2 ⟨b, a, l1, rfl, n1⟩
      have f2 := find_first.2 ⟨b', a', l2, rfl, n2⟩
      rw [f1] at f2
      cases f2
      rfl
  | ofMix g1 _ _ l1 =>
    cases hy with
    | ofMix g2 _ _ l2 =>
      rw [g1] at g2
      cases g2
      rw [l1] at l2
      cases l2
      rfl

/-- **C32** Two decryptions accepted against the same store for the same election, item and set of trustees (in any order, with any repetitions) have the same
selections. -/
theorem C32_decryption_unique (E : Env) (m : MemStore) (hm : Replay E m) (t u : DecryptionTx) (s1 s2 : Signature)
    (ht : (SignedTx.decryption ⟨t, s1⟩).validate E m.toStore = .ok ()) (hu : (SignedTx.decryption ⟨u, s2⟩).validate E m.toStore = .ok ())
    (he : t.electionId = u.electionId) (hup : t.upstreamId = u.upstreamId) (hi : t.upstreamIndex = u.upstreamIndex)
    (hc : t.contestIndex = u.contestIndex) (hset : ∀ i, i ∈ t.trustees ↔ i ∈ u.trustees) : t.decryptedVote = u.decryptedVote := by
  obtain ⟨_, e, cts, ⟨sg, hel⟩, hitem, _, _, hlen, hsel⟩ := C30_decryption_is_threshold_decryption_partial E m hm t s1 ht
  obtain ⟨_, e', cts', ⟨sg', hel'⟩, hitem', _, _, hlen', hsel'⟩ := C30_decryption_is_threshold_decryption_partial E m hm u s2 hu
  rw [← he, hel] at hel'
  cases hel'
  rw [← hup, ← hi, ← hc] at hitem'
  cases itemAt_unique hitem hitem'
  apply List.ext_getElem?
  intro j
  by_cases hj : j < cts.length
  · obtain ⟨x, r, a1, a2, a3⟩ := hsel j _ (t.decryptedVote[j]'(by omega)) (List.getElem?_eq_getElem hj) (List.getElem?_eq_getElem _)
    obtain ⟨x', r', b1, b2, b3⟩ := hsel' j _ (u.decryptedVote[j]'(by omega)) (List.getElem?_eq_getElem hj) (List.getElem?_eq_getElem _)
    cases shares_unique hm (itemAt_type hitem) he hup hi hc hset a1 b1
    rw [a2] at b2
    cases b2
    rw [a3] at b3
    rw [List.getElem?_eq_getElem (by omega), List.getElem?_eq_getElem (by omega), b3]
  · rw [List.getElem?_eq_none (by omega), List.getElem?_eq_none (by omega)]

/-- the trustees in the other order, one repeated -/
example : (Toy.decTx 0 "a").validate Toy.env (MemStore.ofList (Toy.complete.take 17)).toStore = .ok () ∧
    (SignedTx.decryption ⟨⟨DecryptionTx.buildId Toy.eid Toy.mix2Tx.id 0 0, Toy.eid, Toy.mix2Tx.id, 0, 0, [2, 1, 2], [Toy.sel "a"]⟩, Toy.sig 0⟩).validate Toy.env
      (MemStore.ofList (Toy.complete.take 17)).toStore = .ok () := by decide +kernel

/-! ## C29 -/

/-- partial decryptions of the first mix, which is not the last -/
def earlyPartial (i k : UInt8) : SignedTx :=
  .partialDecryption ⟨PartialDecryptionTx.new Toy.eid Toy.mix1Tx.id 0 i 0 (Toy.key k) [⟨(Toy.ct "b").raw⟩], Toy.sig k⟩
def earlyLedger : List SignedTx := Toy.complete.take 13 ++ [earlyPartial 1 11, earlyPartial 2 12]

/-- **C29 is false of the code**: outputs of a mix that is not the last one are decrypted. -/
theorem C29_only_fully_mixed_false :
    ¬ ∀ (E : Env) (m : MemStore), Ledger E m → ∀ (t : DecryptionTx) (sig : Signature), (SignedTx.decryption ⟨t, sig⟩).validate E m.toStore = .ok () →
      ∀ e, ElectionAt m.toStore t.electionId e → e.mixConfig ≠ none → ∀ mx msig, m.getTransaction t.upstreamId = some (.mix ⟨mx, msig⟩) →
        mx.mixIndex.toNat + 1 = e.trusteesThreshold.toNat := by
  intro h
  have := h Toy.env (MemStore.ofList earlyLedger) (ledger_of_run (by decide +kernel))
    ⟨DecryptionTx.buildId Toy.eid Toy.mix1Tx.id 0 0, Toy.eid, Toy.mix1Tx.id, 0, 0, [1, 2], [Toy.sel "b"]⟩ (Toy.sig 0) (by decide +kernel)
    (Toy.election) ⟨Toy.sig 1, by rfl⟩ (by simp [Toy.election])
    (MixTx.new Toy.eid none (Toy.trustee 1 11) 0 0 0 Toy.ids [[Toy.ct "b"], [Toy.ct "a"]] ⟨[]⟩) (Toy.sig 11) (by rfl)
  exact absurd this (by decide +kernel)

/-- **C29 (partial)** In an election with a mixnet, a decryption is accepted only for an output of a stored mix of that contest, which ends a complete chain of mixes
starting at a first mix over all votes; the raw votes themselves are never decrypted.  Missing: that the chain has full length and belongs to the same
election. -/
theorem C29_only_fully_mixed_partial (E : Env) (m : MemStore) (hm : Ledger E m) (t : DecryptionTx) (sig : Signature)
    (h : (SignedTx.decryption ⟨t, sig⟩).validate E m.toStore = .ok ()) (e : ElectionTx) (he : ElectionAt m.toStore t.electionId e)
    (hmix : e.mixConfig ≠ none) :
    ∃ mx : Signed MixTx, mx.tx.id = t.upstreamId ∧ InStore m.toStore (.mix mx) ∧ mx.tx.contestIndex = t.contestIndex ∧
      t.upstreamIndex.toNat < mx.tx.mixedCiphertexts.length ∧
      ∃ chain, IsMixChain m.toStore chain ∧ chain.getLast? = some mx := by
  obtain ⟨_, e', cts, ⟨sg', he'⟩, hitem, _⟩ := C30_decryption_is_threshold_decryption_partial E m hm.replay t sig h
  obtain ⟨sg, he⟩ := he
  rw [he] at he'
  cases he'
  generalize hcfg : e.mixConfig = cfg at hitem hmix
  cases hitem with
  | ofVote => exact absurd rfl hmix
  | @ofMix mt msig cfg _ hg hty hcc hl =>
    have hk : mt.id = t.upstreamId := MemStore.get_id hm.wf hg
    have hst : InStore m.toStore (.mix ⟨mt, msig⟩) := by show m.getTransaction mt.id = _; rw [hk]; exact hg
    exact ⟨⟨mt, msig⟩, hk, hst, hcc, (List.getElem?_eq_some_iff.1 hl).1, C24_mix_chain E m hm _ hst⟩

example : Ledger Toy.env (MemStore.ofList (Toy.complete.take 17)) ∧ ElectionAt (MemStore.ofList (Toy.complete.take 17)).toStore Toy.eid (Toy.election) ∧
    (Toy.election).mixConfig ≠ none := ⟨ledger_of_run (by decide +kernel), ⟨Toy.sig 1, by rfl⟩, by simp [Toy.election]⟩

end CB
