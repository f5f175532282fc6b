import Verif.Lemmas.NetFinish
import Verif.Spec.NetworkMix
import Verif.Props.ServerMix
import Verif.Props.Mixing
/-!
# What ledgers hold while the nodes of an election with mixnet mix and decrypt its votes
-/

namespace CB
open Spec Server

namespace Setup

variable {N : NodeEnv} {K : List SecretKey} {e : ElectionTx} {sk : UInt8 → SecretKey} {run : KeyGenRun N} {key : ElGamalKey} {fits : Bytes → Prop} {s : Network}

theorem fair_of_mix {ev : Event} (h : FairMix N K e ev) : Fair N K e ev := by
  cases ev with
  | submit t => exact fun hf => ⟨(h.1 hf).1, fun hk => (h.1 hf).2 (.inl hk)⟩
  | deliver i => trivial
  | react k rng m v => exact h

theorem fairMix_of_nodes {ev : Event} (h : NodesOnly K ev) : FairMix N K e ev := by
  cases ev with
  | submit t => exact h.elim
  | deliver i => trivial
  | react k rng m v => exact h

/-- a state of the network while an election with mixnet is held -/
structure MixHeld (N : NodeEnv) (K : List SecretKey) (e : ElectionTx) (sk : UInt8 → SecretKey) (run : KeyGenRun N) (key : ElGamalKey) (s : Network) : Prop
    extends Held N K e sk run key s where
  mhist : Network.History N (FairMix N K e) s
  mixnet : e.mixConfig ≠ none

theorem mixHeld_run (hN : Nodes N K e sk) (hR : Run N e sk run key) (hp : e.mixConfig ≠ none) (evs : List Event) (hq : ∀ ev ∈ evs, FairMix N K e ev)
    (he : ElectionAt (Network.run N evs).store.toStore e.id e) : MixHeld N K e sk run key (Network.run N evs) :=
  ⟨held_run hN hR evs (fun ev hev => fair_of_mix (hq ev hev)) he, Network.history_run evs hq, hp⟩

theorem exists_mixing_run {Enc : ElGamalKey → Ciphertext → Bytes → Prop} (hM : MixCorrect N fits Enc) (hT : ProperTrustees e) (sk : UInt8 → SecretKey) :
    ∃ run key, Run N e sk run key ∧ Works N e run (Enc key) := by
  have hT' := sorted_proper hT
  obtain ⟨run, key, hrun, hkey, hdec⟩ := hM.threshold (idxs (sorted e)) e.trusteesThreshold.toNat (seedOf N e sk) (idxs_nodup hT') (idxs_bounds hT') hT.threshold
    (by rw [idxs_length]; exact hT'.enough)
  exact ⟨run, key, ⟨hrun, hkey⟩, hdec⟩

/-- what a node emits in reaction to a mix -/
theorem mix_emits {rng : Rng} {k : SecretKey} {S : Store} {t : MixTx} {sig : Signature} {l : List SignedTx} (he : ElectionAt S t.electionId e)
    (h : generateTransactions N rng k S (.mix ⟨t, sig⟩) = .ok l) {x : SignedTx} (hx : x ∈ l) :
    ∃ tr next, trusteeFromElection e (N.edPublic k) = some tr ∧ N.addU8 t.mixIndex 1 = (.ok next : SRes UInt8) ∧
      ((e.trusteesThreshold = next ∧ producePartials N rng k S e tr t.contestIndex (some t) = .ok l) ∨
       ∃ m : Signed MixTx, x = .mix m ∧ m.tx.prevMixId = none ∧ m.tx.mixIndex = next) := by
  obtain ⟨esig, hel⟩ := getElection_at he
  simp only [generateTransactions, processMix, hel, v_ok, Res.bind_def, Res.ok_bind] at h
  split at h
  · rename_i tr htr
    split at h
    · rename_i cfg hcfg
      simp only [Res.bind_eq_ok] at h
      obtain ⟨next, hnext, h⟩ := h
      refine ⟨tr, next, htr, hnext, ?_⟩
      split at h
      · rename_i hth
        exact .inl ⟨hth, h⟩
      · simp only [Res.bind_eq_ok] at h
        obtain ⟨next2, _, h⟩ := h
        split at h
        · simp only [Res.bind_eq_ok] at h
          obtain ⟨key, _, r, _, s, hs, hl⟩ := h
          cases hl
          rw [List.mem_singleton] at hx
          obtain ⟨rfl, _⟩ := sign_ok hs
          exact .inr ⟨_, hx, rfl, rfl⟩
        · cases h
          cases hx
    · cases h
      cases hx
  · cases h
    cases hx

/-- what a stored mix of the election passed -/
theorem Held.mix_at (h : Held N K e sk run key s) {i : Nat} {m : Signed MixTx} (hi : s.ledger[i]? = some (.mix m)) (hf : m.tx.id.electionId = e.id.electionId) :
    m.tx.electionId = e.id ∧ ElectionAt (at' s i) e.id e ∧ m.tx.id = MixTx.buildId e.id m.tx.contestIndex m.tx.batch m.tx.mixIndex m.tx.trusteeIndex ∧
      IsTrustee e m.tx.trusteeIndex m.tx.trusteePublicKey ∧ m.tx.mixIndex.toNat + 1 = m.tx.trusteeIndex.toNat ∧ m.tx.mixedCiphertexts.length = m.tx.voteIds.length ∧
      (∃ inputs, MixInputs (at' s i) m.tx inputs) ∧ SignedByTrustee N.toEnv e (.mix m) ∧
      (∃ ek, (at' s i).getTransaction (singleId e.id .encryptionKey) = some (.encryptionKey ek) ∧ ek.tx.encryptionKey = key) ∧
      Filled e (at' s i) .keyGenPublicKey ∧ Filled e (at' s i) .keyGenShare := by
  obtain ⟨-, hsig, hv⟩ := SignedTx.validate_ok.1 (h.hist.accepted i _ hi)
  have hL := h.hist.sound.ledger i
  obtain ⟨hid, e', he', -, htr, -, hidx, hlen, inputs, hin, -, ek, esig, hek, -⟩ := (MixTx.validateTx_ok hL.lawful).1 hv
  have hname : m.tx.electionId = e.id := (h.orderly.names (List.mem_of_getElem? hi) (by rw [← hf, hid]; rfl)).1
  rw [hname] at he' hek hid
  have := h.uniq he'
  subst this
  obtain ⟨ek', heq, hk, hpk⟩ := h.key_at hek
  cases heq
  obtain ⟨tr, htr1, htr2, htr3⟩ := id htr
  have hnz := h.nodes.trustees.nonzero tr htr1
  refine ⟨hname, he', hid, htr, ?_, hlen, ⟨inputs, hin⟩, ⟨tr, htr1, by rw [htr3]; rfl, hsig⟩, ⟨_, hek, hk⟩, hpk, ?_⟩
  · rw [hidx, ← htr2]
    have h1 : tr.index.toNat ≠ 0 := fun h0 => hnz (UInt8.toNat_inj.1 h0)
    have h2 := tr.index.toNat_lt
    rw [UInt8.toNat_sub]
    simp
    omega
  · obtain ⟨tr, htr⟩ := exists_full h.nodes.trustees
    obtain ⟨x, hx⟩ := hpk tr htr
    obtain ⟨h5, h6⟩ := (Network.get_some (Network.nodup_take h.hist.sound.nodup i)).1 hx
    refine h.shares_of_pk h5 (by rw [h6]; rfl) ?_
    rw [← hL.replay.typedStore x (h.in_take.2 h5), h6]
    rfl

theorem Held.after_mix (h : Held N K e sk run key s) {m : Signed MixTx} (hf : m.tx.id.electionId = e.id.electionId) {u : Nat} (hm : .mix m ∈ s.ledger.take u) :
    View N e sk run key (at' s u) ∧ Filled e (at' s u) .keyGenPublicKey ∧ Filled e (at' s u) .keyGenShare := by
  obtain ⟨i, hiu, hi⟩ := mem_take hm
  obtain ⟨-, ⟨sg, he⟩, -, -, -, -, -, -, -, h1, h2⟩ := h.mix_at hi hf
  exact ⟨h.view ⟨sg, h.extends (by omega) _ _ he⟩, h.filled_mono (by omega) h1, h.filled_mono (by omega) h2⟩

/-- stored ends of voting are in their place -/
theorem MixHeld.end_id (h : MixHeld N K e sk run key s) {x : Signed VotingEndTx} {i : Nat} (hi : s.ledger[i]? = some (.votingEnd x)) (hx : x.tx.election = e.id) :
    x.tx.id = singleId e.id .votingEnd := by
  obtain ⟨-, hsig, hv⟩ := SignedTx.validate_ok.1 (h.hist.accepted i _ hi)
  obtain ⟨e', he', hauth⟩ := VotingEndTx.validateTx_ok.1 hv
  rw [hx] at he'
  have := h.uniq he'
  subst this
  rcases h.mhist.listed i _ hi with hq | ⟨k, _, _, _, hq, w, hw, y, rng, l, hy, hl, hd⟩
  · exact hq.2.1 x rfl hx (by rw [← hauth]; rfl) hsig
  · have hL := h.hist.sound.ledger w
    obtain ⟨-, -, hfol⟩ := emitted hL.lawful (h.in_take.2 hy) hl hd
    simp [follows, kindOf] at hfol

/-- Once voting has ended the votes stay the same. -/
theorem Held.votes_stay (h : Held N K e sk run key s) {x : Signed VotingEndTx} (hid : x.tx.id = singleId e.id .votingEnd) {w : Nat} (hx : .votingEnd x ∈ s.ledger.take w)
    {votes : List (Signed VoteTx)} : AllVotes (at' s w) e.id votes ↔ AllVotes s.store.toStore e.id votes := by
  obtain ⟨m, hmw, hm⟩ := mem_take hx
  have hsame : ∀ t : SignedTx, (InStore (at' s w) t ∧ t.id.electionId = e.id.electionId ∧ t.id.txType = .vote) ↔ InStore s.store.toStore t ∧ t.id.electionId = e.id.electionId ∧ t.id.txType = .vote := by
    intro t
    rw [h.in_take, h.in_ledger]
    constructor
    · rintro ⟨h1, h2⟩
      exact ⟨List.mem_of_mem_take h1, h2⟩
    · rintro ⟨h1, h2, h3⟩
      have hty := h.hist.sound.whole.replay.typedStore t (h.in_ledger.2 h1)
      rw [h3] at hty
      obtain ⟨v, rfl⟩ : ∃ v, t = .vote v := by cases t <;> simp [kindOf] at hty; exact ⟨_, rfl⟩
      obtain ⟨j, hj, hj'⟩ := mem_take (h.vote_before_end hm hid h1 h2)
      exact ⟨take_mem hj' (by omega), h2, h3⟩
  unfold AllVotes
  simp only [hsame]

/-- All mixes filed under the election are first mixes that trustee 1 made of all votes, after voting had ended. -/
theorem MixHeld.mix_honest (h : MixHeld N K e sk run key s) {m : Signed MixTx} {i : Nat} (hi : s.ledger[i]? = some (.mix m)) (hf : m.tx.id.electionId = e.id.electionId) :
    ∃ vs : Signed VotingEndTx, .votingEnd vs ∈ s.ledger.take i ∧ vs.tx.id = singleId e.id .votingEnd ∧
    ∃ (tr : Trustee) (votes : List (Signed VoteTx)) (r : Bytes) (out : List (List Ciphertext)) (proof : ShuffleProof), tr.index = 1 ∧
      AllVotes s.store.toStore e.id votes ∧ (∀ v ∈ votes, (v.tx.encryptedVotes.filter fun ev => ev.contestIndex = m.tx.contestIndex).length = 1) ∧
      N.shuffle (pedersenSeed 1 0 m.tx.contestIndex 0) (Spec.contestVotes m.tx.contestIndex votes).length (Spec.contestVotes m.tx.contestIndex votes) key r = .ok (out, proof) ∧
      m.tx = MixTx.new e.id none tr 0 m.tx.contestIndex 0 (votes.map (·.tx.id)) out proof := by
  obtain ⟨hname, he, hid, htr, hidx, hlen, ⟨inputs, hin⟩, hsigned, ⟨ek, hek, hkey⟩, -⟩ := h.mix_at hi hf
  rcases h.mhist.listed i _ hi with hq | ⟨k, _, _, _, hq, w, hw, x, rng, l, hx, hl, hd⟩
  · exact absurd hsigned ((hq.1 hf).2 (.inr rfl))
  have hxin := (h.in_take (v := w)).2 hx
  have hL := h.hist.sound.ledger w
  obtain ⟨-, h1, hfol⟩ := emitted hL.lawful hxin hl hd
  obtain ⟨h2, hew⟩ := (h.orderly.take w).names hx (h1 ▸ hf)
  cases x with
  | mix y =>
    exfalso
    obtain ⟨j, hjw, hj⟩ := mem_take hx
    have h2 : y.tx.electionId = e.id := h2
    have hyf : y.tx.id.electionId = e.id.electionId := by
      obtain ⟨hid', -⟩ := (MixTx.validateTx_ok (h.hist.sound.ledger j).lawful).1 (SignedTx.validate_ok.1 (h.hist.accepted j _ hj)).2.2
      rw [hid', h2]
      rfl
    obtain ⟨-, -, -, -, hyi, -⟩ := h.mix_at hj hyf
    obtain ⟨tr, next, -, hnext, hcase⟩ := mix_emits (e := e) (by rw [h2]; exact hew) hl hd
    rcases hcase with ⟨-, hprod⟩ | ⟨m', heq, hprev, hnx⟩
    · have := producePartials_kind hprod _ hd
      cases this
    · cases heq
      cases hin with
      | first _ h0 _ _ =>
        rw [hnx] at h0
        rw [Env.addU8_ok] at hnext
        obtain ⟨-, hn⟩ := hnext
        rw [h0] at hn
        have := congrArg UInt8.toNat hn
        rw [UInt8.toNat_add] at this
        have hlt := y.tx.trusteeIndex.toNat_lt
        simp at this
        omega
      | next hp => rw [hprev] at hp; cases hp
  | votingEnd x =>
    have h2 : x.tx.election = e.id := h2
    obtain ⟨j, hjw, hj⟩ := mem_take hx
    have hxid := h.end_id hj h2
    obtain ⟨-, tr, votes, ktx, ksig, c, r, out, proof, hi1, hk, hit, hall, hkt, hs, htx, hsig⟩ := firstMix_emitted hL.lawful hL.replay.typedStore (e := e) (by rw [h2]; exact hew) hl hd
    have hc : m.tx.contestIndex = c := by rw [htx]; rfl
    subst hc
    obtain ⟨kk, heqk, hkk, -⟩ := h.key_at hkt
    cases heqk
    have hkk : ktx.encryptionKey = key := hkk
    rw [hkk] at hs
    have hall' := (h.votes_stay hxid hx).1 hall
    have hxi : .votingEnd x ∈ s.ledger.take i := take_mem hj (by omega)
    have hnd : (votes.map (·.tx.id)).Nodup := by
      have := idLt_nodup hall.2
      rwa [List.map_map] at this
    have hids : (votes.flatMap fun v => (v.tx.encryptedVotes.filter fun ev => ev.contestIndex = m.tx.contestIndex).map fun _ => v.tx.id) = votes.map (·.tx.id) := by
      have hprev : m.tx.prevMixId = none := by rw [htx]; rfl
      cases hin with
      | first _ _ hall'' hids =>
        rw [hname] at hall''
        have := allVotes_unique ((h.votes_stay hxid hxi).1 hall'') hall'
        subst this
        rw [← hids, htx]
        rfl
      | next hp => rw [hprev] at hp; cases hp
    rw [hids] at htx
    exact ⟨x, hxi, hxid, tr, votes, r, out, proof, hi1, hall', (flatMap_ids hnd).1 hids, hs, htx⟩
  | _ => simp [follows, kindOf] at hfol

/-- there is one mix per contest -/
theorem MixHeld.mix_id (h : MixHeld N K e sk run key s) {m : Signed MixTx} (hm : .mix m ∈ s.ledger) (hf : m.tx.id.electionId = e.id.electionId) :
    m.tx.id = MixTx.buildId e.id m.tx.contestIndex 0 0 1 ∧ m.tx.id.txType = .mix := by
  obtain ⟨i, hi⟩ := List.getElem?_of_mem hm
  obtain ⟨-, -, -, tr, votes, r, out, proof, h1, -, -, -, htx⟩ := h.mix_honest hi hf
  have : m.tx.id = MixTx.buildId e.id m.tx.contestIndex 0 0 1 := by
    rw [htx]
    simp only [MixTx.new, h1]
  exact ⟨this, by rw [this]; rfl⟩

theorem Held.same (h : Held N K e sk run key s) {t t' : SignedTx} (ht : t ∈ s.ledger) (ht' : t' ∈ s.ledger) (hid : t.id = t'.id) : t = t' := by
  have h1 := h.in_ledger.2 ht
  have h2 := h.in_ledger.2 ht'
  unfold InStore at h1 h2
  rw [hid, h2] at h1
  exact (Option.some.inj h1).symm

theorem MixHeld.one_mix (h : MixHeld N K e sk run key s) {m m' : Signed MixTx} (hm : .mix m ∈ s.ledger) (hf : m.tx.id.electionId = e.id.electionId)
    (hm' : .mix m' ∈ s.ledger) (hf' : m'.tx.id.electionId = e.id.electionId) (hc : m.tx.contestIndex = m'.tx.contestIndex) : m = m' := by
  have := h.same hm hm' (show m.tx.id = m'.tx.id by rw [(h.mix_id hm hf).1, (h.mix_id hm' hf').1, hc])
  cases this
  rfl

/-- All partial decryptions filed under the election are the trustees' shares of positions of mixes, and one trustee's share is enough. -/
theorem MixHeld.partial_honest (h : MixHeld N K e sk run key s) {t : SignedTx} (ht : t ∈ s.ledger) (hf : t.id.electionId = e.id.electionId) (hk : kindOf t = .partialDecryption) :
    e.trusteesThreshold = 1 ∧ ∃ tr ∈ e.getFullTrustees, ∃ m : Signed MixTx, .mix m ∈ s.ledger ∧ m.tx.id.electionId = e.id.electionId ∧
      ∃ (j : Nat) (cts : List Ciphertext), m.tx.mixedCiphertexts[j]? = some cts ∧ ∃ ds, SharesOf N run tr cts ds ∧
        t = partialTx N e sk tr m.tx.id (UInt16.ofNat j) m.tx.contestIndex ds := by
  obtain ⟨i, hi⟩ := List.getElem?_of_mem ht
  rcases h.hist.listed i t hi with hq | ⟨k, _, _, _, hq, w, hw, x, rng, l, hx, hl, hd⟩
  · exfalso
    refine (hq hf).2 hk ?_
    cases t with
    | partialDecryption p => exact h.partial_signed hi hf
    | _ => simp [kindOf] at hk
  have hxin := (h.in_take (v := w)).2 hx
  have hL := h.hist.sound.ledger w
  obtain ⟨-, h1, hfol⟩ := emitted hL.lawful hxin hl hd
  obtain ⟨h2, hew⟩ := (h.orderly.take w).names hx (h1 ▸ hf)
  rw [hk] at hfol
  cases x with
  | votingEnd y =>
    exfalso
    have h2 : y.tx.election = e.id := h2
    obtain ⟨esig, hel⟩ := getElection_at hew
    obtain ⟨cfg, hcfg⟩ := Option.ne_none_iff_exists'.1 h.mixnet
    simp only [generateTransactions, processVotingEnd, h2, hel, v_ok, Res.bind_def, Res.ok_bind, hcfg] at hl
    split at hl
    · split at hl
      · simp only [Res.bind_eq_ok] at hl
        obtain ⟨_, _, _, _, hl⟩ := hl
        have := (firstMixes_filed hl _ hd).1
        rw [hk] at this
        cases this
      · cases hl; cases hd
    · cases hl; cases hd
  | mix y =>
    obtain ⟨j, hjw, hj⟩ := mem_take hx
    have h2 : y.tx.electionId = e.id := h2
    have hyf : y.tx.id.electionId = e.id.electionId := by
      obtain ⟨hid', -⟩ := (MixTx.validateTx_ok (h.hist.sound.ledger j).lawful).1 (SignedTx.validate_ok.1 (h.hist.accepted j _ hj)).2.2
      rw [hid', h2]
      rfl
    obtain ⟨hV, -, hF⟩ := h.after_mix hyf hx
    obtain ⟨tr, next, htr, hnext, hcase⟩ := mix_emits (e := e) (by rw [h2]; exact hew) hl hd
    rcases hcase with ⟨hth, hprod⟩ | ⟨m', rfl, -⟩
    · obtain ⟨g1, rfl, g2⟩ := h.nodes.reactor hq htr
      obtain ⟨items, hitems, up, n, c, cts, hm, ds, hxe, hsh⟩ := hV.partials_emitted h.nodes h.keygen g1 hprod hd
      simp only [partialItems, Res.ok.injEq] at hitems
      rw [← hitems, List.mem_mapIdx] at hm
      obtain ⟨a, ha, heq⟩ := hm
      cases heq
      have h0 : y.tx.mixIndex = 0 := by
        obtain ⟨-, -, -, tr, votes, r, out, proof, h1, -, -, -, htx⟩ := h.mix_honest hj hyf
        rw [htx]
        rfl
      rw [Env.addU8_ok, h0] at hnext
      refine ⟨by rw [hth, hnext.2]; rfl, tr, g1, y, List.mem_of_getElem? hj, hyf, a, _, List.getElem?_eq_getElem ha, ds, hsh hF, hxe⟩
    · cases hk
  | _ => simp [follows, kindOf] at hfol

end Setup
end CB
