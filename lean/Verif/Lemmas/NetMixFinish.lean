import Verif.Lemmas.NetMixed
/-!
# Nodes can always finish the mixing and decryption of an election's honest votes
-/

namespace CB
open Spec Server

namespace Setup

variable {N : NodeEnv} {K : List SecretKey} {e : ElectionTx} {sk : UInt8 → SecretKey} {run : KeyGenRun N} {key : ElGamalKey} {fits : Bytes → Prop} {s : Network}

theorem Held.key_stored (h : Held N K e sk run key s) {ek : Signed EncryptionKeyTx} (hek : s.store.toStore.getTransaction (singleId e.id .encryptionKey) = some (.encryptionKey ek)) :
    ek.tx.encryptionKey = key := by
  obtain ⟨ek', heq, hkey, -⟩ := h.key_at (v := s.ledger.length) (t := .encryptionKey ek) (by unfold at'; rw [List.take_length]; exact hek)
  cases heq
  exact hkey

/-- decryptions that name the election are filed under it -/
theorem Held.decryption_filed (h : Held N K e sk run key s) {t : Signed DecryptionTx} (ht : .decryption t ∈ s.ledger) (hte : t.tx.electionId = e.id) :
    t.tx.id.electionId = e.id.electionId := by
  obtain ⟨i, hi⟩ := List.getElem?_of_mem ht
  obtain ⟨hid, -⟩ := DecryptionTx.validateTx_ok.1 (SignedTx.validate_ok.1 (h.hist.accepted i _ hi)).2.2
  rw [hid, hte]
  rfl

theorem MixHeld.mix_length (h : MixHeld N K e sk run key s) {m : Signed MixTx} (hm : .mix m ∈ s.ledger) (hf : m.tx.id.electionId = e.id.electionId) {votes : List (Signed VoteTx)}
    (hall : AllVotes s.store.toStore e.id votes) : m.tx.mixedCiphertexts.length = votes.length := by
  obtain ⟨i, hi⟩ := List.getElem?_of_mem hm
  obtain ⟨-, -, -, tr, votes', r, out, proof, -, hall', -, hs, htx⟩ := h.mix_honest hi hf
  have := allVotes_unique hall' hall
  subst this
  rw [(h.mix_at hi hf).2.2.2.2.2.1, htx]
  simp [MixTx.new]

theorem forall₂_get {α β : Type} {R : α → β → Prop} {l : List α} {l' : List β} (h : List.Forall₂ R l l') {j : Nat} {a : α} {b : β} (ha : l[j]? = some a) (hb : l'[j]? = some b) : R a b := by
  induction h generalizing j with
  | nil => cases ha
  | cons h _ ih =>
    cases j with
    | zero => cases ha; cases hb; exact h
    | succ j => exact ih ha hb

/-- decryptions of the election's contest are decryptions of its mix -/
theorem MixHeld.decryption_of (h : MixHeld N K e sk run key s) {m : Signed MixTx} (hm : .mix m ∈ s.ledger) (hf : m.tx.id.electionId = e.id.electionId)
    {d : Signed DecryptionTx} (hd : .decryption d ∈ s.ledger) (hde : d.tx.electionId = e.id) (hdc : d.tx.contestIndex = m.tx.contestIndex) :
    d.tx.upstreamIndex.toNat < m.tx.mixedCiphertexts.length ∧ d.tx.upstreamId = m.tx.id ∧
      d.tx.id = DecryptionTx.buildId e.id m.tx.id m.tx.contestIndex (UInt16.ofNat d.tx.upstreamIndex.toNat) := by
  obtain ⟨-, h2, m', hm', hup, hf', hc, hlt⟩ := h.decryption_item hd (h.decryption_filed hd hde)
  have := h.one_mix hm' hf' hm hf (hc.trans hdc)
  subst this
  refine ⟨hlt, hup.symm, ?_⟩
  rw [h2, hup, hdc]
  congr 1
  exact UInt16.toNat_inj.1 (by rw [UInt16.toNat_ofNat', Nat.mod_eq_of_lt d.tx.upstreamIndex.toNat_lt])

theorem MixHeld.decryption_threshold (h : MixHeld N K e sk run key s) {d : Signed DecryptionTx} (hd : .decryption d ∈ s.ledger) (hde : d.tx.electionId = e.id) : e.trusteesThreshold = 1 := by
  obtain ⟨i, hi⟩ := List.getElem?_of_mem hd
  obtain ⟨-, e', he', -, -, -, -, ps, hpl, hps, hth, -⟩ := DecryptionTx.validateTx_ok.1 (SignedTx.validate_ok.1 (h.hist.accepted i _ hi)).2.2
  rw [hde] at he'
  have := h.uniq he'
  subst this
  have h0 : 0 < d.tx.trustees.length := by have := h.nodes.trustees.threshold; omega
  have h0' : 0 < ps.length := by omega
  obtain ⟨-, hg⟩ := hps 0 _ _ (List.getElem?_eq_getElem h0) (List.getElem?_eq_getElem h0')
  obtain ⟨h4, h5⟩ := (Network.get_some (Network.nodup_take h.hist.sound.nodup i)).1 hg
  exact (h.partial_honest (List.mem_of_mem_take h4) (by rw [h5, hde]; rfl) rfl).1

/-- Decryptions of positions of a mix of honest votes are the voters' selections. -/
theorem MixHeld.decryptions_right (h : MixHeld N K e sk run key s) {Enc : ElGamalKey → Ciphertext → Bytes → Prop} (hM : MixCorrect N fits Enc) (hW : Works N e run (Enc key))
    {votes : List (Signed VoteTx)} (hall : AllVotes s.store.toStore e.id votes) (hlen : votes.length ≤ 65535) {c : UInt32} {sels : List (List Selection)}
    (hh : List.Forall₂ (fun v sel => HonestVote N fits key v.tx c sel) votes sels) {m : Signed MixTx} (hm : .mix m ∈ s.ledger) (hf : m.tx.id.electionId = e.id.electionId)
    (hc : m.tx.contestIndex = c) :
    ∃ sels' : List (List Selection), sels'.Perm sels ∧ sels'.length = m.tx.mixedCiphertexts.length ∧
      (∀ d : Signed DecryptionTx, .decryption d ∈ s.ledger → d.tx.electionId = e.id → d.tx.contestIndex = c → sels'[d.tx.upstreamIndex.toNat]? = some d.tx.decryptedVote) ∧
      ∀ (j : Nat) cts, m.tx.mixedCiphertexts[j]? = some cts → ∃ sel, EncryptsTo (Enc key) cts sel := by
  subst hc
  obtain ⟨sels', hperm, henc⟩ := h.mix_encrypts hM hm hf hall hh
  have hml := h.mix_length hm hf hall
  refine ⟨sels', hperm, henc.length_eq.symm, ?_, ?_⟩
  · intro d hd hde hdc
    obtain ⟨hlt, hup, hid⟩ := h.decryption_of hm hf hd hde hdc
    have hlt' : d.tx.upstreamIndex.toNat < sels'.length := by rw [← henc.length_eq]; exact hlt
    have hcts := List.getElem?_eq_getElem hlt
    have hsel := List.getElem?_eq_getElem hlt'
    have hd1 := h.decryption_threshold hd hde
    rw [hsel]
    congr 1
    exact (h.decryption_right hW (h.target hm hf (by omega) hcts (forall₂_get henc hcts hsel)) hd hid (.inr (.inr (by rw [hd1]; decide)))).symm
  · intro j cts hj
    have hlt := (List.getElem?_eq_some_iff.1 hj).1
    exact ⟨_, forall₂_get henc hj (List.getElem?_eq_getElem (by rw [← henc.length_eq]; exact hlt))⟩

/-- Once the mix of a contest is decrypted, the decryptions are the voters' selections. -/
theorem MixHeld.contest_result (h : MixHeld N K e sk run key s) {Enc : ElGamalKey → Ciphertext → Bytes → Prop} (hM : MixCorrect N fits Enc) (hW : Works N e run (Enc key))
    {votes : List (Signed VoteTx)} (hall : AllVotes s.store.toStore e.id votes) (hlen : votes.length ≤ 65535) {c : UInt32} {sels : List (List Selection)}
    (hh : List.Forall₂ (fun v sel => HonestVote N fits key v.tx c sel) votes sels)
    (hdone : votes ≠ [] → ∃ m : Signed MixTx, .mix m ∈ s.ledger ∧ m.tx.id.electionId = e.id.electionId ∧ m.tx.contestIndex = c ∧
      ∀ (j : Nat) cts sel, m.tx.mixedCiphertexts[j]? = some cts → EncryptsTo (Enc key) cts sel → DecryptionTx.buildId e.id m.tx.id c (UInt16.ofNat j) ∈ s.ledger.map SignedTx.id) :
    ∃ ds, AllDecryptions s.store.toStore e c ds ∧ (ds.map (·.tx.decryptedVote)).Perm sels := by
  by_cases hne : votes = []
  · subst hne
    cases hh
    refine ⟨[], ⟨List.nodup_nil, fun d => ⟨fun hd => absurd hd (List.not_mem_nil), ?_⟩⟩, .refl _⟩
    rintro ⟨hd, hde, -⟩
    obtain ⟨-, -, m, hm, -, hf, -, hlt⟩ := h.decryption_item (h.in_ledger.1 hd) (h.decryption_filed (h.in_ledger.1 hd) hde)
    rw [h.mix_length hm hf hall] at hlt
    cases hlt
  obtain ⟨m, hm, hf, hmc, hpost⟩ := hdone hne
  obtain ⟨sels', hperm, hsl, hright, hsome⟩ := h.decryptions_right hM hW hall hlen hh hm hf hmc
  have hml := h.mix_length hm hf hall
  have hex : ∀ j : Fin m.tx.mixedCiphertexts.length, ∃ d : Signed DecryptionTx, .decryption d ∈ s.ledger ∧ d.tx.electionId = e.id ∧ d.tx.contestIndex = c ∧ d.tx.upstreamIndex.toNat = j.val := by
    intro j
    have hj := List.getElem?_eq_getElem j.isLt
    obtain ⟨sel, henc⟩ := hsome _ _ hj
    have hT := h.target hm hf (by omega) hj henc
    rw [hmc] at hT
    obtain ⟨d, h1, h2, h3, h4, h5, -⟩ := h.decryption_stored hW hT (hpost _ _ _ hj henc)
    refine ⟨d, h1, h2, h4, ?_⟩
    rw [h5, UInt16.toNat_ofNat']
    exact Nat.mod_eq_of_lt (by have := j.isLt; omega)
  choose f hf1 hf2 hf3 hf4 using hex
  refine ⟨List.ofFn f, ⟨?_, fun d => ?_⟩, ?_⟩
  · rw [List.nodup_ofFn]
    intro i j hij
    exact Fin.ext (by rw [← hf4 i, ← hf4 j, hij])
  · rw [List.mem_ofFn]
    constructor
    · rintro ⟨j, rfl⟩
      exact ⟨h.in_ledger.2 (hf1 j), hf2 j, hf3 j⟩
    · rintro ⟨hd, hde, hdc⟩
      have hd := h.in_ledger.1 hd
      obtain ⟨hlt, -, hid⟩ := h.decryption_of hm hf hd hde (hdc.trans hmc.symm)
      obtain ⟨-, -, hid'⟩ := h.decryption_of hm hf (hf1 ⟨_, hlt⟩) (hf2 _) ((hf3 _).trans hmc.symm)
      rw [hf4] at hid'
      have := h.same (hf1 ⟨_, hlt⟩) hd (show (f ⟨_, hlt⟩).tx.id = d.tx.id by rw [hid, hid'])
      exact ⟨_, by injection this⟩
  · refine List.Perm.trans (.of_eq ?_) hperm
    apply List.ext_getElem?
    intro i
    rw [List.getElem?_map, List.getElem?_ofFn]
    split
    · rename_i hi
      have := hright _ (hf1 ⟨i, hi⟩) (hf2 _) (hf3 _)
      rw [hf4] at this
      rw [this]
      rfl
    · rename_i hi
      rw [List.getElem?_eq_none (by omega)]
      rfl

/-- Some reactions, and everything is delivered. -/
theorem round (N : NodeEnv) (K : List SecretKey) (evs : List Event) (rng : Rng) (ps : List (SecretKey × Nat)) (hK : ∀ p ∈ ps, p.1 ∈ K) :
    ∃ more : List Event, (∀ ev ∈ more, NodesOnly K ev) ∧ (Network.run N (evs ++ more)).pending = [] ∧
      ∀ p ∈ ps, ∀ t, (Network.run N evs).ledger[p.2]? = some t →
        (∃ l, generateTransactions N rng p.1 (at' (Network.run N evs) (Network.run N evs).ledger.length) t = .ok l) → p ∈ (Network.run N (evs ++ more)).reacted := by
  obtain ⟨-, hr⟩ := reactions (N := N) rng ps (Network.run N evs) _ rfl
  generalize hE : (ps.map fun p => Event.react p.1 rng p.2 (Network.run N evs).ledger.length) = evs1 at hr
  rw [← run_more] at hr
  obtain ⟨n, hn⟩ := Network.flush N (Network.run N (evs ++ evs1))
  rw [← run_more, List.append_assoc] at hn
  refine ⟨evs1 ++ List.replicate n (.deliver 0), ?_, hn, ?_⟩
  · intro ev hev
    rcases List.mem_append.1 hev with hev | hev
    · rw [← hE] at hev
      obtain ⟨p, hp, rfl⟩ := List.mem_map.1 hev
      exact hK p hp
    · rw [(List.mem_replicate.1 hev).2]
      trivial
  · intro p hp t ht hl
    rw [← List.append_assoc, run_more]
    exact reacted_steps (N := N) _ (hr p hp t ht hl)

theorem firstMixes_total {rng : Rng} {k : SecretKey} {tr : Trustee} (hk : tr.publicKey = N.edPublic k) {cv : List (UInt32 × List (Identifier × List Ciphertext))} {n : Nat}
    (h : ∀ c vs, (c, vs) ∈ cv → ∀ seed r, ∃ x, N.shuffle seed (vs.map (·.2)).length (vs.map (·.2)) key r = .ok x) : ∃ l, firstMixes N rng k e tr key n cv = .ok l := by
  induction cv generalizing n with
  | nil => exact ⟨[], rfl⟩
  | cons x cv ih =>
    obtain ⟨c, vs⟩ := x
    obtain ⟨l, hl⟩ := ih (n := n + 1) fun c vs hm => h c vs (List.mem_cons_of_mem _ hm)
    obtain ⟨x, hx⟩ := h c vs (List.mem_cons_self ..) (pedersenSeed tr.index 0 c 0) (rng.bytes [n])
    simp only [firstMixes, mix, hx, Res.bind_def, Res.ok_bind, hl, Res.pure_def]
    rw [sign_eq (by rintro k' ⟨⟩; show tr.publicKey = _; exact hk)]
    exact ⟨_, rfl⟩

/-- At the end of voting the node of trustee 1 mixes, if the encrypted votes of each contest are of one shape. -/
theorem View.mixes_made {S : Store} (hN : Nodes N K e sk) (hV : View N e sk run key S) (hsw : ShuffleWorks N) (hu : Uniform S e) (hcfg : e.mixConfig ≠ none) (rng : Rng)
    {tr : Trustee} (htr : tr ∈ e.getFullTrustees) {vs : Signed VotingEndTx} (hvs : vs.tx.election = e.id)
    (hek : ∃ ek, S.getTransaction (singleId e.id .encryptionKey) = some (.encryptionKey ek)) :
    ∃ l, generateTransactions N rng (sk tr.index) S (.votingEnd vs) = .ok l := by
  obtain ⟨esig, hel⟩ := getElection_at hV.election
  obtain ⟨cfg, hcfg⟩ := Option.ne_none_iff_exists'.1 hcfg
  obtain ⟨ek, hek⟩ := hek
  obtain ⟨votes, -, hv, -, hall⟩ := getAll_votes hV.lawful hV.typed e
  simp only [generateTransactions, processVotingEnd, hvs, hel, v_ok, Res.bind_def, Res.ok_bind, hN.reactor_of htr, hcfg]
  split
  · have hkey : encryptionKey S e.id = .ok ek.tx := by
      unfold encryptionKey
      rw [show EncryptionKeyTx.buildId e.id = singleId e.id .encryptionKey from rfl, hek]
      rfl
    simp only [hkey, hv, Res.ok_bind]
    refine firstMixes_total (hN.held' htr).symm ?_
    intro c ws hm seed r
    obtain ⟨hne, hws⟩ := ((contestVotes_spec _).2 c ws).1 hm
    obtain ⟨width, hw1, hw⟩ := hu c
    refine hsw _ _ _ _ width (by simpa using hne) hw1 ?_
    intro row hrow
    obtain ⟨x, hx, rfl⟩ := List.mem_map.1 hrow
    rw [hws] at hx
    obtain ⟨vt, hvt, hx⟩ := List.mem_flatMap.1 hx
    obtain ⟨v, hvm, rfl⟩ := List.mem_map.1 hvt
    obtain ⟨ev, hev, rfl⟩ := List.mem_map.1 hx
    obtain ⟨hev, hc⟩ := List.mem_filter.1 hev
    obtain ⟨g1, g2, -⟩ := (hall.1 (.vote v)).2 ⟨v, hvm, rfl⟩
    exact hw v g1 g2 ev hev (by simpa using hc)
  · exact ⟨_, rfl⟩

theorem prefix_at {s s' : Network} (h : s.ledger <+: s'.ledger) : at' s' s.ledger.length = s.store.toStore := by
  obtain ⟨r, hr⟩ := h
  unfold at'
  rw [← hr, List.take_left]
  rfl

theorem at_all (s : Network) : at' s s.ledger.length = s.store.toStore := prefix_at (List.prefix_refl _)

theorem position_unique {L : List SignedTx} (hn : (L.map SignedTx.id).Nodup) {m m' : Nat} {t t' : SignedTx} (hm : L[m]? = some t) (hm' : L[m']? = some t') (heq : t.id = t'.id) : m = m' := by
  have h1 : (L.map SignedTx.id)[m]? = some t.id := by rw [List.getElem?_map, hm]; rfl
  have h2 : (L.map SignedTx.id)[m']? = some t'.id := by rw [List.getElem?_map, hm']; rfl
  exact (List.getElem?_inj (List.getElem?_eq_some_iff.1 h1).1 hn).1 (h1.trans (by rw [heq, h2]))

theorem complete_mixes (hN : Nodes N K e sk) {Enc : ElGamalKey → Ciphertext → Bytes → Prop} (hM : MixCorrect N fits Enc) (hR : Run N e sk run key) (hW : Works N e run (Enc key))
    (hsw : ShuffleWorks N) (hp : e.mixConfig ≠ none) (hth : e.trusteesThreshold = 1) (evs : List Event) (hq : ∀ ev ∈ evs, FairMix N K e ev)
    (he : ElectionAt (Network.run N evs).store.toStore e.id e) (hu : Uniform (Network.run N evs).store.toStore e)
    {vs : Signed VotingEndTx} (hend : .votingEnd vs ∈ (Network.run N evs).ledger) (hvs : vs.tx.election = e.id)
    (hek : ∃ ek, (Network.run N evs).store.toStore.getTransaction (singleId e.id .encryptionKey) = some (.encryptionKey ek))
    {tr0 : Trustee} (htr0 : tr0 ∈ e.trustees) (h1 : tr0.index = 1) (hk : sk 1 ∈ K) :
    ∃ more : List Event, (∀ ev ∈ more, NodesOnly K ev) ∧
      ∀ (votes : List (Signed VoteTx)) (c : UInt32) (sels : List (List Selection)), AllVotes (Network.run N (evs ++ more)).store.toStore e.id votes → votes.length ≤ 65535 →
        List.Forall₂ (fun v sel => HonestVote N fits key v.tx c sel) votes sels →
        ∃ ds, AllDecryptions (Network.run N (evs ++ more)).store.toStore e c ds ∧ (ds.map (·.tx.decryptedVote)).Perm sels := by
  have rng : Rng := ⟨fun _ => BArr.fill 12 0, fun _ => []⟩
  have hH0 := mixHeld_run hN hR hp evs hq he
  obtain ⟨pe, hpe⟩ := List.getElem?_of_mem hend
  have htr : ({ tr0 with numTrustees := e.trustees.length, threshold := e.trusteesThreshold } : Trustee) ∈ e.getFullTrustees := full_iff.2 ⟨tr0, htr0, rfl⟩
  generalize htrd : ({ tr0 with numTrustees := e.trustees.length, threshold := e.trusteesThreshold } : Trustee) = tr at htr
  have hi1 : tr.index = 1 := by rw [← htrd]; exact h1
  -- trustee 1's node mixes
  obtain ⟨more1, hn1, hp1, hr1⟩ := round N K evs rng [(sk 1, pe)] (by simpa using hk)
  generalize hE1 : evs ++ more1 = E1 at hp1 hr1
  have hq1 : ∀ ev ∈ E1, FairMix N K e ev := by
    subst hE1
    intro ev hev
    rcases List.mem_append.1 hev with hev | hev
    · exact hq ev hev
    · exact fairMix_of_nodes (hn1 ev hev)
  have hpre1 : (Network.run N evs).ledger <+: (Network.run N E1).ledger := by subst hE1; exact run_prefix N _ _
  have he1 : ElectionAt (Network.run N E1).store.toStore e.id e := by subst hE1; exact stored_more _ he
  have hH1 := mixHeld_run hN hR hp E1 hq1 he1
  have hreact1 : (sk 1, pe) ∈ (Network.run N E1).reacted := by
    refine hr1 _ (by simp) _ hpe ?_
    rw [at_all]
    have hV := hH0.view (v := (Network.run N evs).ledger.length) (by rw [at_all]; exact he)
    rw [at_all] at hV
    rw [← hi1]
    exact hV.mixes_made hN hsw hu hp rng htr hvs hek
  -- it decrypts the mixes
  obtain ⟨more2, hn2, hp2, hr2⟩ := round N K E1 rng ((List.range (Network.run N E1).ledger.length).map fun j => (sk 1, j)) (by
    intro p hp
    obtain ⟨j, -, rfl⟩ := List.mem_map.1 hp
    exact hk)
  generalize hE2 : E1 ++ more2 = E2 at hp2 hr2
  have hq2 : ∀ ev ∈ E2, FairMix N K e ev := by
    subst hE2
    intro ev hev
    rcases List.mem_append.1 hev with hev | hev
    · exact hq1 ev hev
    · exact fairMix_of_nodes (hn2 ev hev)
  have hpre2 : (Network.run N E1).ledger <+: (Network.run N E2).ledger := by subst hE2; exact run_prefix N _ _
  have he2 : ElectionAt (Network.run N E2).store.toStore e.id e := by subst hE2; exact stored_more _ he1
  have hH2 := mixHeld_run hN hR hp E2 hq2 he2
  have hreact2 : ∀ (j : Nat) (m : Signed MixTx), (Network.run N E1).ledger[j]? = some (.mix m) → m.tx.id.electionId = e.id.electionId → (sk 1, j) ∈ (Network.run N E2).reacted := by
    intro j m hj hf
    refine hr2 _ (List.mem_map.2 ⟨j, List.mem_range.2 (List.getElem?_eq_some_iff.1 hj).1, rfl⟩) _ hj ?_
    obtain ⟨l, hl, -⟩ := hH1.mix_reacts hth rng htr (u := (Network.run N E1).ledger.length) (by rw [List.take_length]; exact List.mem_of_getElem? hj) hf
    rw [hi1] at hl
    exact ⟨l, hl⟩
  -- and combines the shares
  obtain ⟨more3, hn3, hp3, hr3⟩ := round N K E2 rng ((List.range (Network.run N E2).ledger.length).map fun j => (sk 1, j)) (by
    intro p hp
    obtain ⟨j, -, rfl⟩ := List.mem_map.1 hp
    exact hk)
  generalize hE3 : E2 ++ more3 = E3 at hp3 hr3
  have hq3 : ∀ ev ∈ E3, FairMix N K e ev := by
    subst hE3
    intro ev hev
    rcases List.mem_append.1 hev with hev | hev
    · exact hq2 ev hev
    · exact fairMix_of_nodes (hn3 ev hev)
  have hpre3 : (Network.run N E2).ledger <+: (Network.run N E3).ledger := by subst hE3; exact run_prefix N _ _
  have he3 : ElectionAt (Network.run N E3).store.toStore e.id e := by subst hE3; exact stored_more _ he2
  have hH3 := mixHeld_run hN hR hp E3 hq3 he3
  refine ⟨more1 ++ (more2 ++ more3), ?_, ?_⟩
  · intro ev hev
    simp only [List.mem_append] at hev
    rcases hev with hev | hev | hev
    · exact hn1 ev hev
    · exact hn2 ev hev
    · exact hn3 ev hev
  have : evs ++ (more1 ++ (more2 ++ more3)) = E3 := by
    rw [← hE3, ← hE2, ← hE1]
    simp only [List.append_assoc]
  rw [this]
  intro votes c sels hall hlen hh
  have hpe1 := prefix_get hpre1 hpe
  have hpe3 := prefix_get hpre3 (prefix_get hpre2 hpe1)
  have hvid := hH3.end_id hpe3 hvs
  have hback : ∀ {E : List Event}, (Network.run N E).ledger <+: (Network.run N E3).ledger → (Network.run N E).ledger[pe]? = some (.votingEnd vs) →
      AllVotes (Network.run N E).store.toStore e.id votes := by
    intro E hpre hpeE
    have := (hH3.votes_stay hvid (w := (Network.run N E).ledger.length) (take_mem hpe3 (List.getElem?_eq_some_iff.1 hpeE).1)).2 hall
    rwa [prefix_at hpre] at this
  have hall1 := hback (hpre2.trans hpre3) hpe1
  have hall2 := hback hpre3 (prefix_get hpre2 hpe1)
  refine hH3.contest_result hM hW hall hlen hh fun hne => ?_
  obtain ⟨m, hm, hf, hmc⟩ := hH1.mix_posted (MixCorrect.complete hM) (by rw [hp1]; simp) hpe1 hvs htr0 h1 hreact1 hall1 hne (honest_one hh)
  have hm2 := hpre2.subset hm
  have hm3 := hpre3.subset hm2
  refine ⟨m, hm3, hf, hmc, ?_⟩
  intro j cts sel hj henc
  have hml : m.tx.mixedCiphertexts.length ≤ 65535 := by rw [hH3.mix_length hm3 hf hall]; exact hlen
  obtain ⟨pm, hpm⟩ := List.getElem?_of_mem hm
  have hpost2 := hH2.partial_posted hW hth (by rw [hp2]; simp) (prefix_get hpre2 hpm) hf hml htr (by rw [hi1]; exact hreact2 pm m hpm hf) hj henc
  rw [hmc] at hpost2
  have hT2 := hH2.target hm2 hf hml hj henc
  have hT3 := hH3.target hm3 hf hml hj henc
  rw [hmc] at hT2 hT3
  refine hH3.decryption_posted hT3 (by rw [hp3]; simp) (Q := [1]) (by simp) (by rw [hth]; decide) ?_ (k := sk 1) ⟨tr0, htr0, by rw [← h1]; exact (hN.held tr0 htr0).symm⟩ ?_
  · intro i hi
    rw [List.mem_singleton] at hi
    subst hi
    rw [hi1] at hpost2
    exact mem_ids_prefix hpre3 hpost2
  · intro i hi q t hqt hid
    rw [List.mem_singleton] at hi
    subst hi
    rw [hi1] at hpost2
    obtain ⟨t2, ht2, hid2⟩ := List.mem_map.1 hpost2
    obtain ⟨q2, hq2'⟩ := List.getElem?_of_mem ht2
    have := position_unique hH3.hist.sound.nodup (prefix_get hpre3 hq2') hqt (hid2.trans hid.symm)
    subst this
    exact hr3 _ (List.mem_map.2 ⟨q2, List.mem_range.2 (List.getElem?_eq_some_iff.1 hq2').1, rfl⟩) t2 hq2' (hH2.partial_reacts hW hT2 (by rw [List.take_length]; exact ht2) hid2 rng _)

end Setup
end CB
