import Verif.Lemmas.NetMixFinish
import Verif.Props.NetworkTally
/-!
# C68: networks of nodes mix and decrypt the votes of elections with mixnet
-/

namespace CB
open Spec Server

/-- **C68** (decryptions are right) In an election with mixnet, after every schedule: if the votes are honest in a contest, then the stored decryptions of the contest are what voters
selected, and no voter's selections are counted more often than that voter made them. -/
theorem C68_decryptions_are_right (N : NodeEnv) (fits : Bytes → Prop) (Enc : ElGamalKey → Ciphertext → Bytes → Prop) (hM : MixCorrect N fits Enc) (K : List SecretKey) (e : ElectionTx)
    (sk : UInt8 → SecretKey) (hN : Nodes N K e sk) (hp : e.mixConfig ≠ none) (evs : List Event) (hq : ∀ ev ∈ evs, FairMix N K e ev) (S : Store)
    (hS : S = (Network.run N evs).store.toStore) (he : ElectionAt S e.id e) (ek : Signed EncryptionKeyTx)
    (hek : S.getTransaction (singleId e.id .encryptionKey) = some (.encryptionKey ek)) (votes : List (Signed VoteTx)) (hall : AllVotes S e.id votes) (hlen : votes.length ≤ 65535)
    (c : UInt32) (sels : List (List Selection)) (hh : List.Forall₂ (fun v sel => HonestVote N fits ek.tx.encryptionKey v.tx c sel) votes sels)
    (ds : List (Signed DecryptionTx)) (hnd : ds.Nodup) (hds : ∀ d ∈ ds, InStore S (.decryption d) ∧ d.tx.electionId = e.id ∧ d.tx.contestIndex = c) :
    (ds.map (·.tx.decryptedVote)).Subperm sels := by
  subst hS
  obtain ⟨run, key, hR, hW⟩ := Setup.exists_mixing_run hM hN.trustees sk
  have h := Setup.mixHeld_run hN hR hp evs hq he
  have hkey := h.key_stored hek
  rw [hkey] at hh
  by_cases hnil : ds = []
  · subst hnil
    exact List.nil_subperm
  obtain ⟨d0, hd0⟩ := List.exists_mem_of_ne_nil _ hnil
  obtain ⟨hd0s, hd0e, hd0c⟩ := hds d0 hd0
  obtain ⟨-, -, m, hm, -, hf, hmc, -⟩ := h.decryption_item (h.in_ledger.1 hd0s) (h.decryption_filed (h.in_ledger.1 hd0s) hd0e)
  obtain ⟨sels', hperm, hsl, hright, -⟩ := h.decryptions_right hM hW hall hlen hh hm hf (hmc.trans hd0c)
  have hr : ∀ d ∈ ds, sels'[d.tx.upstreamIndex.toNat]? = some d.tx.decryptedVote := fun d hd => hright d (h.in_ledger.1 (hds d hd).1) (hds d hd).2.1 (hds d hd).2.2
  have h1 : ds.map (·.tx.decryptedVote) = (ds.map (·.tx.upstreamIndex.toNat)).map fun j => sels'.getD j [] := by
    rw [List.map_map]
    refine List.map_congr_left fun d hd => ?_
    simp only [Function.comp, List.getD_eq_getElem?_getD, hr d hd, Option.getD_some]
  have h2 : sels' = (List.range sels'.length).map fun j => sels'.getD j [] := by
    apply List.ext_getElem?
    intro i
    rw [List.getElem?_map]
    by_cases hi : i < sels'.length
    · rw [List.getElem?_eq_getElem hi, List.getElem?_range hi]
      simp [hi]
    · rw [List.getElem?_eq_none (by omega), List.getElem?_eq_none (by simpa using hi)]
      rfl
  refine List.Subperm.trans ?_ hperm.subperm
  rw [h1]
  suffices h3 : (ds.map (·.tx.upstreamIndex.toNat)).Subperm (List.range sels'.length) by
    obtain ⟨l, hl, hs⟩ := h3
    exact .trans ⟨_, hl.map fun j => sels'.getD j [], hs.map _⟩ (List.Perm.of_eq h2.symm).subperm
  refine List.Nodup.subperm ?_ ?_
  · rw [List.nodup_map_iff_inj_on hnd]
    intro a ha b hb hab
    obtain ⟨-, -, hida⟩ := h.decryption_of hm hf (h.in_ledger.1 (hds a ha).1) (hds a ha).2.1 ((hds a ha).2.2.trans (hmc.trans hd0c).symm)
    obtain ⟨-, -, hidb⟩ := h.decryption_of hm hf (h.in_ledger.1 (hds b hb).1) (hds b hb).2.1 ((hds b hb).2.2.trans (hmc.trans hd0c).symm)
    have := h.same (h.in_ledger.1 (hds a ha).1) (h.in_ledger.1 (hds b hb).1) (show a.tx.id = b.tx.id by rw [hida, hidb, hab])
    injection this
  · intro j hj
    obtain ⟨d, hd, rfl⟩ := List.mem_map.1 hj
    exact List.mem_range.2 (List.getElem?_eq_some_iff.1 (hr d hd)).1

/-- **C68** (everything is counted) After every schedule: if voting has ended, one trustee's share is enough to decrypt, the node of trustee 1 has reacted to the end of voting, the
node of some trustee has reacted to the mixes of the contest and the node of some trustee to the partial decryptions of the contest, and nothing of the election is on its way, then the
stored decryptions of the contest are the voters' selections, all of them and each once, in some order. -/
theorem C68_votes_are_mixed_and_decrypted_partial (N : NodeEnv) (fits : Bytes → Prop) (Enc : ElGamalKey → Ciphertext → Bytes → Prop) (hM : MixCorrect N fits Enc) (K : List SecretKey)
    (e : ElectionTx) (sk : UInt8 → SecretKey) (hN : Nodes N K e sk) (hp : e.mixConfig ≠ none) (hth : e.trusteesThreshold = 1) (evs : List Event)
    (hq : ∀ ev ∈ evs, FairMix N K e ev) (s : Network) (hs : s = Network.run N evs) (S : Store) (hS : S = s.store.toStore) (he : ElectionAt S e.id e)
    (ek : Signed EncryptionKeyTx) (hek : S.getTransaction (singleId e.id .encryptionKey) = some (.encryptionKey ek))
    (votes : List (Signed VoteTx)) (hall : AllVotes S e.id votes) (hlen : votes.length ≤ 65535)
    (c : UInt32) (sels : List (List Selection)) (hh : List.Forall₂ (fun v sel => HonestVote N fits ek.tx.encryptionKey v.tx c sel) votes sels)
    (vs : Signed VotingEndTx) (hend : InStore S (.votingEnd vs)) (hvs : vs.tx.election = e.id)
    (hdel : ∀ t ∈ s.pending, t.id.electionId ≠ e.id.electionId)
    (h1 : ∃ tr ∈ e.trustees, tr.index = 1) (hr1 : Reacted s (sk 1) (.votingEnd vs))
    (i : UInt8) (hi : ∃ tr ∈ e.trustees, tr.index = i)
    (hri : ∀ m : Signed MixTx, InStore S (.mix m) → m.tx.electionId = e.id → m.tx.contestIndex = c → Reacted s (sk i) (.mix m))
    (k : SecretKey) (hk : TrusteeKey e (N.edPublic k))
    (hkr : ∀ p : Signed PartialDecryptionTx, InStore S (.partialDecryption p) → p.tx.electionId = e.id → p.tx.contestIndex = c → Reacted s k (.partialDecryption p)) :
    ∃ ds, AllDecryptions S e c ds ∧ (ds.map (·.tx.decryptedVote)).Perm sels := by
  subst hS hs
  obtain ⟨run, key, hR, hW⟩ := Setup.exists_mixing_run hM hN.trustees sk
  have h := Setup.mixHeld_run hN hR hp evs hq he
  have hkey := h.key_stored hek
  rw [hkey] at hh
  refine h.contest_result hM hW hall hlen hh fun hne => ?_
  obtain ⟨p, hpp, hpr⟩ := hr1
  obtain ⟨tr1, htr1, hi1⟩ := h1
  obtain ⟨m, hm, hf, hmc⟩ := h.mix_posted (Setup.MixCorrect.complete hM) hdel hpp hvs htr1 hi1 hpr hall hne (Setup.honest_one hh)
  refine ⟨m, hm, hf, hmc, ?_⟩
  intro j cts sel hj henc
  have hml : m.tx.mixedCiphertexts.length ≤ 65535 := by rw [h.mix_length hm hf hall]; exact hlen
  obtain ⟨j0, hj0⟩ := List.getElem?_of_mem hm
  obtain ⟨pm, hpm, hpmr⟩ := hri m (h.in_ledger.2 hm) (h.mix_at hj0 hf).1 hmc
  obtain ⟨tr0, htr0, rfl⟩ := hi
  have htr : ({ tr0 with numTrustees := e.trustees.length, threshold := e.trusteesThreshold } : Trustee) ∈ e.getFullTrustees := Setup.full_iff.2 ⟨tr0, htr0, rfl⟩
  have hpost : PartialDecryptionTx.buildId e.id m.tx.id m.tx.contestIndex (UInt16.ofNat j) tr0.index ∈ _ := h.partial_posted hW hth hdel hpm hf hml htr hpmr hj henc
  have hT := h.target hm hf hml hj henc
  rw [hmc] at hT hpost
  refine h.decryption_posted hT hdel (Q := [tr0.index]) (by simp) (by rw [hth]; exact Nat.le_refl 1) (by simpa using hpost) hk ?_
  intro i hi q t hqt hid
  rw [List.mem_singleton] at hi
  subst hi
  obtain ⟨tr, -, -, ds, -, heq⟩ := hT.partials t (List.mem_of_getElem? hqt) _ hid
  have hst := h.in_ledger.2 (List.mem_of_getElem? hqt)
  rw [heq] at hst
  obtain ⟨q', hq', hr⟩ := hkr _ hst rfl rfl
  have := Setup.position_unique h.hist.sound.nodup hqt hq' (by rw [heq]; rfl)
  subst this
  exact hr

/-- **C68** (and that can always be reached) From every state in which voting has ended, if one trustee's share is enough to decrypt and the encrypted votes of each contest are of one
shape, deliveries and reactions of the node of trustee 1 alone lead to a state in which the following holds for every contest in which the votes are honest: the stored decryptions of
the contest are the voters' selections, all of them and each once, in some order. -/
theorem C68_tally_can_be_completed_partial (N : NodeEnv) (fits : Bytes → Prop) (Enc : ElGamalKey → Ciphertext → Bytes → Prop) (hM : MixCorrect N fits Enc) (hsw : ShuffleWorks N)
    (K : List SecretKey) (e : ElectionTx) (sk : UInt8 → SecretKey) (hN : Nodes N K e sk) (hp : e.mixConfig ≠ none) (hth : e.trusteesThreshold = 1) (evs : List Event)
    (hq : ∀ ev ∈ evs, FairMix N K e ev) (S₀ : Store) (hS₀ : S₀ = (Network.run N evs).store.toStore) (he : ElectionAt S₀ e.id e) (hu : Uniform S₀ e)
    (ek : Signed EncryptionKeyTx) (hek : S₀.getTransaction (singleId e.id .encryptionKey) = some (.encryptionKey ek))
    (vs : Signed VotingEndTx) (hend : InStore S₀ (.votingEnd vs)) (hvs : vs.tx.election = e.id) (h1 : ∃ tr ∈ e.trustees, tr.index = 1) (hk : sk 1 ∈ K) :
    ∃ more : List Event, (∀ ev ∈ more, NodesOnly K ev) ∧ ∀ S : Store, S = (Network.run N (evs ++ more)).store.toStore →
      ∀ votes : List (Signed VoteTx), AllVotes S e.id votes → votes.length ≤ 65535 →
      ∀ (c : UInt32) (sels : List (List Selection)), List.Forall₂ (fun v sel => HonestVote N fits ek.tx.encryptionKey v.tx c sel) votes sels →
        ∃ ds, AllDecryptions S e c ds ∧ (ds.map (·.tx.decryptedVote)).Perm sels := by
  subst hS₀
  obtain ⟨run, key, hR, hW⟩ := Setup.exists_mixing_run hM hN.trustees sk
  have h := Setup.mixHeld_run hN hR hp evs hq he
  have hkey := h.key_stored hek
  obtain ⟨tr0, htr0, hi⟩ := h1
  obtain ⟨more, hmore, hdone⟩ := Setup.complete_mixes hN hM hR hW hsw hp hth evs hq he hu (h.in_ledger.1 hend) hvs ⟨ek, hek⟩ htr0 hi hk
  refine ⟨more, hmore, ?_⟩
  rintro S rfl votes hall hlen c sels hh
  rw [hkey] at hh
  exact hdone votes c sels hall hlen hh

/-- **C68, what is missing** After every schedule: a stored decryption or partial decryption of an election with mixnet shows that one trustee's share is enough to decrypt, and that
every vote has exactly one encrypted vote for the contest.  So the nodes never decrypt anything of an election with mixnet in which two trustees have to take part, and nothing of a
contest that one voter has left out. -/
theorem C68_what_decryptions_take (N : NodeEnv) (fits : Bytes → Prop) (hF : ThresholdCorrect N fits) (K : List SecretKey) (e : ElectionTx)
    (sk : UInt8 → SecretKey) (hN : Nodes N K e sk) (hp : e.mixConfig ≠ none) (evs : List Event) (hq : ∀ ev ∈ evs, FairMix N K e ev) (S : Store)
    (hS : S = (Network.run N evs).store.toStore) (he : ElectionAt S e.id e) (c : UInt32)
    (hd : (∃ d : Signed DecryptionTx, InStore S (.decryption d) ∧ d.tx.electionId = e.id ∧ d.tx.contestIndex = c) ∨
      ∃ p : Signed PartialDecryptionTx, InStore S (.partialDecryption p) ∧ p.tx.electionId = e.id ∧ p.tx.contestIndex = c) :
    e.trusteesThreshold = 1 ∧ ∀ v : Signed VoteTx, InStore S (.vote v) → v.tx.election = e.id → (v.tx.encryptedVotes.filter fun ev => ev.contestIndex = c).length = 1 := by
  subst hS
  obtain ⟨run, key, hR, -⟩ := Setup.exists_working_run hF hN.trustees sk
  have h := Setup.mixHeld_run hN hR hp evs hq he
  suffices hm : e.trusteesThreshold = 1 ∧ ∃ m : Signed MixTx, .mix m ∈ (Network.run N evs).ledger ∧ m.tx.id.electionId = e.id.electionId ∧ m.tx.contestIndex = c by
    obtain ⟨h1, m, hm, hf, hmc⟩ := hm
    refine ⟨h1, fun v hv hve => ?_⟩
    obtain ⟨i, hi⟩ := List.getElem?_of_mem hm
    obtain ⟨-, -, -, tr, votes, r, out, proof, -, hall, hone, -⟩ := h.mix_honest hi hf
    rw [← hmc]
    refine hone v ?_
    obtain ⟨j, hj⟩ := List.getElem?_of_mem (h.in_ledger.1 hv)
    obtain ⟨hid, -⟩ := (VoteTx.validateTx_ok (h.hist.sound.ledger j).lawful).1 (SignedTx.validate_ok.1 (h.hist.accepted j _ hj)).2.2
    obtain ⟨w, hw, heq⟩ := (hall.1 (.vote v)).1 ⟨hv, by show v.tx.id.electionId = _; rw [hid, hve]; rfl, by show v.tx.id.txType = _; rw [hid]; rfl⟩
    injection heq with heq
    rw [heq]
    exact hw
  rcases hd with ⟨d, hd, hde, hdc⟩ | ⟨p, hp, hpe, hpc⟩
  · have hd := h.in_ledger.1 hd
    obtain ⟨-, -, m, hm, -, hf, hmc, -⟩ := h.decryption_item hd (h.decryption_filed hd hde)
    exact ⟨h.decryption_threshold hd hde, m, hm, hf, hmc.trans hdc⟩
  · have hp := h.in_ledger.1 hp
    obtain ⟨j, hj⟩ := List.getElem?_of_mem hp
    obtain ⟨-, -, -, hid, -⟩ := PartialDecryptionTx.validateTx_ok.1 (SignedTx.validate_ok.1 (h.hist.accepted j _ hj)).2.2
    obtain ⟨h1, tr, -, m, hm, hf, _, _, -, _, -, heq⟩ := h.partial_honest hp (by show p.tx.id.electionId = _; rw [hid, hpe]; rfl) rfl
    refine ⟨h1, m, hm, hf, ?_⟩
    injection heq with heq
    rw [← hpc, heq]
    rfl

/-! ## An election of two votes -/

namespace Toy

theorem node_mix : MixCorrect node (fun _ => True) fun _ c m => c.raw = m where
  encrypt _ _ _ _ := rfl
  shuffle := by
    intro seed inputs key random out proof h
    refine ⟨(node_shuffle _ _ _ _ _ _ h).2, inputs.reverse, inputs.reverse_perm, ?_⟩
    have : out = inputs.reverse := by
      have h : Except.ok (inputs.reverse, (⟨[]⟩ : ShuffleProof)) = Except.ok (ε := CryptoError) (out, proof) := h
      cases h
      rfl
    subst this
    exact List.forall₂_same.2 fun x _ => List.forall₂_same.2 fun c _ m h => h
  threshold := by
    intro I t seed hI hb ht hle
    have hc : ∀ (l : List Nat) (g : node.Gen), l.foldlM (fun g k => node.genReceiveCommitment g k (node.genCommitment (node.genNew (seed k) k t I.length))) g = .ok g := by
      intro l
      induction l with
      | nil => intro g; rfl
      | cons a l ih => exact fun g => ih g
    have hs : ∀ (l : List Nat) (g : node.Gen), l.foldlM (fun g k => node.genReceiveShare g k ⟨[1]⟩) g = .ok g := by
      intro l
      induction l with
      | nil => intro g; rfl
      | cons a l ih => exact fun g => ih g
    refine ⟨⟨fun i => i, fun _ _ => ⟨[1]⟩, fun i => i⟩, ⟨[5]⟩, ?_, fun _ _ => rfl, ?_⟩
    · intro i hi
      exact ⟨hc I _, fun j _ => ⟨rfl, rfl⟩, i, hs I _, rfl⟩
    · intro c m hm
      refine ⟨fun i _ rnd => by show (_ == _) = true; simp [node], fun Q rnd hQ hQI hlen => ?_⟩
      show (if t ≤ _ then _ else _) = _
      rw [if_pos]
      · rw [hm]
      · rw [List.map_map]
        refine Nat.le_trans hlen (List.Nodup.subperm (l₂ := List.eraseDups _) hQ fun i hi => ?_).length_le
        rw [List.mem_eraseDups]
        exact List.mem_map.2 ⟨i, hi, rfl⟩

theorem node_shuffles : ShuffleWorks node := fun _ _ _ _ _ _ _ _ => ⟨_, rfl⟩

/-- an election with mixnet in which any of the two trustees can decrypt -/
def soloElection : ElectionTx := { election with trusteesThreshold := 1 }
def soloTx : SignedTx := .election ⟨soloElection, sig 1⟩

theorem soloNodes : Nodes node nodeKeys3 soloElection trusteeKey where
  trustees := ⟨by decide +kernel, by decide +kernel, by decide +kernel, by decide +kernel⟩
  keys := by decide +kernel
  held := by decide +kernel
  only := by decide +kernel
  sign := node_sign
  aes := aes_correct
  dh := dh_agrees

/-- and one in which both have to -/
theorem bothNodes : Nodes node nodeKeys3 election trusteeKey where
  trustees := ⟨by decide +kernel, by decide +kernel, by decide +kernel, by decide +kernel⟩
  keys := by decide +kernel
  held := by decide +kernel
  only := by decide +kernel
  sign := node_sign
  aes := aes_correct
  dh := dh_agrees

/-- set-up, the given submissions, the end of voting -/
def pollWith (tx : SignedTx) (subs : List SignedTx) : List Event :=
  [.submit tx, .deliver 0] ++ roundOn nodeKeys3 0 1 ++ roundOn nodeKeys3 1 3 ++ roundOn nodeKeys3 3 5 ++ roundOn nodeKeys3 5 7 ++
    (subs ++ [endTx]).map .submit ++ List.replicate (subs.length + 1) (.deliver 0)

/-- … trustee 1's node mixes, and trustee 2's node decrypts -/
def mixedTally : List Event :=
  pollWith soloTx [voteTx 31 "a", voteTx 32 "b"] ++ roundOn [key 11] 8 11 ++ roundOn [key 12] 11 12 ++ roundOn [key 12] 12 14

theorem roundOn_fairMix {N : NodeEnv} {K ks : List SecretKey} {e : ElectionTx} (hk : ∀ k ∈ ks, k ∈ K) (a b : Nat) : ∀ ev ∈ roundOn ks a b, FairMix N K e ev := by
  intro ev hev
  simp only [roundOn, List.mem_append, List.mem_flatMap, List.mem_map, List.mem_replicate] at hev
  rcases hev with ⟨k, hk', m, -, rfl⟩ | ⟨-, rfl⟩
  · exact hk k hk'
  · trivial

theorem poll_fair {N : NodeEnv} {e : ElectionTx} (he : e.id = eid) {x : Signed ElectionTx} {subs : List SignedTx} (hs : ∀ t ∈ subs, ∃ v, t = .vote v) :
    ∀ ev ∈ pollWith (.election x) subs, FairMix N nodeKeys3 e ev := by
  intro ev hev
  simp only [pollWith, List.mem_append, List.mem_cons, List.not_mem_nil, or_false, List.mem_map, List.mem_replicate] at hev
  rcases hev with ((((((rfl | rfl) | h) | h) | h) | h) | ⟨t, ht | rfl, rfl⟩) | ⟨-, rfl⟩
  · exact ⟨fun _ => ⟨by simp [SetupKind, kindOf], by simp [kindOf]⟩, fun _ h => (by cases h), fun _ h => (by cases h)⟩
  · trivial
  iterate 4 exact roundOn_fairMix (fun _ h => h) _ _ ev h
  · obtain ⟨v, rfl⟩ := hs t ht
    exact ⟨fun _ => ⟨by simp [SetupKind, kindOf], by simp [kindOf]⟩, fun _ h => (by cases h), fun _ h => (by cases h)⟩
  · refine ⟨fun _ => ⟨by simp [SetupKind, kindOf, endTx], by simp [kindOf, endTx]⟩, fun y h _ _ _ => ?_, fun _ h => (by cases h)⟩
    cases h
    rw [he]
    rfl
  · trivial

theorem mixedTally_fair : ∀ ev ∈ mixedTally, FairMix node nodeKeys3 soloElection ev := by
  intro ev hev
  simp only [mixedTally, List.mem_append] at hev
  rcases hev with ((h | h) | h) | h
  · exact poll_fair rfl (by simp [voteTx]) ev h
  all_goals exact roundOn_fairMix (by decide +kernel) _ _ ev h

theorem solo_stored (subs : List SignedTx) (more : List Event) : ElectionAt (Network.run node (pollWith soloTx subs ++ more)).store.toStore eid soloElection := by
  unfold pollWith
  simp only [List.append_assoc]
  exact stored_later (e := soloElection) ⟨sig 1, by rfl⟩

theorem both_stored (subs : List SignedTx) (more : List Event) : ElectionAt (Network.run node (pollWith (electionTx) subs ++ more)).store.toStore eid election := by
  unfold pollWith
  simp only [List.append_assoc]
  exact stored_later (e := election) ⟨sig 1, by rfl⟩

theorem end_of_check {s : Network} (hn : (s.ledger.map SignedTx.id).Nodup) {i : Nat} {v : Signed VotingEndTx}
    (h : (match s.ledger[i]? with | some (.votingEnd w) => decide (w = v) | _ => false) = true) : InStore s.store.toStore (.votingEnd v) ∧ s.ledger[i]? = some (.votingEnd v) := by
  split at h
  · rename_i w hw
    have := of_decide_eq_true h
    subst this
    exact ⟨(Network.stored_iff_mem hn _).2 (List.mem_of_getElem? hw), hw⟩
  · cases h

/-- what a ledger of votes and other things says about the votes of an election -/
theorem votes_of_check {s : Network} (hn : (s.ledger.map SignedTx.id).Nodup) {e : Identifier} {votes : List (Signed VoteTx)}
    (h : decide ((s.ledger.filterMap fun t => match t with | .vote v => if v.tx.id.electionId = e.electionId ∧ v.tx.id.txType = .vote then some v else none | _ => none) = votes) = true)
    (ht : s.ledger.all (fun t => decide (t.id.txType = .vote → kindOf t = .vote)) = true)
    (ho : (votes.map SignedTx.vote).Pairwise IdLt) : AllVotes s.store.toStore e votes := by
  replace h := of_decide_eq_true h
  refine ⟨fun t => ?_, ho⟩
  have hst := Network.stored_iff_mem hn t
  constructor
  · rintro ⟨h1, h2, h3⟩
    replace h1 := hst.1 h1
    have hk := of_decide_eq_true ((List.all_eq_true.1 ht) t h1) h3
    cases t <;> simp [kindOf] at hk
    rename_i v
    refine ⟨v, ?_, rfl⟩
    rw [← h, List.mem_filterMap]
    exact ⟨_, h1, if_pos ⟨h2, h3⟩⟩
  · rintro ⟨v, hv, rfl⟩
    rw [← h, List.mem_filterMap] at hv
    obtain ⟨t, h1, h2⟩ := hv
    cases t <;> simp at h2
    obtain ⟨⟨h3, h4⟩, rfl⟩ := h2
    exact ⟨hst.2 h1, h3, h4⟩

def splitOf (k : UInt8) (c : UInt32) (name : String) : Signed VoteTx := ⟨vote (key k) [auth 21 (key k)] [⟨c, [ct name]⟩], sig k⟩

/-- the votes with keys 31 and 32 in the order of their ids -/
theorem two_sorted {a b : Signed VoteTx} (ha : a.tx.id = VoteTx.buildId eid (key 31) := by rfl) (hb : b.tx.id = VoteTx.buildId eid (key 32) := by rfl) : ([a, b].map SignedTx.vote).Pairwise IdLt := by
  simp only [List.map, List.pairwise_cons, List.mem_cons, List.not_mem_nil, or_false, forall_eq, false_imp_iff, implies_true, List.Pairwise.nil, and_true]
  show IdLt _ _
  unfold IdLt
  simp only [SignedTx.id, ha, hb]
  decide +kernel

theorem uniform_of_one {N : NodeEnv} {evs : List Event} {e : ElectionTx} {votes : List (Signed VoteTx)} (hall : AllVotes (Network.run N evs).store.toStore e.id votes)
    (h : (votes.all fun v => v.tx.encryptedVotes.all fun ev => decide (ev.selections.length = 1)) = true) : Uniform (Network.run N evs).store.toStore e := by
  refine fun c => ⟨1, Nat.le_refl 1, fun v hv hf ev hev _ => ?_⟩
  obtain ⟨w, hw, heq⟩ := (hall.1 (.vote v)).1 ⟨hv, hf, (Network.sound_run N evs).whole.replay.typedStore _ hv⟩
  cases heq
  exact of_decide_eq_true (List.all_eq_true.1 (List.all_eq_true.1 h v hw) ev hev)

/-- the votes stay the same once voting has ended -/
theorem votes_later {K : List SecretKey} {e : ElectionTx} {sk : UInt8 → SecretKey} {evs more : List Event} (hN : Nodes node K e sk) (hp : e.mixConfig ≠ none)
    (hq : ∀ ev ∈ evs ++ more, FairMix node K e ev) (he : ElectionAt (Network.run node evs).store.toStore e.id e) {vs : Signed VotingEndTx}
    (hend : InStore (Network.run node evs).store.toStore (.votingEnd vs)) (hvs : vs.tx.election = e.id) {votes : List (Signed VoteTx)}
    (hall : AllVotes (Network.run node evs).store.toStore e.id votes) : AllVotes (Network.run node (evs ++ more)).store.toStore e.id votes := by
  obtain ⟨run, key, hR, -⟩ := Setup.exists_working_run node_threshold hN.trustees sk
  have h0 := Setup.mixHeld_run hN hR hp evs (fun ev hev => hq ev (List.mem_append_left _ hev)) he
  have h := Setup.mixHeld_run hN hR hp _ hq (Setup.stored_more more he)
  obtain ⟨i, hi⟩ := List.getElem?_of_mem (h0.in_ledger.1 hend)
  have hpre := Setup.run_prefix node evs more
  have hi' := Setup.prefix_get hpre hi
  refine (h.votes_stay (h.end_id hi' hvs) (w := (Network.run node evs).ledger.length) ?_).1 ?_
  · exact Setup.take_mem hi' (List.getElem?_eq_some_iff.1 hi).1
  · rw [Setup.prefix_at hpre]
    exact hall

theorem honest_a : HonestVote node (fun _ => True) encOf.tx.encryptionKey (voteOf 31 "a").tx 0 [sel "a"] :=
  ⟨by
    intro x hx
    rw [List.mem_singleton] at hx
    subst hx
    exact ⟨⟨by decide +kernel, by decide +kernel⟩, trivial⟩, rng, by decide +kernel⟩

theorem honest_b : HonestVote node (fun _ => True) encOf.tx.encryptionKey (voteOf 32 "b").tx 0 [sel "b"] :=
  ⟨by
    intro x hx
    rw [List.mem_singleton] at hx
    subst hx
    exact ⟨⟨by decide +kernel, by decide +kernel⟩, trivial⟩, rng, by decide +kernel⟩

end Toy

/-- The schedule meets the hypotheses: 16 transactions, of which the last two are decryptions. -/
example : (∀ ev ∈ Toy.mixedTally, FairMix Toy.node Toy.nodeKeys3 Toy.soloElection ev) ∧ Nodes Toy.node Toy.nodeKeys3 Toy.soloElection Toy.trusteeKey ∧
    MixCorrect Toy.node (fun _ => True) (fun _ c m => c.raw = m) ∧ ShuffleWorks Toy.node ∧ Toy.soloElection.mixConfig ≠ none ∧ Toy.soloElection.trusteesThreshold = 1 ∧
    ElectionAt (Network.run Toy.node Toy.mixedTally).store.toStore Toy.soloElection.id Toy.soloElection ∧
    (Network.run Toy.node Toy.mixedTally).store.toStore.getTransaction (singleId Toy.soloElection.id .encryptionKey) = some (.encryptionKey Toy.encOf) ∧
    AllVotes (Network.run Toy.node Toy.mixedTally).store.toStore Toy.soloElection.id [Toy.voteOf 31 "a", Toy.voteOf 32 "b"] ∧
    List.Forall₂ (fun v sel => HonestVote Toy.node (fun _ => True) Toy.encOf.tx.encryptionKey v.tx 0 sel) [Toy.voteOf 31 "a", Toy.voteOf 32 "b"] [[Toy.sel "a"], [Toy.sel "b"]] ∧
    InStore (Network.run Toy.node Toy.mixedTally).store.toStore (.votingEnd Toy.endOf) ∧ Reacted (Network.run Toy.node Toy.mixedTally) (Toy.trusteeKey 1) (.votingEnd Toy.endOf) ∧
    (Network.run Toy.node Toy.mixedTally).pending = [] ∧
    ((Network.run Toy.node Toy.mixedTally).ledger.drop 8).map kindOf = [.vote, .vote, .votingEnd, .mix, .partialDecryption, .partialDecryption, .decryption, .decryption] ∧
    (∀ m ∈ [11, 12, 13], (Toy.trusteeKey 2, m) ∈ (Network.run Toy.node Toy.mixedTally).reacted) := by
  have hn := (Network.sound_run Toy.node Toy.mixedTally).nodup
  obtain ⟨hend, hpos⟩ := Toy.end_of_check hn (i := 10) (v := Toy.endOf) (by decide +kernel)
  refine ⟨Toy.mixedTally_fair, Toy.soloNodes, Toy.node_mix, Toy.node_shuffles, by simp [Toy.soloElection, Toy.election], rfl, ?_, ?_, ?_, ?_, hend, ⟨10, hpos, by decide +kernel⟩, ?_,
    by decide +kernel, by decide +kernel⟩
  · unfold Toy.mixedTally
    simp only [List.append_assoc]
    exact Toy.solo_stored _ _
  · exact Toy.key_of_check (by decide +kernel)
  · refine Toy.votes_of_check hn (by decide +kernel) (by decide +kernel) Toy.two_sorted
  · exact .cons Toy.honest_a (.cons Toy.honest_b .nil)
  · rw [← List.isEmpty_iff]
    decide +kernel

/-! ## What the nodes do not manage -/

/-- **C68** is false without the threshold of 1: two honest votes in an election with mixnet whose two trustees both have to take part, and all nodes are up; whatever they do, the votes
are not decrypted. -/
theorem C68_tally_can_be_completed_false :
    ¬ ∀ (N : NodeEnv) (fits : Bytes → Prop) (Enc : ElGamalKey → Ciphertext → Bytes → Prop), MixCorrect N fits Enc → ShuffleWorks N → ∀ (K : List SecretKey) (e : ElectionTx)
      (sk : UInt8 → SecretKey), Nodes N K e sk → AllRun N K e sk → e.mixConfig ≠ none → ∀ evs : List Event, (∀ ev ∈ evs, FairMix N K e ev) →
      ∀ S₀ : Store, S₀ = (Network.run N evs).store.toStore → ElectionAt S₀ e.id e → Uniform S₀ e →
      ∀ ek : Signed EncryptionKeyTx, S₀.getTransaction (singleId e.id .encryptionKey) = some (.encryptionKey ek) →
      ∀ vs : Signed VotingEndTx, InStore S₀ (.votingEnd vs) → vs.tx.election = e.id →
      ∃ more : List Event, (∀ ev ∈ more, NodesOnly K ev) ∧ ∀ S : Store, S = (Network.run N (evs ++ more)).store.toStore →
        ∀ votes : List (Signed VoteTx), AllVotes S e.id votes → votes.length ≤ 65535 →
        ∀ (c : UInt32) (sels : List (List Selection)), List.Forall₂ (fun v sel => HonestVote N fits ek.tx.encryptionKey v.tx c sel) votes sels →
          ∃ ds, AllDecryptions S e c ds ∧ (ds.map (·.tx.decryptedVote)).Perm sels := by
  intro h
  have hn := (Network.sound_run Toy.node (Toy.pollWith (Toy.electionTx) [Toy.voteTx 31 "a", Toy.voteTx 32 "b"])).nodup
  have hfair : ∀ ev ∈ Toy.pollWith (Toy.electionTx) [Toy.voteTx 31 "a", Toy.voteTx 32 "b"], FairMix Toy.node Toy.nodeKeys3 Toy.election ev := Toy.poll_fair rfl (by simp [Toy.voteTx])
  have hst := Toy.both_stored [Toy.voteTx 31 "a", Toy.voteTx 32 "b"] []
  rw [List.append_nil] at hst
  obtain ⟨hend, -⟩ := Toy.end_of_check hn (i := 10) (v := Toy.endOf) (by decide +kernel)
  have hall : AllVotes (Network.run Toy.node (Toy.pollWith (Toy.electionTx) [Toy.voteTx 31 "a", Toy.voteTx 32 "b"])).store.toStore Toy.eid [Toy.voteOf 31 "a", Toy.voteOf 32 "b"] :=
    Toy.votes_of_check hn (by decide +kernel) (by decide +kernel) Toy.two_sorted
  obtain ⟨more, hmore, hdone⟩ := h Toy.node _ _ Toy.node_mix Toy.node_shuffles Toy.nodeKeys3 Toy.election Toy.trusteeKey Toy.bothNodes
    ⟨by decide +kernel, Toy.key 1, by decide +kernel, by decide +kernel⟩ (by simp [Toy.election]) _ hfair _ rfl hst (Toy.uniform_of_one hall (by decide +kernel)) Toy.encOf
    (Toy.key_of_check (by decide +kernel)) Toy.endOf hend rfl
  have hfair' : ∀ ev ∈ Toy.pollWith (Toy.electionTx) [Toy.voteTx 31 "a", Toy.voteTx 32 "b"] ++ more, FairMix Toy.node Toy.nodeKeys3 Toy.election ev := by
    intro ev hev
    rcases List.mem_append.1 hev with h | h
    · exact hfair ev h
    · exact Setup.fairMix_of_nodes (hmore ev h)
  have hst' := Toy.both_stored [Toy.voteTx 31 "a", Toy.voteTx 32 "b"] more
  obtain ⟨ds, hds, hperm⟩ := hdone _ rfl _ (Toy.votes_later Toy.bothNodes (by simp [Toy.election]) hfair' hst hend rfl hall) (by decide) 0 _ (.cons Toy.honest_a (.cons Toy.honest_b .nil))
  obtain ⟨d, hd⟩ : ∃ d, d ∈ ds := by
    cases ds with
    | nil => have := hperm.length_eq; simp at this
    | cons d _ => exact ⟨d, by simp⟩
  have := (C68_what_decryptions_take Toy.node _ Toy.node_threshold Toy.nodeKeys3 Toy.election Toy.trusteeKey Toy.bothNodes (by simp [Toy.election]) _ hfair' _ rfl hst' 0
    (.inl ⟨d, (hds.2 d).1 hd⟩)).1
  exact absurd this (by decide)

/-- **C68** is false for voters who leave a contest out: one voter votes in contest 0 and another in contest 1; whatever the nodes do, neither vote is decrypted. -/
theorem C68_left_out_contest_false :
    ¬ ∀ (N : NodeEnv) (fits : Bytes → Prop) (Enc : ElGamalKey → Ciphertext → Bytes → Prop), MixCorrect N fits Enc → ShuffleWorks N → ∀ (K : List SecretKey) (e : ElectionTx)
      (sk : UInt8 → SecretKey), Nodes N K e sk → AllRun N K e sk → e.mixConfig ≠ none → e.trusteesThreshold = 1 → ∀ evs : List Event, (∀ ev ∈ evs, FairMix N K e ev) →
      ∀ S₀ : Store, S₀ = (Network.run N evs).store.toStore → ElectionAt S₀ e.id e → Uniform S₀ e →
      ∀ ek : Signed EncryptionKeyTx, S₀.getTransaction (singleId e.id .encryptionKey) = some (.encryptionKey ek) →
      ∀ vs : Signed VotingEndTx, InStore S₀ (.votingEnd vs) → vs.tx.election = e.id →
      ∃ more : List Event, (∀ ev ∈ more, NodesOnly K ev) ∧ ∀ S : Store, S = (Network.run N (evs ++ more)).store.toStore →
        ∀ v : Signed VoteTx, InStore S (.vote v) → v.tx.election = e.id → ∀ (c : UInt32) (sel : List Selection), HonestVote N fits ek.tx.encryptionKey v.tx c sel →
          ∃ d : Signed DecryptionTx, InStore S (.decryption d) ∧ d.tx.electionId = e.id ∧ d.tx.contestIndex = c ∧ d.tx.decryptedVote = sel := by
  intro h
  have hn := (Network.sound_run Toy.node (Toy.pollWith Toy.soloTx [splitVote 31 0 "a", splitVote 32 1 "b"])).nodup
  have hfair : ∀ ev ∈ Toy.pollWith Toy.soloTx [splitVote 31 0 "a", splitVote 32 1 "b"], FairMix Toy.node Toy.nodeKeys3 Toy.soloElection ev := Toy.poll_fair rfl (by simp [splitVote])
  have hst := Toy.solo_stored [splitVote 31 0 "a", splitVote 32 1 "b"] []
  rw [List.append_nil] at hst
  obtain ⟨hend, -⟩ := Toy.end_of_check hn (i := 10) (v := Toy.endOf) (by decide +kernel)
  have hall : AllVotes (Network.run Toy.node (Toy.pollWith Toy.soloTx [splitVote 31 0 "a", splitVote 32 1 "b"])).store.toStore Toy.eid [Toy.voteOf 31 "a", Toy.splitOf 32 1 "b"] :=
    Toy.votes_of_check hn (by decide +kernel) (by decide +kernel) Toy.two_sorted
  obtain ⟨more, hmore, hdone⟩ := h Toy.node _ _ Toy.node_mix Toy.node_shuffles Toy.nodeKeys3 Toy.soloElection Toy.trusteeKey Toy.soloNodes
    ⟨by decide +kernel, Toy.key 1, by decide +kernel, by decide +kernel⟩ (by simp [Toy.soloElection, Toy.election]) rfl _ hfair _ rfl hst (Toy.uniform_of_one hall (by decide +kernel)) Toy.encOf
    (Toy.key_of_check (by decide +kernel)) Toy.endOf hend rfl
  have hfair' : ∀ ev ∈ Toy.pollWith Toy.soloTx [splitVote 31 0 "a", splitVote 32 1 "b"] ++ more, FairMix Toy.node Toy.nodeKeys3 Toy.soloElection ev := by
    intro ev hev
    rcases List.mem_append.1 hev with h | h
    · exact hfair ev h
    · exact Setup.fairMix_of_nodes (hmore ev h)
  have hst' := Toy.solo_stored [splitVote 31 0 "a", splitVote 32 1 "b"] more
  have hall' := Toy.votes_later Toy.soloNodes (by simp [Toy.soloElection, Toy.election]) hfair' hst hend rfl hall
  have hin : ∀ v ∈ [Toy.voteOf 31 "a", Toy.splitOf 32 1 "b"], InStore (Network.run Toy.node (Toy.pollWith Toy.soloTx [splitVote 31 0 "a", splitVote 32 1 "b"] ++ more)).store.toStore (.vote v) :=
    fun v hv => ((hall'.1 (.vote v)).2 ⟨v, hv, rfl⟩).1
  obtain ⟨d, hd, hde, hdc, -⟩ := hdone _ rfl (Toy.voteOf 31 "a") (hin _ (by simp)) rfl 0 _ Toy.honest_a
  have := (C68_what_decryptions_take Toy.node _ Toy.node_threshold Toy.nodeKeys3 Toy.soloElection Toy.trusteeKey Toy.soloNodes (by simp [Toy.soloElection, Toy.election]) _ hfair' _ rfl hst' 0
    (.inl ⟨d, hd, hde, hdc⟩)).2 (Toy.splitOf 32 1 "b") (hin _ (by simp)) rfl
  exact absurd this (by decide)

end CB
