import Verif.Spec.Views
import Verif.Props.Verifiable
import Verif.Props.E2eHonest
import Verif.Props.Finality
/-!
# C105: what a node can make of an election for those who verify it
-/

namespace CB
open Spec

/-! ## Helpers -/

theorem soundKeys_shown {E : Env} {plain : ElGamalKey → Ciphertext → Bytes} {S R : Store} (hf : NothingForged S R) {e : ElectionTx} {key : ElGamalKey} (h : SoundKeys E plain R e key) :
    SoundKeys E plain S e key := by
  obtain ⟨proof, h1, h2⟩ := h
  exact ⟨proof, h1, fun pk hpk => h2 pk (hf.signed _ hpk (by simp) (by simp))⟩

/-- an item that is shown is the item on the ledger, if a transaction is stored there under its id -/
theorem item_real {E : Env} {m m' : MemStore} (hm : Ledger E m) (hm' : Ledger E m') (hf : NothingForged m.toStore m'.toStore) {up : Identifier} {n n' : UInt16} {c c' : UInt32}
    {cfg cfg' : Option MixConfig} {cts cts' : List Ciphertext} (h : ItemAt m.toStore up n c cfg cts) (h' : ItemAt m'.toStore up n' c' cfg' cts') : ItemAt m'.toStore up n c cfg cts := by
  cases h with
  | @ofVote v sg b a _ g ht hn hl hb =>
    cases h' with
    | @ofVote w sg' _ _ _ g' =>
      obtain ⟨hv, hvid, -⟩ := vote_stored hm g
      obtain ⟨hw, hwid, -⟩ := vote_stored hm' g'
      have := hf.votes _ _ hv hw (hvid.trans hwid.symm)
      rw [← this] at g'
      exact .ofVote g' ht hn hl hb
    | ofMix _ ht' => rw [ht] at ht'; cases ht'
  | @ofMix x sg _ _ g ht hc hi =>
    have hk : x.id = up := MemStore.get_id hm.replay.wf g
    have : InStore m'.toStore (.mix ⟨x, sg⟩) := hf.signed _ (by show m.getTransaction x.id = _; rw [hk]; exact g) (by simp) (by simp)
    have g' : m'.getTransaction x.id = some (.mix ⟨x, sg⟩) := this
    rw [hk] at g'
    exact .ofMix g' ht hc hi

/-- a share of what is decrypted in what is shown is on the ledger -/
theorem share_real {E : Env} {shown : List SignedTx} {m : MemStore} {R : Store} {e : ElectionTx} (h : Verified E shown m e) (ht : e.trusteesThreshold ≠ 0)
    (hf : NothingForged m.toStore R) {d : Signed DecryptionTx} (hd : InStore m.toStore (.decryption d)) :
    ∃ p : Signed PartialDecryptionTx, InStore R (.partialDecryption p) ∧ p.tx.electionId.electionId = e.id.electionId ∧ p.tx.upstreamId = d.tx.upstreamId ∧
      p.tx.upstreamIndex = d.tx.upstreamIndex ∧ p.tx.contestIndex = d.tx.contestIndex := by
  have hm := h.ledger
  obtain ⟨m0, hm0, hf0, hv, hst⟩ := hm.accepted hd
  have hext : Extends m0 m := (Extends.set_fresh hf0).trans hst.extends
  have hin : ∀ t, InStore m0.toStore t → InStore m.toStore t := fun t ht => hext _ _ ht
  obtain ⟨hid, e', cts, ⟨sg, he'⟩, hitem, hall, hlen, -⟩ := C30_decryption_is_threshold_decryption_partial E m0 hm0.replay d.tx d.sig hv
  obtain ⟨hel, rfl⟩ := election_id_of hm ⟨sg, hext _ _ he'⟩ h.election (by rw [← h.filed _ hd]; show _ = d.tx.id.electionId; rw [hid]; rfl)
  have hne : d.tx.trustees ≠ [] := by
    intro h0
    rw [h0] at hlen
    exact ht (UInt8.toNat_inj.1 (Nat.le_zero.1 hlen))
  obtain ⟨i, hi⟩ := List.exists_mem_of_ne_nil _ hne
  obtain ⟨-, p, hp, -⟩ := hall i hi
  rw [hel] at he'
  obtain ⟨hu, hw⟩ := partial_of_item hm0 (fun t ht => h.filed t (hin t ht)) (fun v w h1 h2 => h.voters v w (hin _ h1) (hin _ h2)) ⟨sg, he'⟩ hv hi hp
  exact ⟨p, hf.signed _ (hin _ hp.stored) (by simp) (by simp), by rw [hp.election, hel], hu, hw, hp.contest⟩

/-- what is decrypted in what is shown is on the ledger -/
theorem decrypted_real {E : Env} {shown real : List SignedTx} {m m' : MemStore} {e : ElectionTx} (h : Verified E shown m e) (h' : Verified E real m' e) (ht : e.trusteesThreshold ≠ 0)
    (hf : NothingForged m.toStore m'.toStore) {d : Signed DecryptionTx} (hd : InStore m.toStore (.decryption d)) :
    ∃ cts, ItemAt m'.toStore d.tx.upstreamId d.tx.upstreamIndex d.tx.contestIndex e.mixConfig cts := by
  have hm' := h'.ledger
  obtain ⟨p, hp', hpe, hu, hw, hc⟩ := share_real h ht hf hd
  obtain ⟨m1, hm1, hf1, hv1, hst1⟩ := hm'.accepted hp'
  have hext1 : Extends m1 m' := (Extends.set_fresh hf1).trans hst1.extends
  obtain ⟨e1, cts1, ⟨sg1, he1⟩, hit1, -⟩ := C28_partial_is_proven E m1.toStore p.tx p.sig hv1
  obtain ⟨-, rfl⟩ := election_id_of hm' ⟨sg1, hext1 _ _ he1⟩ h'.election hpe
  have := itemAt_extends hext1 hit1
  rw [hu, hw, hc] at this
  exact ⟨cts1, this⟩

theorem said_inj {d d' : Signed DecryptionTx} (h : said d = said d') : d.tx.decryptedVote = d'.tx.decryptedVote :=
  List.map_injective_iff.2 (Option.some_injective _) h

/-! ## C105 -/

/-- **C105 (partial)** (decryptions agree) Whatever a node leaves out or makes up: a decryption that it shows is of a vote or mix that is on the ledger, and says the same as the decryption of it
there. -/
theorem C105_shown_decryptions_are_real_partial (E : Env) (plain : ElGamalKey → Ciphertext → Bytes) (shown real : List SignedTx) (m m' : MemStore) (e : ElectionTx)
    (h : Verified E shown m e) (h' : Verified E real m' e) (hf : NothingForged m.toStore m'.toStore) (ht : e.trusteesThreshold ≠ 0) (key : Signed EncryptionKeyTx)
    (_hkey : m'.getTransaction (singleId e.id .encryptionKey) = some (.encryptionKey key)) (hK : SoundKeys E plain m'.toStore e key.tx.encryptionKey)
    (d : Signed DecryptionTx) (hd : InStore m.toStore (.decryption d)) :
    (∃ cts, ItemAt m'.toStore d.tx.upstreamId d.tx.upstreamIndex d.tx.contestIndex e.mixConfig cts ∧ said d = opened plain key.tx.encryptionKey cts) ∧
    ∀ d' : Signed DecryptionTx, InStore m'.toStore (.decryption d') → d'.tx.upstreamId = d.tx.upstreamId → d'.tx.upstreamIndex = d.tx.upstreamIndex →
      d'.tx.contestIndex = d.tx.contestIndex → d'.tx.decryptedVote = d.tx.decryptedVote := by
  obtain ⟨-, cts, hi, hsay⟩ := decryption_right h.ledger h.filed h.voters h.election h.trustees (soundKeys_shown hf hK) hd
  obtain ⟨cts1, hi1⟩ := decrypted_real h h' ht hf hd
  have hr := item_real h.ledger h'.ledger hf hi hi1
  refine ⟨⟨cts, hr, hsay⟩, fun d' hd' h1 h2 h3 => ?_⟩
  obtain ⟨-, cts', hi', hsay'⟩ := decryption_right h'.ledger h'.filed h'.voters h'.election h'.trustees hK hd'
  rw [h1, h2, h3] at hi'
  obtain rfl := itemAt_unique hr hi'
  exact said_inj (hsay'.trans hsay.symm)

/-- **C105 (partial)** (nothing can be added) If everything of which there are shares on the ledger is decrypted there: whatever a node leaves out or makes up, if the command verifies what it
shows, no candidate is printed with more votes than on the ledger. -/
theorem C105_nobody_gets_more_votes_partial (E : Env) (plain : ElGamalKey → Ciphertext → Bytes) (shown real : List SignedTx) (m m' : MemStore) (e : ElectionTx)
    (h : Verified E shown m e) (h' : Verified E real m' e) (hf : NothingForged m.toStore m'.toStore) (ht : e.trusteesThreshold ≠ 0) (key : Signed EncryptionKeyTx)
    (hkey : m'.getTransaction (singleId e.id .encryptionKey) = some (.encryptionKey key)) (hK : SoundKeys E plain m'.toStore e key.tx.encryptionKey)
    (hall : SharesClaimed m'.toStore e) (totals totals' : List (Str × Nat)) (hT : E2e.tally m e.id = .ok totals) (hT' : E2e.tally m' e.id = .ok totals')
    (candidate : Str) (n : Nat) (hn : (candidate, n) ∈ totals) : ∃ n', (candidate, n') ∈ totals' ∧ n ≤ n' := by
  obtain ⟨ds, hnd, hmem, hgood, hbad, -⟩ := E2e.C60_printed_tally_partial E shown m h.verified e.id
  obtain ⟨ds', hnd', hmem', hgood', hbad', -⟩ := E2e.C60_printed_tally_partial E real m' h'.verified e.id
  have hne : ∀ d ∈ ds, d.tx.decryptedVote ≠ [] := by
    intro d hd h0
    obtain ⟨p, hp⟩ := hbad ⟨d, hd, h0⟩
    rw [hp] at hT
    cases hT
  have hne' : ∀ d ∈ ds', d.tx.decryptedVote ≠ [] := by
    intro d hd h0
    obtain ⟨p, hp⟩ := hbad' ⟨d, hd, h0⟩
    rw [hp] at hT'
    cases hT'
  obtain ⟨t, e1, -, hcount⟩ := hgood hne
  obtain ⟨t', e1', -, hcount'⟩ := hgood' hne'
  rw [hT] at e1
  rw [hT'] at e1'
  cases e1
  cases e1'
  obtain ⟨hpos, rfl⟩ := (hcount candidate n).1 hn
  have hsub : (ds.map fun d => d.tx.decryptedVote).Subperm (ds'.filterMap fun d => some d.tx.decryptedVote) := by
    refine subperm_of_assignment (fun d d' => d'.tx.upstreamId = d.tx.upstreamId ∧ d'.tx.upstreamIndex = d.tx.upstreamIndex ∧ d'.tx.contestIndex = d.tx.contestIndex) _ _ hnd ?_ ?_
    · intro d hd
      obtain ⟨hin, -⟩ := (hmem d).1 hd
      obtain ⟨-, hagree⟩ := C105_shown_decryptions_are_real_partial E plain shown real m m' e h h' hf ht key hkey hK d hin
      obtain ⟨p, hp, -, h1, h2, h3⟩ := share_real h ht hf hin
      obtain ⟨d', hd', -, a, b, c⟩ := hall p hp
      rw [h1] at a
      rw [h2] at b
      rw [h3] at c
      exact ⟨d', (hmem' d').2 ⟨hd', h'.filed _ hd'⟩, ⟨a, b, c⟩, congrArg some (hagree d' hd' a b c)⟩
    · rintro d hd d2 hd2 d' ⟨a, b, c⟩ ⟨a2, b2, c2⟩
      obtain ⟨hin, -⟩ := (hmem d).1 hd
      obtain ⟨hin2, -⟩ := (hmem d2).1 hd2
      have hK' := soundKeys_shown hf hK
      obtain ⟨hel, -⟩ := decryption_right h.ledger h.filed h.voters h.election h.trustees hK' hin
      obtain ⟨hel2, -⟩ := decryption_right h.ledger h.filed h.voters h.election h.trustees hK' hin2
      exact decryption_unique h.ledger hin hin2 (hel.trans hel2.symm) (a.symm.trans a2) (b.symm.trans b2) (c.symm.trans c2)
  rw [List.filterMap_eq_map'] at hsub
  have key1 : ∀ l : List (Signed DecryptionTx), firstChoices candidate l =
      ((l.map fun d => d.tx.decryptedVote).filter fun s => s.head?.map Selection.selection = some candidate).length := by
    intro l
    unfold firstChoices
    rw [List.filter_map, List.length_map]
    rfl
  have hle : firstChoices candidate ds ≤ firstChoices candidate ds' := by
    rw [key1, key1]
    exact (hsub.filter _).length_le
  exact ⟨_, (hcount' candidate _).2 ⟨Nat.lt_of_lt_of_le hpos hle, rfl⟩, hle⟩

/-- without mixnet, what there are shares of is decrypted if all votes are -/
theorem claimed_of_decrypted {E : Env} {real : List SignedTx} {m' : MemStore} {e : ElectionTx} (h' : Verified E real m' e) (hmix : e.mixConfig = none) (hall : VotesDecrypted m'.toStore e) :
    SharesClaimed m'.toStore e := by
  intro p hp
  obtain ⟨m1, hm1, hf1, hv1, hst1⟩ := h'.ledger.accepted hp
  have hext1 : Extends m1 m' := (Extends.set_fresh hf1).trans hst1.extends
  obtain ⟨e1, cts1, ⟨sg1, he1⟩, hit1, -⟩ := C28_partial_is_proven E m1.toStore p.tx p.sig hv1
  obtain ⟨-, rfl⟩ := election_id_of h'.ledger ⟨sg1, hext1 _ _ he1⟩ h'.election (by
    rw [← h'.filed _ hp]
    obtain ⟨_, _, _, hid, _⟩ := PartialDecryptionTx.validateTx_ok.1 (SignedTx.validate_ok.1 hv1).2.2
    show _ = p.tx.id.electionId
    rw [hid]
    rfl)
  have hi := itemAt_extends hext1 hit1
  rw [hmix] at hi
  obtain ⟨h0, v, hg, -, -, hc⟩ := ballotFor_of hi
  obtain ⟨hvs, hvid, -⟩ := vote_stored h'.ledger hg
  obtain ⟨ev, hev, hevc⟩ := List.mem_map.1 hc
  obtain ⟨d', hd', h5, a, b, c⟩ := hall v hvs (h'.filed _ hvs) ev hev
  rw [hvid] at a
  rw [hevc] at c
  exact ⟨d', hd', h5, a, b.trans h0.symm, c⟩

/-- **C105 (partial)** (no vote can be added) In an election without mixnet, of which every vote is decrypted on the ledger: whatever a node leaves out or makes up, if the command verifies what
it shows, no candidate is printed with more votes than on the ledger. -/
theorem C105_no_vote_can_be_added_partial (E : Env) (plain : ElGamalKey → Ciphertext → Bytes) (shown real : List SignedTx) (m m' : MemStore) (e : ElectionTx)
    (h : Verified E shown m e) (h' : Verified E real m' e) (hf : NothingForged m.toStore m'.toStore) (ht : e.trusteesThreshold ≠ 0) (key : Signed EncryptionKeyTx)
    (hkey : m'.getTransaction (singleId e.id .encryptionKey) = some (.encryptionKey key)) (hK : SoundKeys E plain m'.toStore e key.tx.encryptionKey)
    (hmix : e.mixConfig = none) (hall : VotesDecrypted m'.toStore e) (totals totals' : List (Str × Nat)) (hT : E2e.tally m e.id = .ok totals) (hT' : E2e.tally m' e.id = .ok totals')
    (candidate : Str) (n : Nat) (hn : (candidate, n) ∈ totals) : ∃ n', (candidate, n') ∈ totals' ∧ n ≤ n' :=
  C105_nobody_gets_more_votes_partial E plain shown real m m' e h h' hf ht key hkey hK (claimed_of_decrypted h' hmix hall) totals totals' hT hT' candidate n hn

/-- **C105** (mixed votes cannot be hidden) In an election with mixnet: whoever is shown any decryption, and verifies what they are shown, is shown every vote that is on the ledger. -/
theorem C105_mixed_votes_cannot_be_hidden (E : Env) (shown real : List SignedTx) (m m' : MemStore) (e : ElectionTx) (h : Verified E shown m e) (h' : Verified E real m' e)
    (hsort : real.Pairwise IdLt) (hf : NothingForged m.toStore m'.toStore) (hmix : e.mixConfig ≠ none) (d : Signed DecryptionTx) (hd : InStore m.toStore (.decryption d))
    (v : Signed VoteTx) (hv : InStore m'.toStore (.vote v)) : InStore m.toStore (.vote v) := by
  have hm := h.ledger
  have hm' := h'.ledger
  obtain ⟨m0, hm0, hf0, hval, hst⟩ := hm.accepted hd
  have hext : Extends m0 m := (Extends.set_fresh hf0).trans hst.extends
  obtain ⟨hid, e', cts, ⟨sg, he'⟩, -⟩ := C30_decryption_is_threshold_decryption_partial E m0 hm0.replay d.tx d.sig hval
  obtain ⟨hel, rfl⟩ := election_id_of hm ⟨sg, hext _ _ he'⟩ h.election (by rw [← h.filed _ hd]; show _ = d.tx.id.electionId; rw [hid]; rfl)
  obtain ⟨mx, -, -, -, -, chain, hchain, hlast⟩ := C29_only_fully_mixed_partial E m0 hm0 d.tx d.sig hval e' ⟨sg, he'⟩ hmix
  -- the first mix of the chain is on the ledger
  obtain ⟨x, hx⟩ : ∃ x, chain[0]? = some x := by
    cases chain with
    | nil => cases hlast
    | cons x _ => exact ⟨x, rfl⟩
  have hxs : InStore m.toStore (.mix x) := hext _ _ (hchain.stored x (List.mem_of_getElem? hx))
  have hprev := hchain.first x hx
  have hxr : InStore m'.toStore (.mix x) := hf.signed _ hxs (by simp) (by simp)
  have hxe : x.tx.electionId.electionId = e'.id.electionId := by
    obtain ⟨m1, hm1, -, hv1, -⟩ := hm.accepted hxs
    have := (C23_first_mix_covers_votes E m1.toStore hm1.lawful x.tx x.sig hv1 hprev)
    obtain ⟨_, hv2⟩ := SignedTx.validate_ok.1 hv1
    obtain ⟨hidx, -⟩ := (MixTx.validateTx_ok hm1.lawful).1 hv2.2
    rw [← h.filed _ hxs]
    show _ = x.tx.id.electionId
    rw [hidx]
    rfl
  -- on the ledger it lists all votes
  have hlisted : v.tx.id ∈ x.tx.voteIds := by
    obtain ⟨-, rfl, hrep⟩ := (E2e.C40_e2e_replays E real m').1 h'.verified
    have hxm := (Toy.stored_iff h'.distinct _).1 hxr
    have hvm := (Toy.stored_iff h'.distinct _).1 hv
    obtain ⟨b, a, rfl⟩ := List.append_of_mem hxm
    have hval' := hrep b _ a rfl
    have hvb : SignedTx.vote v ∈ b := by
      rcases List.mem_append.1 hvm with hb | hb
      · exact hb
      · rcases List.mem_cons.1 hb with hb | hb
        · cases hb
        · have hlt : IdLt (.mix x) (.vote v) := (List.pairwise_cons.1 (List.pairwise_append.1 hsort).2.1).1 _ hb
          refine absurd hlt (E2e.not_id_lt_of_type ((h'.filed _ hxr).trans (h'.filed _ hv).symm) ?_)
          rw [hm'.replay.typed (id := (SignedTx.vote v).id) hv, hm'.replay.typed (id := (SignedTx.mix x).id) hxr]
          show (6 : UInt8) < 8
          decide
    have hdis : (b.map SignedTx.id).Nodup := by
      have := h'.distinct
      rw [List.map_append] at this
      exact (List.nodup_append.1 this).1
    have hvs := (Toy.stored_iff hdis _).2 hvb
    have hS : Lawful (MemStore.ofList b).toStore := MemStore.lawful (MemStore.wf_ofList b)
    exact ((C23_first_mix_covers_votes E _ hS x.tx x.sig hval' hprev).2.2.1 v.tx.id).2
      ⟨v, hvs, (h'.filed _ hv).trans hxe.symm, hm'.replay.typed (id := (SignedTx.vote v).id) hv⟩
  -- so it is among the votes shown
  obtain ⟨m1, hm1, hf1, hv1, hst1⟩ := hm.accepted hxs
  obtain ⟨w, hw, -, -⟩ := ((C23_first_mix_covers_votes E m1.toStore hm1.lawful x.tx x.sig hv1 hprev).2.2.1 v.tx.id).1 hlisted
  have hw' : m.getTransaction v.tx.id = some (.vote w) := ((Extends.set_fresh hf1).trans hst1.extends) _ _ hw
  obtain ⟨hws, hwid, -⟩ := vote_stored hm hw'
  rw [← hf.votes w v hws hv hwid]
  exact hws

/-! ## Concrete elections -/

namespace Toy

/-- what is left of the election without mixnet if the second vote is hidden -/
def lessOne : List SignedTx :=
  setup none ++ [voteTx 31 "a", endTx, votePartial (key 31) "a" 1 11, votePartial (key 31) "a" 2 12, .decryption (decOf (VoteTx.buildId eid (key 31)) 0 "a")]

/-- the complete election with mixnet, in which the trustees have also decrypted the first output of the first mix, but nobody has combined their shares -/
def unclaimed : List SignedTx := complete ++ [earlyPartial 1 11, earlyPartial 2 12]

/-- what is shown of an election: a vote that nobody has cast, instead of the second -/
def inventing : List SignedTx :=
  setup none ++ [voteTx 31 "a", voteTx 33 "a", endTx, votePartial (key 31) "a" 1 11, votePartial (key 31) "a" 2 12, .decryption (decOf (VoteTx.buildId eid (key 31)) 0 "a")]

theorem lessOne_checks : checks lessOne (election none) = true := by decide +kernel
theorem unclaimed_checks : checks unclaimed election = true := by decide +kernel
theorem complete_checks : checks complete election = true := by decide +kernel
theorem inventing_checks : checks inventing (election none) = true := by decide +kernel

theorem nothingForged_of {shown real : List SignedTx} (hs : (shown.map SignedTx.id).Nodup) (hr : (real.map SignedTx.id).Nodup)
    (hsub : ∀ t ∈ shown, t ∈ real ∨ (∃ v, t = .vote v) ∨ ∃ d, t = .decryption d)
    (h : ((votesIn shown).all fun v => (votesIn real).all fun w => decide (v.tx.id = w.tx.id → v = w)) = true) :
    NothingForged (MemStore.ofList shown).toStore (MemStore.ofList real).toStore := by
  constructor
  · intro t ht hv hd
    rcases hsub t ((stored_iff hs _).1 ht) with h | ⟨v, h⟩ | ⟨d, h⟩
    · exact (stored_iff hr _).2 h
    · exact absurd h (hv v)
    · exact absurd h (hd d)
  · intro v w hv hw
    exact of_decide_eq_true (List.all_eq_true.1 (List.all_eq_true.1 h v (mem_votesIn.2 ((stored_iff hs _).1 hv))) w (mem_votesIn.2 ((stored_iff hr _).1 hw)))

theorem lessOne_sub : ∀ t ∈ lessOne, t ∈ plainComplete := by
  intro t ht
  simp only [lessOne, plainComplete, List.mem_append, List.mem_cons, List.not_mem_nil, or_false] at ht ⊢
  tauto

theorem inventing_sub : ∀ t ∈ inventing, t ∈ plainComplete ∨ (∃ v, t = .vote v) ∨ ∃ d, t = .decryption d := by
  intro t ht
  by_cases h : t = voteTx 33 "a"
  · exact .inr (.inl ⟨_, h⟩)
  · refine .inl (lessOne_sub t ?_)
    simp only [inventing, lessOne, List.mem_append, List.mem_cons, List.not_mem_nil, or_false] at ht ⊢
    tauto

theorem twice_sub : ∀ t ∈ twice, t ∈ unclaimed ∨ (∃ v, t = .vote v) ∨ ∃ d, t = .decryption d := by
  intro t ht
  by_cases h : t = .decryption (decOf mix1Tx.id 0 "b")
  · exact .inr (.inr ⟨_, h⟩)
  · refine .inl ?_
    simp only [twice, unclaimed, List.mem_append, List.mem_cons, List.not_mem_nil, or_false] at ht ⊢
    tauto

end Toy

/-- **C105 (false)** (the same result) A node can hide a vote, with the decryption shares and the decryption of it, from those who verify an election without mixnet: what it shows are transactions
on the ledger, is verified, and looks as if everything had been counted, but the result is another. -/
theorem C105_same_result_false :
    ¬ ∀ (E : Env) (plain : ElGamalKey → Ciphertext → Bytes) (shown real : List SignedTx) (m m' : MemStore) (e : ElectionTx), Verified E shown m e → Verified E real m' e →
      (∀ t ∈ shown, t ∈ real) → e.trusteesThreshold ≠ 0 → ∀ key : Signed EncryptionKeyTx, m.getTransaction (singleId e.id .encryptionKey) = some (.encryptionKey key) →
      SoundKeys E plain m'.toStore e key.tx.encryptionKey → SlotFilled m.toStore e.id .votingEnd → Counted m.toStore e → Counted m'.toStore e →
      E2e.tally m e.id = E2e.tally m' e.id := by
  intro h
  obtain ⟨h1, -⟩ := Toy.verified_of_checks (sig := Toy.sig 1) (List.mem_cons_self ..) Toy.lessOne_checks
  obtain ⟨h2, hK⟩ := Toy.verified_of_checks (sig := Toy.sig 1) (List.mem_cons_self ..) Toy.plain_checks
  have := h Toy.env _ _ _ _ _ _ h1 h2 Toy.lessOne_sub (by decide) Toy.keyOf (by rfl) (hK _) ⟨_, by rfl⟩
    (E2e.Toy.counted_of_check (Toy.stored_iff h1.distinct) (by decide +kernel)) (E2e.Toy.counted_of_check (Toy.stored_iff h2.distinct) (by decide +kernel))
  have a : E2e.tally (MemStore.ofList Toy.lessOne) Toy.eid = .ok [(str "a", 1)] := by decide +kernel
  have b : E2e.tally (MemStore.ofList Toy.plainComplete) Toy.eid = .ok [(str "a", 1), (str "b", 1)] := by decide +kernel
  have : E2e.tally (MemStore.ofList Toy.lessOne) Toy.eid = E2e.tally (MemStore.ofList Toy.plainComplete) Toy.eid := this
  rw [a, b] at this
  exact absurd this (by decide)

/-- **C105 (false)** (nothing can be added) With a mixnet a node can add votes to a candidate, if trustees have sent out shares of an output of a mix that is not the last: it combines the shares to
a decryption, which needs nobody's signature. -/
theorem C105_nobody_gets_more_votes_false :
    ¬ ∀ (E : Env) (plain : ElGamalKey → Ciphertext → Bytes) (shown real : List SignedTx) (m m' : MemStore) (e : ElectionTx), Verified E shown m e → Verified E real m' e →
      NothingForged m.toStore m'.toStore → e.trusteesThreshold ≠ 0 → ∀ key : Signed EncryptionKeyTx, m'.getTransaction (singleId e.id .encryptionKey) = some (.encryptionKey key) →
      SoundKeys E plain m'.toStore e key.tx.encryptionKey → Counted m'.toStore e → ∀ totals totals', E2e.tally m e.id = .ok totals → E2e.tally m' e.id = .ok totals' →
      ∀ candidate n, (candidate, n) ∈ totals → ∃ n', (candidate, n') ∈ totals' ∧ n ≤ n' := by
  intro h
  obtain ⟨h1, -⟩ := Toy.verified_of_checks (sig := Toy.sig 1) (List.mem_cons_self ..) Toy.twice_checks
  obtain ⟨h2, hK⟩ := Toy.verified_of_checks (sig := Toy.sig 1) (List.mem_cons_self ..) Toy.unclaimed_checks
  obtain ⟨n', hn, hle⟩ := h Toy.env _ _ _ _ _ _ h1 h2 (Toy.nothingForged_of h1.distinct h2.distinct Toy.twice_sub (by decide +kernel)) (by decide) Toy.keyOf (by rfl) (hK _)
    (E2e.Toy.counted_of_check (Toy.stored_iff h2.distinct) (by decide +kernel)) [(str "b", 2), (str "a", 1)] [(str "a", 1), (str "b", 1)] (by decide +kernel) (by decide +kernel)
    (str "b") 2 (by simp)
  simp only [List.mem_cons, List.not_mem_nil, or_false, Prod.mk.injEq] at hn
  rcases hn with ⟨hn, -⟩ | ⟨-, rfl⟩
  · exact absurd hn (by decide)
  · omega

/-- The hypotheses can be met, without mixnet: a vote is hidden and another made up, and nothing is missed. -/
example : Verified Toy.env Toy.inventing (MemStore.ofList Toy.inventing) (Toy.election none) ∧ Verified Toy.env Toy.plainComplete (MemStore.ofList Toy.plainComplete) (Toy.election none) ∧
    NothingForged (MemStore.ofList Toy.inventing).toStore (MemStore.ofList Toy.plainComplete).toStore ∧ (Toy.election none).trusteesThreshold ≠ 0 ∧
    (MemStore.ofList Toy.plainComplete).getTransaction (singleId Toy.eid .encryptionKey) = some (.encryptionKey Toy.keyOf) ∧
    SoundKeys Toy.env (fun _ c => c.raw) (MemStore.ofList Toy.plainComplete).toStore (Toy.election none) Toy.keyOf.tx.encryptionKey ∧
    VotesDecrypted (MemStore.ofList Toy.plainComplete).toStore (Toy.election none) ∧ SharesClaimed (MemStore.ofList Toy.plainComplete).toStore (Toy.election none) ∧
    (∃ d, InStore (MemStore.ofList Toy.inventing).toStore (.decryption d)) ∧
    E2e.tally (MemStore.ofList Toy.inventing) Toy.eid = .ok [(str "a", 1)] ∧ E2e.tally (MemStore.ofList Toy.plainComplete) Toy.eid = .ok [(str "a", 1), (str "b", 1)] := by
  obtain ⟨h1, -⟩ := Toy.verified_of_checks (sig := Toy.sig 1) (List.mem_cons_self ..) Toy.inventing_checks
  obtain ⟨h2, hK⟩ := Toy.verified_of_checks (sig := Toy.sig 1) (List.mem_cons_self ..) Toy.plain_checks
  have h3 := (E2e.Toy.counted_of_check (Toy.stored_iff h2.distinct) (e := Toy.election none) (by decide +kernel)).1 rfl
  exact ⟨h1, h2, Toy.nothingForged_of h1.distinct h2.distinct Toy.inventing_sub (by decide +kernel), by decide, by rfl, hK _, h3, claimed_of_decrypted h2 rfl h3,
    ⟨Toy.decOf (VoteTx.buildId Toy.eid (Toy.key 31)) 0 "a", by rfl⟩, by decide +kernel,
    by decide +kernel⟩

/-- The hypotheses can be met, with mixnet: only one of the decryptions is shown, but both votes. -/
example : Verified Toy.env (Toy.complete.dropLast) (MemStore.ofList Toy.complete.dropLast) Toy.election ∧ Verified Toy.env Toy.complete (MemStore.ofList Toy.complete) Toy.election ∧
    Toy.complete.Pairwise IdLt ∧ NothingForged (MemStore.ofList Toy.complete.dropLast).toStore (MemStore.ofList Toy.complete).toStore ∧ Toy.election.mixConfig ≠ none ∧
    InStore (MemStore.ofList Toy.complete.dropLast).toStore (.decryption (Toy.decOf Toy.mix2Tx.id 0 "a")) ∧
    ∃ v, InStore (MemStore.ofList Toy.complete).toStore (.vote v) := by
  have hc : Toy.checks Toy.complete.dropLast Toy.election = true := by decide +kernel
  obtain ⟨h1, -⟩ := Toy.verified_of_checks (sig := Toy.sig 1) (List.mem_cons_self ..) hc
  obtain ⟨h2, -⟩ := Toy.verified_of_checks (sig := Toy.sig 1) (List.mem_cons_self ..) Toy.complete_checks
  refine ⟨h1, h2, ?_, Toy.nothingForged_of h1.distinct h2.distinct (fun t ht => .inl (List.dropLast_subset _ ht)) (by decide +kernel), by simp [Toy.election], by rfl, ?_⟩
  · unfold IdLt
    decide +kernel
  · exact ⟨_, (Toy.stored_iff h2.distinct _).2 (Toy.mem_votesIn.1 (List.mem_cons_self ..))⟩

end CB
