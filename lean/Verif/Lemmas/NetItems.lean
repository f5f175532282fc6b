import Verif.Lemmas.NetTarget
/-!
# The decryption of an honest vote of an election without mixnet in networks of nodes
-/

namespace CB
open Spec Server

namespace Setup

variable {N : NodeEnv} {K : List SecretKey} {e : ElectionTx} {sk : UInt8 → SecretKey} {run : KeyGenRun N} {key : ElGamalKey} {fits : Bytes → Prop} {s : Network}

/-- a stored vote that can be told apart from the others and has one encrypted vote for the contest, made of `sel` -/
structure Item (N : NodeEnv) (e : ElectionTx) (key : ElGamalKey) (fits : Bytes → Prop) (s : Network) (v : Signed VoteTx) (c : UInt32) (rng : Rng) (sel : List Selection) : Prop where
  stored : .vote v ∈ s.ledger
  filed : v.tx.id.electionId = e.id.electionId
  uniq : UniqueVote s.store.toStore v.tx
  fit : ∀ x ∈ sel, IsText x.selection ∧ fits x.encode
  once : (v.tx.encryptedVotes.filter fun ev => ev.contestIndex = c) = [⟨c, encryptVote N key rng sel⟩]

variable {v : Signed VoteTx} {c : UInt32} {vrng : Rng} {sel : List Selection}

theorem Item.type (hI : Item N e key fits s v c vrng sel) (h : Held N K e sk run key s) : v.tx.id.txType = .vote := by
  obtain ⟨i, hi⟩ := List.getElem?_of_mem hI.stored
  exact (h.vote_at hi hI.filed).2.1

theorem Item.mem (hI : Item N e key fits s v c vrng sel) {ev : EncryptedVote} (hev : ev ∈ v.tx.encryptedVotes) (hc : ev.contestIndex = c) :
    ev = ⟨c, encryptVote N key vrng sel⟩ := by
  have : ev ∈ v.tx.encryptedVotes.filter fun ev => ev.contestIndex = c := List.mem_filter.2 ⟨hev, by simpa using hc⟩
  rw [hI.once, List.mem_singleton] at this
  exact this

theorem Item.listed (hI : Item N e key fits s v c vrng sel) : (⟨c, encryptVote N key vrng sel⟩ : EncryptedVote) ∈ v.tx.encryptedVotes := by
  have : (⟨c, encryptVote N key vrng sel⟩ : EncryptedVote) ∈ v.tx.encryptedVotes.filter fun ev => ev.contestIndex = c := by rw [hI.once]; simp
  exact (List.mem_filter.1 this).1

theorem Item.find (hI : Item N e key fits s v c vrng sel) : (v.tx.encryptedVotes.find? fun ev => ev.contestIndex == c) = some ⟨c, encryptVote N key vrng sel⟩ := by
  rw [← List.head?_filter]
  have : (v.tx.encryptedVotes.filter fun ev => ev.contestIndex == c) = v.tx.encryptedVotes.filter fun ev => ev.contestIndex = c :=
    List.filter_congr fun x _ => by simp [BEq.beq]
  rw [this, hI.once]
  rfl

/-- another vote in the item's place is the same vote -/
theorem Held.same_vote (h : Held N K e sk run key s) (hI : Item N e key fits s v c vrng sel) {w : Signed VoteTx} (hw : .vote w ∈ s.ledger) {n : UInt16}
    (hs : SameItem w.tx.id n v.tx.id 0) : w = v := by
  have : w.tx.id = v.tx.id := by
    cases hs with
    | vote _ _ h3 => exact hI.uniq w (h.in_ledger.2 hw) h3
    | mix _ h2 => rw [hI.type h] at h2; cases h2
  have h1 := h.in_ledger.2 hw
  have h2 := h.in_ledger.2 hI.stored
  unfold InStore at h1 h2
  have h1 : s.store.toStore.getTransaction w.tx.id = some (.vote w) := h1
  have h2 : s.store.toStore.getTransaction v.tx.id = some (.vote v) := h2
  rw [this, h2] at h1
  cases h1
  rfl

/-- The partial decryptions of an item are the trustees' shares of its ciphertexts. -/
theorem Held.item_partial (h : Held N K e sk run key s) (hp : e.mixConfig = none) (hI : Item N e key fits s v c vrng sel) {t : SignedTx} (ht : t ∈ s.ledger) {i : UInt8}
    (hid : t.id = PartialDecryptionTx.buildId e.id v.tx.id c 0 i) :
    ∃ tr ∈ e.getFullTrustees, tr.index = i ∧ ∃ ds, SharesOf N run tr (encryptVote N key vrng sel) ds ∧ t = partialTx N e sk tr v.tx.id 0 c ds := by
  have hty := h.hist.sound.whole.replay.typedStore t (h.in_ledger.2 ht)
  rw [hid] at hty
  obtain ⟨tr, htr, w, hw, hwf, ev, hev, ds, hds, rfl⟩ := h.partial_honest hp ht (by rw [hid]; rfl) hty.symm
  obtain ⟨j, hj⟩ := List.getElem?_of_mem hw
  have hid : PartialDecryptionTx.buildId e.id w.tx.id ev.contestIndex 0 tr.index = PartialDecryptionTx.buildId e.id v.tx.id c 0 i := hid
  simp only [PartialDecryptionTx.buildId, Identifier.new, Option.getD_some, Identifier.mk.injEq, true_and] at hid
  obtain ⟨h1, h2, h3⟩ := buildUniqueInfo_inj (.inl ⟨(h.vote_at hj hwf).2.1, rfl⟩) (.inl ⟨hI.type h, rfl⟩) hid
  have := h.same_vote hI hw h3
  subst this
  have := hI.mem hev h1
  subst this
  exact ⟨tr, htr, h2, ds, hds, rfl⟩

theorem Item.cts (hI : Item N e key fits s v c vrng sel) (h : Held N K e sk run key s) {u : Nat} (hv : .vote v ∈ s.ledger.take u) :
    encryptedVoteFromUpstream (at' s u) v.tx.id 0 c none = .ok (encryptVote N key vrng sel) := by
  have hg : (at' s u).getTransaction v.tx.id = some (.vote v) := h.in_take.2 hv
  unfold encryptedVoteFromUpstream
  simp only [hI.type h, Store.getVote, hg, Option.isSome_none, Res.failIf, bne_self_eq_false, Bool.false_eq_true, if_false, Res.bind_def, Res.ok_bind, hI.find, Res.pure_def]

/-- what is stored once the item's vote is -/
theorem Held.after_vote (h : Held N K e sk run key s) (hf : v.tx.id.electionId = e.id.electionId) {u : Nat} (hv : .vote v ∈ s.ledger.take u) :
    View N e sk run key (at' s u) ∧ Filled e (at' s u) .keyGenPublicKey ∧ Filled e (at' s u) .keyGenShare := by
  obtain ⟨i, hiu, hi⟩ := mem_take hv
  obtain ⟨-, -, ⟨sg, he⟩, -, -, h1, h2⟩ := h.vote_at hi hf
  exact ⟨h.view ⟨sg, h.extends (by omega) _ _ he⟩, h.filled_mono (by omega) h1, h.filled_mono (by omega) h2⟩

/-- which vote a decryption of the election is about -/
theorem Held.decryption_item (h : Held N K e sk run key s) (hp : e.mixConfig = none) {t : Signed DecryptionTx} (ht : .decryption t ∈ s.ledger) (hf : t.tx.id.electionId = e.id.electionId) :
    t.tx.electionId = e.id ∧ t.tx.id = DecryptionTx.buildId e.id t.tx.upstreamId t.tx.contestIndex 0 ∧ t.tx.upstreamIndex = 0 ∧ t.tx.upstreamId.txType = .vote ∧
      ∃ w : Signed VoteTx, .vote w ∈ s.ledger ∧ w.tx.id = t.tx.upstreamId := by
  obtain ⟨i, hi⟩ := List.getElem?_of_mem ht
  have hv := h.hist.accepted i _ hi
  obtain ⟨hid, e', he', cts, hcts, -⟩ := DecryptionTx.validateTx_ok.1 (SignedTx.validate_ok.1 hv).2.2
  have hname : t.tx.electionId = e.id := (h.orderly.names ht (by rw [← hf]; show _ = t.tx.id.electionId; rw [hid]; rfl)).1
  rw [hname] at he' hid
  have := h.uniq he'
  subst this
  rw [hp] at hcts
  have := encryptedVoteFromUpstream_sound hcts
  cases this with
  | ofVote h1 h2 h3 =>
    rename_i w sg _ _ _ _
    obtain ⟨h4, h5⟩ := (Network.get_some (Network.nodup_take h.hist.sound.nodup i)).1 h1
    rw [h3] at hid
    exact ⟨hname, hid, h3, h2, ⟨w, sg⟩, List.mem_of_mem_take h4, h5⟩

/-- what the decryption of an item names -/
theorem Held.decryption_of (h : Held N K e sk run key s) (hp : e.mixConfig = none) (hI : Item N e key fits s v c vrng sel) {t : Signed DecryptionTx} (ht : .decryption t ∈ s.ledger)
    (hid : t.tx.id = DecryptionTx.buildId e.id v.tx.id c 0) : t.tx.electionId = e.id ∧ t.tx.upstreamId = v.tx.id ∧ t.tx.contestIndex = c ∧ t.tx.upstreamIndex = 0 := by
  have hf : t.tx.id.electionId = e.id.electionId := by rw [hid]; rfl
  obtain ⟨hname, hid', hn, hty, w, hw, hwid⟩ := h.decryption_item hp ht hf
  rw [hid] at hid'
  simp only [DecryptionTx.buildId, Identifier.new, Option.getD_some, Identifier.mk.injEq, true_and] at hid'
  obtain ⟨hc, -, hsame⟩ := buildUniqueInfo_inj (.inl ⟨hI.type h, rfl⟩) (.inl ⟨hty, rfl⟩) hid'
  have hwv : w = v := by
    refine h.same_vote hI hw (n := 0) ?_
    cases hsame with
    | vote h1 h2 h3 => exact .vote (by rw [hwid]; exact h2) h1 (by rw [hwid]; exact h3.symm)
    | mix h1 => rw [hI.type h] at h1; cases h1
  subst hwv
  exact ⟨hname, hwid.symm, hc.symm, hn⟩

/-- The nodes decrypt the item. -/
theorem Held.target (h : Held N K e sk run key s) (hp : e.mixConfig = none) (hI : Item N e key fits s v c vrng sel) :
    Target N e sk run key (Fresh N fits key) s (.vote v) v.tx.id 0 c (encryptVote N key vrng sel) sel where
  filed := hI.filed
  type := .inl ⟨hI.type h, rfl⟩
  enc := encryptVote_encrypts hI.fit
  ready := fun _ hu => h.after_vote hI.filed hu
  found := fun _ hu => by rw [hp]; exact hI.cts h hu
  upstream := by
    intro u hu t h1 h2 h3
    have hg : (at' s u).getTransaction v.tx.id = some (.vote v) := h.in_take.2 hu
    unfold upstreamCiphertexts
    simp only [h1, h3, hI.type h, Store.getVote, hg, v_ok, Res.bind_def, Res.ok_bind, hI.find, Res.pure_def]
  source := by
    intro u cts' hcts
    rw [hp] at hcts
    have := encryptedVoteFromUpstream_sound hcts
    cases this with
    | ofVote h1 =>
      obtain ⟨h4, h5⟩ := (Network.get_some (Network.nodup_take h.hist.sound.nodup u)).1 h1
      have h6 := h.in_ledger.2 (List.mem_of_mem_take h4)
      have h7 := h.in_ledger.2 hI.stored
      unfold InStore at h6 h7
      rw [h5] at h6
      have h7 : s.store.toStore.getTransaction v.tx.id = _ := h7
      rw [h7] at h6
      have := Option.some.inj h6
      rw [this]
      exact h4
  partials := fun _ ht _ hid => h.item_partial hp hI ht hid
  decryptions := fun _ ht hid => h.decryption_of hp hI ht hid

/-- Once a trustee's node has reacted to the end of voting and nothing of the election is on its way, its partial decryption of the item is on the ledger. -/
theorem Held.partial_posted (h : Held N K e sk run key s) (hp : e.mixConfig = none) (hW : Works N e run (Fresh N fits key)) (hI : Item N e key fits s v c vrng sel) (hcon : e.contests ≠ [])
    (hdel : ∀ t ∈ s.pending, t.id.electionId ≠ e.id.electionId) {m : Nat} {vs : Signed VotingEndTx} (hm : s.ledger[m]? = some (.votingEnd vs)) (hvs : vs.tx.election = e.id)
    (hvid : vs.tx.id = singleId e.id .votingEnd) {tr : Trustee} (htr : tr ∈ e.getFullTrustees) (hr : (sk tr.index, m) ∈ s.reacted) :
    PartialDecryptionTx.buildId e.id v.tx.id c 0 tr.index ∈ s.ledger.map SignedTx.id := by
  obtain ⟨-, w, rng, x, l, hmw, hwl, hx, hl, hall⟩ := h.hist.reacted _ _ hr
  rw [hm] at hx
  cases hx
  obtain ⟨i, hi⟩ := List.getElem?_of_mem hI.stored
  obtain ⟨-, -, -, hopen, -⟩ := h.vote_at hi hI.filed
  have hend : ∀ u, m < u → SlotFilled (at' s u) e.id .votingEnd := fun u hu =>
    ⟨.votingEnd vs, by rw [← hvid]; exact h.in_take.2 (take_mem hm hu)⟩
  have him : i < w := by
    apply Nat.lt_of_not_le
    intro hle
    exact hopen (hend i (by omega))
  have hv : ∀ u, w ≤ u → .vote v ∈ s.ledger.take u := fun u hu => take_mem hi (by omega)
  obtain ⟨hV, -, hF⟩ := h.after_vote hI.filed (hv w (Nat.le_refl _))
  obtain ⟨l', hl', hmade⟩ := votingEnd_reacts h.nodes h.keygen hV hp hcon rng htr hvs hF
  rw [hl] at hl'
  cases hl'
  obtain ⟨ds, hds, hd⟩ := hmade v (h.in_take.2 (hv w (Nat.le_refl _))) hI.filed _ hI.listed
  rcases hall _ hd with h1 | h1 | ⟨w', h1, -, h2⟩
  · exact h1
  · exact absurd rfl (hdel _ h1)
  · exact absurd (h.partial_valid hW (h.target hp hI) (hv w' h1) (hend w' (by omega)) htr hds) h2

end Setup
end CB
