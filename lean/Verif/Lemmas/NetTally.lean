import Verif.Lemmas.NetParty
import Verif.Lemmas.NetHistory
import Verif.Spec.NetworkTally
/-!
# What ledgers hold while the nodes of an election decrypt its votes
-/

namespace CB
open Spec Server

namespace Setup

variable {N : NodeEnv} {K : List SecretKey} {e : ElectionTx} {sk : UInt8 → SecretKey} {run : KeyGenRun N} {key : ElGamalKey} {fits : Bytes → Prop}

/-- threshold decryption works for the ciphertexts that `Enc` relates to their plaintexts -/
def Works (N : NodeEnv) (e : ElectionTx) (run : KeyGenRun N) (Enc : Ciphertext → Bytes → Prop) : Prop :=
  ∀ (c : Ciphertext) (m : Bytes), Enc c m →
    (∀ i ∈ idxs (sorted e), ∀ rnd, N.shareVerify (N.partyDecrypt (run.party i) c rnd) (N.partyProof (run.party i)) c = true) ∧
    ∀ (Q : List Nat) (rnd : Nat → Bytes), Q.Nodup → (∀ i ∈ Q, i ∈ idxs (sorted e)) → e.trusteesThreshold.toNat ≤ Q.length →
      N.thresholdDecrypt e.trusteesThreshold.toNat c (Q.map fun i => (i, N.partyProof (run.party i), N.partyDecrypt (run.party i) c (rnd i))) = .ok m

/-- the ciphertexts that the primitive makes of plaintexts that fit -/
def Fresh (N : NodeEnv) (fits : Bytes → Prop) (key : ElGamalKey) (c : Ciphertext) (m : Bytes) : Prop := fits m ∧ ∃ r, c = N.encrypt key m r

theorem exists_working_run (hF : ThresholdCorrect N fits) (hT : ProperTrustees e) (sk : UInt8 → SecretKey) :
    ∃ run key, Run N e sk run key ∧ Works N e run (Fresh N fits key) := by
  have hT' := sorted_proper hT
  obtain ⟨run, key, hrun, hkey, hdec⟩ := hF (idxs (sorted e)) e.trusteesThreshold.toNat (seedOf N e sk) (idxs_nodup hT') (idxs_bounds hT') hT.threshold
    (by rw [idxs_length]; exact hT'.enough)
  refine ⟨run, key, ⟨hrun, hkey⟩, ?_⟩
  rintro _ m ⟨hf, r, rfl⟩
  exact hdec m r hf

/-- ciphertexts of these selections -/
def EncryptsTo (Enc : Ciphertext → Bytes → Prop) (cts : List Ciphertext) (vote : List Selection) : Prop :=
  List.Forall₂ (fun c s => IsText s.selection ∧ Enc c s.encode) cts vote

theorem EncryptsTo.get {Enc : Ciphertext → Bytes → Prop} {cts : List Ciphertext} {vote : List Selection} (h : EncryptsTo Enc cts vote) {j : Nat} {c : Ciphertext} {s : Selection}
    (hc : cts[j]? = some c) (hs : vote[j]? = some s) : IsText s.selection ∧ Enc c s.encode := by
  induction h generalizing j with
  | nil => cases hc
  | cons h _ ih =>
    cases j with
    | zero =>
      cases hc
      cases hs
      exact h
    | succ j => exact ih hc hs

theorem full_idx {tr : Trustee} (h : tr ∈ e.getFullTrustees) : tr.index.toNat ∈ idxs (sorted e) := List.mem_map.2 ⟨tr, mem_sorted_full.2 h, rfl⟩

theorem encryptVote_length (N : NodeEnv) (key : ElGamalKey) (rng : Rng) (vote : List Selection) : (encryptVote N key rng vote).length = vote.length := by
  have key' : ∀ (k : Nat) (vote : List Selection), (encryptVoteFrom N key rng k vote).length = vote.length := by
    intro k vote
    induction vote generalizing k with
    | nil => rfl
    | cons s ss ih => simp only [encryptVoteFrom, List.length_cons, ih]
  exact key' 0 vote

theorem encryptVote_encrypts {rng : Rng} {vote : List Selection} (hv : ∀ s ∈ vote, IsText s.selection ∧ fits s.encode) :
    EncryptsTo (Fresh N fits key) (encryptVote N key rng vote) vote := by
  have key' : ∀ (k : Nat) (vote : List Selection), (∀ s ∈ vote, IsText s.selection ∧ fits s.encode) → EncryptsTo (Fresh N fits key) (encryptVoteFrom N key rng k vote) vote := by
    intro k vote hv
    induction vote generalizing k with
    | nil => exact .nil
    | cons s ss ih => exact .cons ⟨(hv s (by simp)).1, (hv s (by simp)).2, _, rfl⟩ (ih _ fun s hs => hv s (by simp [hs]))
  exact key' 0 vote hv

variable {Enc : Ciphertext → Bytes → Prop}

/-- Honest decryption shares of at least a quorum decrypt to what was encrypted. -/
theorem quorum_decrypts (hT : ProperTrustees e) (hW : Works N e run Enc) {cts : List Ciphertext} {vote : List Selection} (hv : EncryptsTo Enc cts vote)
    {partials : List PartialDecryptionTx}
    (hpart : ∀ p ∈ partials, ∀ tr ∈ e.getFullTrustees, tr.index = p.trusteeIndex → SharesOf N run tr cts p.partialDecryption)
    (hq : e.trusteesThreshold.toNat ≤ (e.getFullTrustees.filter fun tr => decide (tr.index ∈ partials.map (·.trusteeIndex))).length) :
    decryptVote N.toEnv cts e.trusteesThreshold e.getFullTrustees ((sorted e).getFullTrustees.map (pkTx N e run key)) partials = .ok vote := by
  unfold decryptVote
  rw [decryptVoteFrom_ok]
  refine ⟨hv.length_eq.symm, fun j c s hc hs => ?_⟩
  obtain ⟨ht, hf⟩ := hv.get hc hs
  obtain ⟨rnd, hrnd⟩ := skolem_key (β := Bytes) (key := fun tr : Trustee => tr.index.toNat) (idxs_nodup hT)
    (R := fun tr r => tr.index ∈ partials.map (·.trusteeIndex) → ∃ p, lastByIndex (·.trusteeIndex) tr.index partials = some p ∧
      p.partialDecryption[j]? = some (N.partyDecrypt (run.party tr.index.toNat) c r)) (by
    intro tr htr
    by_cases hin : tr.index ∈ partials.map (·.trusteeIndex)
    · obtain ⟨p₀, hp₀, hi₀⟩ := List.mem_map.1 hin
      obtain ⟨p, hlast⟩ := lastByIndex_isSome (key := fun p : PartialDecryptionTx => p.trusteeIndex) ⟨p₀, hp₀, hi₀⟩
      obtain ⟨hmem, hidx⟩ := lastByIndex_mem hlast
      obtain ⟨r, hr⟩ := (hpart p hmem tr htr hidx.symm).2 j c hc
      exact ⟨r, fun _ => ⟨p, hlast, hr⟩⟩
    · exact ⟨[], fun h => absurd h hin⟩)
  have hshares : CB.sharesFor e.getFullTrustees ((sorted e).getFullTrustees.map (pkTx N e run key)) partials (0 + j) =
      .ok ((e.getFullTrustees.filter fun tr => decide (tr.index ∈ partials.map (·.trusteeIndex))).map fun tr =>
        (tr.index.toNat, N.partyProof (run.party tr.index.toNat), N.partyDecrypt (run.party tr.index.toNat) c (rnd tr.index.toNat))) := by
    unfold CB.sharesFor
    apply flatMapM_filter
    intro tr htr
    obtain ⟨pk, hpk1⟩ := lastByIndex_isSome (key := fun p : KeyGenPublicKeyTx => p.trusteeIndex) (i := tr.index)
      (l := (sorted e).getFullTrustees.map (pkTx N e run key)) ⟨_, List.mem_map_of_mem (mem_sorted_full.2 htr), rfl⟩
    obtain ⟨hpk2, hpk3⟩ := lastByIndex_mem hpk1
    obtain ⟨tr', -, rfl⟩ := List.mem_map.1 hpk2
    have hpk3 : tr'.index = tr.index := hpk3
    have hproof : (pkTx N e run key tr').publicKeyProof = N.partyProof (run.party tr.index.toNat) := by
      show N.partyProof (run.party tr'.index.toNat) = _
      rw [hpk3]
    rw [hpk1]
    by_cases hin : tr.index ∈ partials.map (·.trusteeIndex)
    · obtain ⟨p, hlast, hd⟩ := hrnd tr htr hin
      rw [hlast]
      simp only [Nat.zero_add, hd, Res.unwrap, Res.bind_def, Res.ok_bind, Res.pure_def, hin, decide_true, if_true, hproof]
    · have : lastByIndex (·.trusteeIndex) tr.index partials = none := by
        cases hl : lastByIndex (·.trusteeIndex) tr.index partials with
        | none => rfl
        | some p =>
          obtain ⟨h1, h2⟩ := lastByIndex_mem hl
          exact absurd (List.mem_map.2 ⟨p, h1, h2⟩) hin
      rw [this]
      simp [hin]
  refine ⟨_, s.encode, hshares, ?_, C49_selection_roundtrip s ht⟩
  have := (hW c s.encode hf).2 ((e.getFullTrustees.filter fun tr => decide (tr.index ∈ partials.map (·.trusteeIndex))).map fun tr => tr.index.toNat)
    rnd ?_ ?_ ?_
  · rw [List.map_map] at this
    exact this
  · exact List.Nodup.sublist (List.Sublist.map _ List.filter_sublist) (idxs_nodup hT)
  · intro i hi
    obtain ⟨tr, htr, rfl⟩ := List.mem_map.1 hi
    exact full_idx (List.mem_filter.1 htr).1
  · rw [List.length_map]; exact hq

/-- counting the trustees whose indices are listed -/
theorem quorum_count {I : List UInt8} (hI : I.Nodup) (hmem : ∀ i ∈ I, ∃ tr ∈ e.getFullTrustees, tr.index = i) {J : List UInt8} (hJ : ∀ i ∈ I, i ∈ J) :
    I.length ≤ (e.getFullTrustees.filter fun tr => decide (tr.index ∈ J)).length := by
  have := (List.Nodup.subperm hI (l₂ := (e.getFullTrustees.filter fun tr => decide (tr.index ∈ J)).map (·.index)) (by
    intro i hi
    obtain ⟨tr, htr, rfl⟩ := hmem i hi
    exact List.mem_map_of_mem (List.mem_filter.2 ⟨htr, by simpa using hJ _ hi⟩))).length_le
  rwa [List.length_map] at this

/-! ## Networks -/

theorem permitted_of_fair {ev : Event} (h : Fair N K e ev) : Permitted K e ev := by
  cases ev with
  | submit t => exact fun hf => (h hf).1
  | deliver i => trivial
  | react k rng m v => exact h

theorem fair_of_nodes {ev : Event} (h : NodesOnly K ev) : Fair N K e ev := by
  cases ev with
  | submit t => exact h.elim
  | deliver i => trivial
  | react k rng m v => exact h

/-- a state of the network while the election is held -/
structure Held (N : NodeEnv) (K : List SecretKey) (e : ElectionTx) (sk : UInt8 → SecretKey) (run : KeyGenRun N) (key : ElGamalKey) (s : Network) : Prop where
  nodes : Nodes N K e sk
  keygen : Run N e sk run key
  hist : Network.History N (Fair N K e) s
  orderly : Orderly N e sk run key s.ledger

theorem held_run (hN : Nodes N K e sk) (hR : Run N e sk run key) (evs : List Event) (hq : ∀ ev ∈ evs, Fair N K e ev)
    (he : ElectionAt (Network.run N evs).store.toStore e.id e) : Held N K e sk run key (Network.run N evs) :=
  ⟨hN, hR, Network.history_run evs hq, (live_run hN hR evs (fun ev hev => permitted_of_fair (hq ev hev)) he).inv.orderly⟩

variable {s : Network}

/-- the store after `v` transactions -/
abbrev at' (s : Network) (v : Nat) : Store := (MemStore.ofList (s.ledger.take v)).toStore

theorem mem_take {α : Type} {l : List α} {v : Nat} {t : α} (h : t ∈ l.take v) : ∃ i < v, l[i]? = some t := by
  obtain ⟨i, hi⟩ := List.getElem?_of_mem h
  rw [List.getElem?_take] at hi
  split at hi
  · rename_i hlt; exact ⟨i, hlt, hi⟩
  · cases hi

theorem take_mem {α : Type} {l : List α} {i v : Nat} {t : α} (h : l[i]? = some t) (hv : i < v) : t ∈ l.take v :=
  List.mem_of_getElem? (i := i) (by rw [List.getElem?_take, if_pos hv]; exact h)

theorem Held.in_take (h : Held N K e sk run key s) {v : Nat} {t : SignedTx} : InStore (at' s v) t ↔ t ∈ s.ledger.take v :=
  Network.stored_iff_mem (Network.nodup_take h.hist.sound.nodup v) t

theorem Held.extends (h : Held N K e sk run key s) {v w : Nat} (hvw : v ≤ w) : Extends (MemStore.ofList (s.ledger.take v)) (MemStore.ofList (s.ledger.take w)) :=
  Network.extends_prefix (Network.nodup_take h.hist.sound.nodup w) (by
    rw [show s.ledger.take v = (s.ledger.take w).take v by rw [List.take_take, Nat.min_eq_left hvw]]
    exact List.take_prefix _ _)

theorem Held.filled_mono (h : Held N K e sk run key s) {v w : Nat} (hvw : v ≤ w) {ty : TxType} (hF : Filled e (at' s v) ty) : Filled e (at' s w) ty :=
  fun tr htr => (hF tr htr).imp fun _ hx => h.extends hvw _ _ hx

theorem Held.slot_mono (h : Held N K e sk run key s) {v w : Nat} (hvw : v ≤ w) {id : Identifier} {ty : TxType} (hF : SlotFilled (at' s v) id ty) : SlotFilled (at' s w) id ty :=
  hF.imp fun _ hx => h.extends hvw _ _ hx

theorem Held.view (h : Held N K e sk run key s) {v : Nat} (he : ElectionAt (at' s v) e.id e) : View N e sk run key (at' s v) := (h.orderly.take v).view he

theorem Held.uniq (h : Held N K e sk run key s) {v : Nat} {x : ElectionTx} (hx : ElectionAt (at' s v) e.id x) : x = e := (h.orderly.take v).uniq x hx

/-- Public keys are posted only after all shares. -/
theorem Held.shares_of_pk (h : Held N K e sk run key s) {v : Nat} {t : SignedTx} (ht : t ∈ s.ledger.take v) (hf : t.id.electionId = e.id.electionId)
    (hk : kindOf t = .keyGenPublicKey) : Filled e (at' s v) .keyGenShare := by
  obtain ⟨i, hiv, hi⟩ := mem_take ht
  rcases h.hist.listed i t hi with hq | ⟨k, _, _, _, hq, w, hw, x, rng, l, hx, hl, hd⟩
  · exact absurd (by rw [hk]; simp [SetupKind]) (hq hf).1
  · have hin := (h.in_take (v := w)).2 hx
    have hL := h.hist.sound.ledger w
    obtain ⟨-, h1, -⟩ := emitted hL.lawful hin hl hd
    obtain ⟨h2, he⟩ := (h.orderly.take w).names hx (h1 ▸ hf)
    exact h.filled_mono (by omega) (publicKey_follows h.nodes (h.view he) hin h2 hl hd hk)

/-- An encryption key is only accepted after all public keys, and is theirs. -/
theorem Held.key_at (h : Held N K e sk run key s) {v : Nat} {t : SignedTx} (ht : (at' s v).getTransaction (singleId e.id .encryptionKey) = some t) :
    ∃ ek, t = .encryptionKey ek ∧ ek.tx.encryptionKey = key ∧ Filled e (at' s v) .keyGenPublicKey := by
  obtain ⟨hm, hid⟩ := (Network.get_some (Network.nodup_take h.hist.sound.nodup v)).1 ht
  have hin := (h.in_take (v := v)).2 hm
  have hty := (h.hist.sound.ledger v).replay.typedStore t hin
  rw [hid] at hty
  obtain ⟨i, hiv, hi⟩ := mem_take hm
  cases t with
  | encryptionKey x =>
    have hf : (SignedTx.encryptionKey x).id.electionId = e.id.electionId := by rw [hid]; rfl
    obtain ⟨k, hx⟩ := h.orderly.honest _ (List.mem_of_getElem? hi) hf
    have hv := h.hist.accepted i _ hi
    have hxe : x.tx.election = e.id := by rw [hx]; rfl
    obtain ⟨e', he', -⟩ := EncryptionKeyTx.validateTx_ok.1 (SignedTx.validate_ok.1 hv).2.2
    rw [hxe] at he'
    have := h.uniq he'
    subst this
    obtain ⟨h1, h2⟩ := accepted_key h.nodes (h.view he') hx hv
    refine ⟨x, rfl, ?_, h.filled_mono (by omega) h2⟩
    rw [hx, ← h1]
    rfl
  | _ => simp [kindOf, singleId] at hty

theorem exists_full (hT : ProperTrustees e) : ∃ tr, tr ∈ e.getFullTrustees := List.exists_mem_of_length_pos (by
  rw [full_length]; have := hT.threshold; have := hT.enough; omega)

/-- When a vote is accepted the election is set up and voting is open. -/
theorem Held.vote_at (h : Held N K e sk run key s) {i : Nat} {vt : Signed VoteTx} (hi : s.ledger[i]? = some (.vote vt)) (hf : vt.tx.id.electionId = e.id.electionId) :
    vt.tx.election = e.id ∧ vt.tx.id.txType = .vote ∧ ElectionAt (at' s i) e.id e ∧ ¬ SlotFilled (at' s i) e.id .votingEnd ∧
      (∃ ek, (at' s i).getTransaction (singleId e.id .encryptionKey) = some (.encryptionKey ek) ∧ ek.tx.encryptionKey = key) ∧
      Filled e (at' s i) .keyGenPublicKey ∧ Filled e (at' s i) .keyGenShare := by
  have hv := h.hist.accepted i _ hi
  have hL := h.hist.sound.ledger i
  obtain ⟨hid, e', he', -, hk, hve, -⟩ := (VoteTx.validateTx_ok hL.lawful).1 (SignedTx.validate_ok.1 hv).2.2
  have hm := List.mem_of_getElem? hi
  have h1 : (electionOf (.vote vt)).electionId = e.id.electionId := by
    rw [← hf, hid]
    rfl
  obtain ⟨h2, -⟩ := h.orderly.names hm h1
  have h2 : vt.tx.election = e.id := h2
  rw [h2] at he' hk hve
  have := h.uniq he'
  subst this
  obtain ⟨t, ht⟩ := hk
  obtain ⟨ek, rfl, h3, h4⟩ := h.key_at ht
  refine ⟨h2, by rw [hid]; rfl, he', hve, ⟨ek, ht, h3⟩, h4, ?_⟩
  obtain ⟨tr, htr⟩ := exists_full h.nodes.trustees
  obtain ⟨x, hx⟩ := h4 tr htr
  obtain ⟨h5, h6⟩ := (Network.get_some (Network.nodup_take h.hist.sound.nodup i)).1 hx
  refine h.shares_of_pk h5 (by rw [h6]; rfl) ?_
  rw [← hL.replay.typedStore x (h.in_take.2 h5), h6]
  rfl

/-- A partial decryption filed under the election, if somebody else than a node had submitted it, would have a trustee's signature. -/
theorem Held.partial_signed (h : Held N K e sk run key s) {p : Signed PartialDecryptionTx} {i : Nat} (hi : s.ledger[i]? = some (.partialDecryption p))
    (hf : p.tx.id.electionId = e.id.electionId) : SignedByTrustee N.toEnv e (.partialDecryption p) := by
  obtain ⟨-, hsig, hv⟩ := SignedTx.validate_ok.1 (h.hist.accepted i _ hi)
  obtain ⟨e', he', ⟨tr, htr, -, htr2⟩, hid, -⟩ := PartialDecryptionTx.validateTx_ok.1 hv
  have hname : p.tx.electionId = e.id := (h.orderly.names (List.mem_of_getElem? hi) (by rw [← hf, hid]; rfl)).1
  rw [hname] at he'
  have := h.uniq he'
  subst this
  exact ⟨tr, htr, by rw [htr2]; rfl, hsig⟩

/-- All partial decryptions filed under an election without mixnet are the trustees'. -/
theorem Held.partial_honest (h : Held N K e sk run key s) (hp : e.mixConfig = none) {t : SignedTx} (ht : t ∈ s.ledger) (hf : t.id.electionId = e.id.electionId) (hk : kindOf t = .partialDecryption) :
    ∃ tr ∈ e.getFullTrustees, ∃ v : Signed VoteTx, .vote v ∈ s.ledger ∧ v.tx.id.electionId = e.id.electionId ∧ ∃ ev ∈ v.tx.encryptedVotes, ∃ ds,
      SharesOf N run tr ev.selections ds ∧ t = partialTx N e sk tr v.tx.id 0 ev.contestIndex ds := by
  obtain ⟨i, hi⟩ := List.getElem?_of_mem ht
  rcases h.hist.listed i t hi with hq | ⟨k, _, _, _, hq, w, hw, x, rng, l, hx, hl, hd⟩
  · exfalso
    refine (hq hf).2 hk ?_
    cases t with
    | partialDecryption p => exact h.partial_signed hi hf
    | _ => simp [kindOf] at hk
  · have hin := (h.in_take (v := w)).2 hx
    have hL := h.hist.sound.ledger w
    obtain ⟨-, h1, -⟩ := emitted hL.lawful hin hl hd
    obtain ⟨h2, he⟩ := (h.orderly.take w).names hx (h1 ▸ hf)
    obtain ⟨vs, rfl⟩ := partial_follows hL.lawful he hp hin h2 hl hd hk
    obtain ⟨tr, htr, v, hv, hvf, ev, hev, ds, hds, hsh⟩ := votingEnd_emitted h.nodes h.keygen (h.view he) hp hq h2 hl hd
    obtain ⟨j, hjw, hj⟩ := mem_take (h.in_take.1 hv)
    have hF := (h.vote_at hj hvf).2.2.2.2.2.2
    exact ⟨tr, htr, v, List.mem_of_getElem? hj, hvf, ev, hev, ds, hsh (h.filled_mono (by omega) hF), hds⟩

end Setup
end CB
