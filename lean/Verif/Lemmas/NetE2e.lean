import Verif.Lemmas.NetMixFinish
import Verif.Spec.NetworkE2e
import Verif.Props.E2eHonest
/-!
# Networks of nodes leave orderly ledgers
-/

namespace CB
open Spec Server

namespace Setup

variable {N : NodeEnv} {K : List SecretKey} {e : ElectionTx} {sk : UInt8 → SecretKey} {run : KeyGenRun N} {key : ElGamalKey} {fits : Bytes → Prop} {s : Network}

theorem fairE2e_of_nodes {ev : Event} (h : NodesOnly K ev) : FairE2e N K e ev := by
  refine ⟨fairMix_of_nodes h, ?_⟩
  rintro x rfl
  exact h.elim

/-- a state of the network while an election is held that can be verified -/
structure CleanHeld (N : NodeEnv) (K : List SecretKey) (e : ElectionTx) (sk : UInt8 → SecretKey) (run : KeyGenRun N) (key : ElGamalKey) (s : Network) : Prop
    extends Held N K e sk run key s where
  chist : Network.History N (FairE2e N K e) s
  fmix : Network.History N (FairMix N K e) s

theorem cleanHeld_run (hN : Nodes N K e sk) (hR : Run N e sk run key) (evs : List Event) (hq : ∀ ev ∈ evs, FairE2e N K e ev)
    (he : ElectionAt (Network.run N evs).store.toStore e.id e) : CleanHeld N K e sk run key (Network.run N evs) :=
  ⟨held_run hN hR evs (fun ev hev => fair_of_mix (hq ev hev).1) he, Network.history_run evs hq, Network.history_run evs fun ev hev => (hq ev hev).1⟩

theorem CleanHeld.mixHeld (h : CleanHeld N K e sk run key s) (hp : e.mixConfig ≠ none) : MixHeld N K e sk run key s := ⟨h.toHeld, h.fmix, hp⟩

/-- partial decryptions filed under the election are about something of it -/
theorem CleanHeld.partial_upstream (h : CleanHeld N K e sk run key s) {p : Signed PartialDecryptionTx} (hp : .partialDecryption p ∈ s.ledger) (hf : p.tx.id.electionId = e.id.electionId) :
    p.tx.upstreamId.electionId = e.id.electionId := by
  by_cases hm : e.mixConfig = none
  · obtain ⟨tr, _, v, _, hvf, ev, _, ds, _, heq⟩ := h.toHeld.partial_honest hm hp hf rfl
    injection heq with heq
    rw [heq]
    exact hvf
  · obtain ⟨-, tr, _, m, _, hmf, j, cts, _, ds, _, heq⟩ := (h.mixHeld hm).partial_honest hp hf rfl
    injection heq with heq
    rw [heq]
    exact hmf

/-- and so are decryptions -/
theorem CleanHeld.decryption_upstream (h : CleanHeld N K e sk run key s) {d : Signed DecryptionTx} (hd : .decryption d ∈ s.ledger) (hf : d.tx.id.electionId = e.id.electionId) :
    d.tx.electionId = e.id ∧ d.tx.upstreamId.electionId = e.id.electionId := by
  obtain ⟨i, hi⟩ := List.getElem?_of_mem hd
  obtain ⟨hid, -⟩ := DecryptionTx.validateTx_ok.1 (SignedTx.validate_ok.1 (h.hist.accepted i _ hi)).2.2
  have hname : d.tx.electionId = e.id := (h.orderly.names hd (by rw [← hf]; show _ = d.tx.id.electionId; rw [hid]; rfl)).1
  refine ⟨hname, ?_⟩
  rcases h.fmix.listed i _ hi with hq | ⟨k, _, _, _, hq, w, hw, x, rng, l, hx, hl, hdl⟩
  · exact hq.2.2 d rfl hname
  have hxin := (h.in_take (v := w)).2 hx
  have hL := h.hist.sound.ledger w
  obtain ⟨-, h1, hfol⟩ := emitted hL.lawful hxin hl hdl
  obtain ⟨h2, hew⟩ := (h.orderly.take w).names hx (h1 ▸ hf)
  cases x with
  | partialDecryption y =>
    have h2 : y.tx.electionId = e.id := h2
    rcases C46_decryption_accepted N rng k _ hL _ hxin e (by rw [h2]; exact hew) l hl with rfl | ⟨d, rfl, -, h3, -⟩
    · cases hdl
    rw [List.mem_singleton] at hdl
    cases hdl
    obtain ⟨hyid, -⟩ := hL.replay.partial_id hxin |>.2
    rw [h3]
    exact h.partial_upstream (List.mem_of_mem_take hx) (by show y.tx.id.electionId = _; rw [hyid, h2]; rfl)
  | _ => simp [follows, kindOf] at hfol

/-- Everything filed under the election is orderly. -/
theorem CleanHeld.orderly_at (h : CleanHeld N K e sk run key s) (hD : DistinctVoters s.store.toStore e) {i : Nat} {t : SignedTx} (hi : s.ledger[i]? = some t)
    (hf : t.id.electionId = e.id.electionId) : Spec.Orderly (MemStore.ofList (s.ledger.take i)) t := by
  have hm := List.mem_of_getElem? hi
  have hon := h.orderly.honest t hm hf
  cases t with
  | election x =>
    have hty := h.hist.sound.whole.replay.typedStore _ (h.in_ledger.2 hm)
    have h1 : x.tx.id = e.id := by
      have := (ElectionTx.validateTx_ok.1 (SignedTx.validate_ok.1 (h.hist.accepted i _ hi)).2.2).1
      rw [this, h.orderly.wf, show x.tx.id.electionId = e.id.electionId from hf]
    have := h.orderly.uniq x.tx ⟨x.sig, by rw [← h1]; exact h.in_ledger.2 hm⟩
    intro tr htr
    rw [this] at htr
    exact h.nodes.trustees.nonzero tr htr
  | keyGenCommitment x =>
    obtain ⟨tr, _, rfl⟩ := hon
    rfl
  | keyGenShare x =>
    obtain ⟨tr, _, p, _, rfl⟩ := hon
    rfl
  | keyGenPublicKey x =>
    obtain ⟨tr, _, rfl⟩ := hon
    rfl
  | encryptionKey x =>
    obtain ⟨k, hk⟩ := hon
    show x.tx.election.electionId = x.tx.id.electionId
    rw [hk]
    rfl
  | votingEnd x =>
    show x.tx.election.electionId = x.tx.id.electionId
    have hf : x.tx.id.electionId = e.id.electionId := hf
    rw [hf]
    rcases h.chist.listed i _ hi with hq | ⟨k, _, _, _, hq, w, hw, y, rng, l, hy, hl, hd⟩
    · exact hq.2 x rfl hf
    · have hL := h.hist.sound.ledger w
      obtain ⟨-, -, hfol⟩ := emitted hL.lawful (h.in_take.2 hy) hl hd
      simp [follows, kindOf] at hfol
  | vote x =>
    intro v hv hve hkey
    obtain ⟨h1, -⟩ := h.vote_at hi hf
    have hvm := h.in_take.1 hv
    obtain ⟨j, hji, hj⟩ := mem_take hvm
    have hvf : v.tx.id.electionId = e.id.electionId := by
      obtain ⟨hid, -⟩ := (VoteTx.validateTx_ok (h.hist.sound.ledger j).lawful).1 (SignedTx.validate_ok.1 (h.hist.accepted j _ hj)).2.2
      rw [hid, ← h1, ← hve]
      rfl
    have h2 := (h.vote_at hj hvf).1
    have := hD v x (h.in_ledger.2 (List.mem_of_mem_take hvm)) (h.in_ledger.2 hm) h2 h1 hkey
    subst this
    have := position_unique h.hist.sound.nodup hi hj rfl
    omega
  | mix x =>
    have hmc : e.mixConfig ≠ none := by
      obtain ⟨hname, he, -⟩ := h.mix_at hi hf
      obtain ⟨-, e', he', hmc, -⟩ := (MixTx.validateTx_ok (h.hist.sound.ledger i).lawful).1 (SignedTx.validate_ok.1 (h.hist.accepted i _ hi)).2.2
      rw [hname] at he'
      rw [← h.uniq he']
      exact hmc
    obtain ⟨vs, hvs, hid, -⟩ := (h.mixHeld hmc).mix_honest hi hf
    have hname := (h.mix_at hi hf).1
    refine ⟨.votingEnd vs, ?_⟩
    rw [hname, ← hid]
    exact h.in_take.2 hvs
  | partialDecryption x =>
    obtain ⟨-, -, -, hid, -⟩ := PartialDecryptionTx.validateTx_ok.1 (SignedTx.validate_ok.1 (h.hist.accepted i _ hi)).2.2
    have hf : x.tx.id.electionId = e.id.electionId := hf
    show x.tx.upstreamId.electionId = x.tx.electionId.electionId
    rw [h.partial_upstream hm hf, ← hf, hid]
    rfl
  | decryption x =>
    obtain ⟨h1, h2⟩ := h.decryption_upstream hm hf
    show x.tx.upstreamId.electionId = x.tx.electionId.electionId
    rw [h2, h1]

theorem CleanHeld.ledger (h : CleanHeld N K e sk run key s) (hD : DistinctVoters s.store.toStore e) {P : BArr 15 → Prop}
    (hP : ∀ t ∈ s.ledger, P t.id.electionId → t.id.electionId = e.id.electionId) (v : Nat) : OrderlyLedger N.toEnv P (MemStore.ofList (s.ledger.take v)) := by
  induction v with
  | zero => exact .empty
  | succ v ih =>
    by_cases hv : v < s.ledger.length
    · have hi : s.ledger[v]? = some s.ledger[v] := List.getElem?_eq_getElem hv
      rw [List.take_succ_eq_append_getElem hv, (C06_memstore_is_map _).2.2.1]
      refine .append ih ?_ (h.hist.accepted v _ hi) fun hp => h.orderly_at hD hi (hP _ (List.mem_of_getElem? hi) hp)
      rw [(C06_memstore_is_map _).2.1]
      intro t ht heq
      obtain ⟨j, hj, hj'⟩ := mem_take ht
      have := position_unique h.hist.sound.nodup hj' hi heq
      omega
    · rw [List.take_of_length_le (by omega)]
      rwa [List.take_of_length_le (by omega)] at ih

end Setup
end CB
