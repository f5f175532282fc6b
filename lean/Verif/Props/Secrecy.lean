import Verif.Spec.Secrecy
import Verif.Props.Blocks
import Verif.Props.E2eHonest
/-!
# C90: votes stay sealed while voting is open
-/

namespace CB
open Spec Server

namespace Secrecy

variable {N : NodeEnv}

theorem producePartials_mem {rng : Rng} {k : SecretKey} {S : Store} {e : ElectionTx} {tr : Trustee} {c : UInt32} {mt : Option MixTx}
    {l : List SignedTx} (h : producePartials N rng k S e tr c mt = .ok l) {d : SignedTx} (hd : d ∈ l) :
    ∃ items up n c' cts ds, partialItems S e c mt = .ok items ∧ (up, n, c', cts) ∈ items ∧ ds.length = cts.length ∧
      d = .partialDecryption ⟨PartialDecryptionTx.new e.id up n tr.index c' (N.edPublic k) ds,
        N.edSign k (PartialDecryptionTx.new e.id up n tr.index c' (N.edPublic k) ds).toCbor.encode⟩ := by
  simp only [producePartials, Res.bind_def, Res.bind_eq_ok] at h
  obtain ⟨_, _, _, _, _, _, items, hi, h⟩ := h
  obtain ⟨h1, h2⟩ := partialsFrom_spec h
  obtain ⟨i, hil, hid⟩ := List.mem_iff_getElem.1 hd
  obtain ⟨⟨up, n, c', cts⟩, hit⟩ : ∃ y, items[i]? = some y := ⟨_, List.getElem?_eq_getElem (by omega)⟩
  obtain ⟨ds, hds, hli⟩ := h2 i up n c' cts hit
  refine ⟨items, up, n, c', cts, ds, hi, List.mem_of_getElem? hit, (itemShares_length hds).1, ?_⟩
  rw [List.getElem?_eq_getElem hil, hid] at hli
  exact Option.some.inj hli

/-- in reaction to what a node makes decryption shares, and of what -/
theorem partial_emitted {rng : Rng} {k : SecretKey} {S : Store} (hS : Lawful S) (hT : Typed S) {x : SignedTx} (hx : InStore S x) {l : List SignedTx}
    (h : generateTransactions N rng k S x = .ok l) {p : Signed PartialDecryptionTx} (hd : .partialDecryption p ∈ l) :
    ∃ e, ElectionAt S p.tx.electionId e ∧ e.id = p.tx.electionId ∧
      ((e.mixConfig = none ∧ (∃ s, x = .votingEnd s ∧ s.tx.election = e.id) ∧ ∃ v : Signed VoteTx, InStore S (.vote v) ∧ v.tx.id.electionId = e.id.electionId ∧
          v.tx.id = p.tx.upstreamId ∧ ∃ ev ∈ v.tx.encryptedVotes, ev.contestIndex = p.tx.contestIndex) ∨
       (e.mixConfig ≠ none ∧ ∃ m : Signed MixTx, x = .mix m ∧ m.tx.electionId = e.id ∧ N.addU8 m.tx.mixIndex 1 = (.ok e.trusteesThreshold : SRes UInt8) ∧
          m.tx.id = p.tx.upstreamId ∧ m.tx.contestIndex = p.tx.contestIndex)) := by
  have hfol := (Setup.emitted hS hx h hd).2.2
  have hel : ∀ {id : Identifier} {s : Signed ElectionTx}, S.getElection id = .ok s → s.tx.id = id ∧ ElectionAt S id s.tx := by
    intro id s hs
    have : ElectionAt S id s.tx := ⟨s.sig, Store.getElection_ok.1 hs⟩
    exact ⟨electionAt_id hS this, this⟩
  cases x with
  | votingEnd s =>
    simp only [generateTransactions, processVotingEnd, Res.bind_def, Res.bind_eq_ok, v_eq_ok] at h
    obtain ⟨el, hg, h⟩ := h
    obtain ⟨hid, hex⟩ := hel hg
    split at h
    · split at h
      · split at h
        · simp only [Res.bind_eq_ok] at h
          obtain ⟨_, -, _, -, h⟩ := h
          have := (Setup.firstMixes_filed h _ hd).1
          cases this
        · cases h; cases hd
      · rename_i hmc
        split at h
        · obtain ⟨items, up, n, c', cts, ds, hitems, hmem, -, heq⟩ := producePartials_mem h hd
          cases heq
          refine ⟨el.tx, by rw [← hid] at hex; exact hex, rfl, .inl ⟨hmc, ⟨s, rfl, hid.symm⟩, ?_⟩⟩
          simp only [partialItems, Res.bind_def, Res.bind_eq_ok, Res.pure_def, Res.ok.injEq] at hitems
          obtain ⟨votes, hvotes, rfl⟩ := hitems
          obtain ⟨ss, -, hget, -, hall⟩ := getAll_votes hS hT el.tx
          rw [hget] at hvotes
          cases hvotes
          obtain ⟨vt, hvt, hev⟩ := List.mem_flatMap.1 hmem
          obtain ⟨v, hv, rfl⟩ := List.mem_map.1 hvt
          obtain ⟨ev, hev, heq⟩ := List.mem_map.1 hev
          simp only [Prod.mk.injEq] at heq
          obtain ⟨hin, hfiled, -⟩ := (hall.1 (.vote v)).2 ⟨v, hv, rfl⟩
          exact ⟨v, hin, hfiled, heq.1, ev, hev, heq.2.2.1⟩
        · cases h; cases hd
    · cases h; cases hd
  | mix s =>
    simp only [generateTransactions, processMix, Res.bind_def, Res.bind_eq_ok, v_eq_ok] at h
    obtain ⟨el, hg, h⟩ := h
    obtain ⟨hid, hex⟩ := hel hg
    split at h
    · split at h
      · rename_i cfg hcfg
        simp only [Res.bind_eq_ok] at h
        obtain ⟨next, hnext, h⟩ := h
        split at h
        · rename_i hth
          obtain ⟨items, up, n, c', cts, ds, hitems, hmem, -, heq⟩ := producePartials_mem h hd
          cases heq
          refine ⟨el.tx, by rw [← hid] at hex; exact hex, rfl, .inr ⟨by rw [hcfg]; simp, s, rfl, hid.symm, by rw [hth]; exact hnext, ?_⟩⟩
          simp only [partialItems, Res.ok.injEq] at hitems
          subst hitems
          obtain ⟨i, hi, heq⟩ := List.mem_mapIdx.1 hmem
          simp only [Prod.mk.injEq] at heq
          exact ⟨heq.1, heq.2.2.1⟩
        · simp only [Res.bind_eq_ok] at h
          obtain ⟨_, -, h⟩ := h
          split at h
          · simp only [Res.bind_eq_ok] at h
            obtain ⟨_, -, _, -, s', hs, h⟩ := h
            cases h
            rw [List.mem_singleton] at hd
            cases hd
          · cases h; cases hd
      · cases h; cases hd
    · cases h; cases hd
  | _ => simp [Setup.follows, kindOf] at hfol

/-- while voting is open, what is on the ledger -/
structure Open (N : NodeEnv) (e : ElectionTx) (H : List PublicKey) (s : Network) : Prop where
  hist : Network.History N (VotingOpen N.toEnv e H) s
  election : ElectionAt s.store.toStore e.id e
  trustees : ProperTrustees e

variable {e : ElectionTx} {H : List PublicKey} {s : Network}

theorem Open.uniq (h : Open N e H s) {w : Nat} {e' : ElectionTx} (he : ElectionAt (MemStore.ofList (s.ledger.take w)).toStore e.id e') : e' = e := by
  obtain ⟨sg, he⟩ := he
  obtain ⟨sg', he'⟩ := h.election
  have hx := (Network.get_some (h.hist.sound.nodup.sublist ((List.take_sublist w s.ledger).map _))).1 he
  have hy := (Network.get_some h.hist.sound.nodup).2 ⟨List.mem_of_mem_take hx.1, hx.2⟩
  have : some (SignedTx.election ⟨e', sg⟩) = some (.election ⟨e, sg'⟩) := hy.symm.trans he'
  cases this
  rfl

/-- nobody has ended the voting -/
theorem Open.no_end (h : Open N e H s) {x : Signed VotingEndTx} (hx : .votingEnd x ∈ s.ledger) : x.tx.election ≠ e.id := by
  intro hn
  obtain ⟨i, hi⟩ := List.getElem?_of_mem hx
  obtain ⟨-, hsig, hv⟩ := SignedTx.validate_ok.1 (h.hist.accepted i _ hi)
  obtain ⟨e', he', hauth⟩ := VotingEndTx.validateTx_ok.1 hv
  rw [hn] at he'
  have := h.uniq he'
  subst this
  rcases h.hist.listed i _ hi with hq | ⟨k, _, _, _, hq, w, hw, y, rng, l, hy, hl, hd⟩
  · exact (hq hsig).1 x rfl hn hauth
  · have hL := h.hist.sound.ledger w
    have hyin := (Network.stored_iff_mem (h.hist.sound.nodup.sublist ((List.take_sublist w s.ledger).map _)) y).2 hy
    have := (Setup.emitted hL.lawful hyin hl hd).2.2
    revert this
    cases y <;> simp [Setup.follows, kindOf]

/-- what a stored mix of the election passed -/
theorem Open.mix_at (h : Open N e H s) {i : Nat} {m : Signed MixTx} (hi : s.ledger[i]? = some (.mix m)) (hn : m.tx.electionId = e.id) :
    IsTrustee e m.tx.trusteeIndex m.tx.trusteePublicKey ∧ m.tx.mixIndex.toNat + 1 = m.tx.trusteeIndex.toNat ∧ SignatureValid N.toEnv (.mix m) ∧
      ∃ inputs, MixInputs (MemStore.ofList (s.ledger.take i)).toStore m.tx inputs := by
  obtain ⟨-, hsig, hv⟩ := SignedTx.validate_ok.1 (h.hist.accepted i _ hi)
  obtain ⟨_, e', he', -, htr, -, hidx, -, inputs, hin, -⟩ := (MixTx.validateTx_ok (h.hist.sound.ledger i).lawful).1 hv
  rw [hn] at he'
  have := h.uniq he'
  subst this
  refine ⟨htr, ?_, hsig, inputs, hin⟩
  obtain ⟨tr, htr1, htr2, -⟩ := htr
  have hnz := h.trustees.nonzero tr htr1
  rw [hidx, ← htr2]
  have h1 : tr.index.toNat ≠ 0 := fun h0 => hnz (UInt8.toNat_inj.1 h0)
  have h2 := tr.index.toNat_lt
  rw [UInt8.toNat_sub]
  simp
  omega

/-- those who leave mixing to their nodes have not mixed -/
theorem Open.no_mix (h : Open N e H s) {m : Signed MixTx} (hm : .mix m ∈ s.ledger) (hn : m.tx.electionId = e.id) : m.tx.trusteePublicKey ∉ H := by
  obtain ⟨i, hi⟩ := List.getElem?_of_mem hm
  obtain ⟨-, -, hsig, inputs, hin⟩ := h.mix_at hi hn
  rcases h.hist.listed i _ hi with hq | ⟨k, _, _, _, hq, w, hw, x, rng, l, hx, hl, hd⟩
  · exact (hq hsig).2 m rfl hn
  exfalso
  have hL := h.hist.sound.ledger w
  have hxin := (Network.stored_iff_mem (h.hist.sound.nodup.sublist ((List.take_sublist w s.ledger).map _)) x).2 hx
  obtain ⟨⟨e', he'⟩, hfiled, hfol⟩ := Setup.emitted hL.lawful hxin hl hd
  have hname : electionOf x = e.id := by
    have h1 := E2e.election_id_eq hL.replay he'
    have h2 := E2e.election_id_eq h.hist.sound.whole.replay h.election
    have h3 : m.tx.id.electionId = e.id.electionId := by
      rw [((MixTx.validateTx_ok (h.hist.sound.ledger i).lawful).1 (SignedTx.validate_ok.1 (h.hist.accepted i _ hi)).2.2).1, hn]
      rfl
    have h4 : m.tx.id.electionId = (electionOf x).electionId := hfiled
    rw [h1, h2, ← h4, h3]
  cases x with
  | mix y =>
    have hname : y.tx.electionId = e.id := hname
    obtain ⟨j, hj⟩ := List.getElem?_of_mem (List.mem_of_mem_take hx)
    obtain ⟨-, hyi, -⟩ := h.mix_at hj hname
    obtain ⟨tr, next, -, hnext, hcase⟩ := Setup.mix_emits (e := e') he' hl hd
    rcases hcase with ⟨-, hprod⟩ | ⟨m', heq, hprev, hnx⟩
    · have := (Setup.producePartials_filed hprod _ hd).1
      cases this
    · cases heq
      cases hin with
      | first _ h0 _ _ =>
        rw [hnx] at h0
        rw [Env.addU8_ok] at hnext
        obtain ⟨-, hn⟩ := hnext
        rw [h0] at hn
        have := congrArg UInt8.toNat hn
        rw [UInt8.toNat_add] at this
        have hlt := y.tx.trusteeIndex.toNat_lt
        simp at this
        omega
      | next hp => rw [hprev] at hp; cases hp
  | votingEnd x => exact h.no_end (List.mem_of_mem_take hx) hname
  | _ => simp [Setup.follows, kindOf] at hfol

/-- too few trustees have mixed -/
theorem Open.no_final (h : Open N e H s) (hfew : TooFewOthers e H) {m : Signed MixTx} (hm : .mix m ∈ s.ledger) (hn : m.tx.electionId = e.id) :
    N.addU8 m.tx.mixIndex 1 ≠ (.ok e.trusteesThreshold : SRes UInt8) := by
  intro hth
  have hL := h.hist.sound.whole
  have hin : ∀ t : SignedTx, InStore (MemStore.ofList s.ledger).toStore t ↔ t ∈ s.ledger := fun t => Network.stored_iff_mem h.hist.sound.nodup t
  obtain ⟨chain, hc, hlast⟩ := C24_mix_chain N.toEnv _ hL m ((hin _).2 hm)
  have hlen : m.tx.mixIndex.toNat + 1 = chain.length := by
    have hpos : 0 < chain.length := by
      rw [List.length_pos_iff]
      rintro rfl
      cases hlast
    rw [List.getLast?_eq_getElem?] at hlast
    have := (hc.index _ _ hlast).1
    omega
  have hmem : m ∈ chain := List.mem_of_getLast? hlast
  have hown : ∀ c ∈ chain, ∃ tr ∈ e.trustees.filter (fun tr => tr.publicKey ∉ H), tr.index = c.tx.trusteeIndex := by
    intro c hcm
    have hcn : c.tx.electionId = e.id := (hc.same c hcm m hmem).1.trans hn
    have hcl := (hin _).1 (hc.stored c hcm)
    obtain ⟨j, hj⟩ := List.getElem?_of_mem hcl
    obtain ⟨tr, htr, hti, htk⟩ := (h.mix_at hj hcn).1
    refine ⟨tr, List.mem_filter.2 ⟨htr, ?_⟩, hti⟩
    rw [htk]
    exact decide_eq_true (h.no_mix hcl hcn)
  have hle : chain.length ≤ (e.trustees.filter fun tr => tr.publicKey ∉ H).length := by
    have : (chain.map (·.tx.trusteeIndex)) ⊆ (e.trustees.filter fun tr => tr.publicKey ∉ H).map (·.index) := by
      intro i hi
      obtain ⟨c, hcm, rfl⟩ := List.mem_map.1 hi
      obtain ⟨tr, htr, hti⟩ := hown c hcm
      exact List.mem_map.2 ⟨tr, htr, hti⟩
    have := (hc.distinct.subperm this).length_le
    simpa using this
  obtain ⟨i, hi⟩ := List.getElem?_of_mem hm
  have hidx := (h.mix_at hi hn).2.1
  have hlt := m.tx.trusteeIndex.toNat_lt
  rw [Env.addU8_ok] at hth
  have := congrArg UInt8.toNat hth.2
  rw [UInt8.toNat_add] at this
  unfold TooFewOthers at hfew
  simp at this
  omega

/-- no node makes shares for the election -/
theorem Open.sealed (h : Open N e H s) (hfew : e.mixConfig ≠ none → TooFewOthers e H) {w : Nat} {x : SignedTx} (hx : x ∈ s.ledger.take w) {k : SecretKey} {rng : Rng} {l : List SignedTx}
    (hl : generateTransactions N rng k (MemStore.ofList (s.ledger.take w)).toStore x = .ok l) {p : Signed PartialDecryptionTx} (hp : .partialDecryption p ∈ l) :
    p.tx.electionId ≠ e.id := by
  intro hn
  have hL := h.hist.sound.ledger w
  have hxin := (Network.stored_iff_mem (h.hist.sound.nodup.sublist ((List.take_sublist w s.ledger).map _)) x).2 hx
  obtain ⟨e', he', -, hcase⟩ := partial_emitted hL.lawful hL.replay.typedStore hxin hl hp
  rw [hn] at he'
  have := h.uniq he'
  subst this
  rcases hcase with ⟨-, ⟨y, rfl, hy⟩, -⟩ | ⟨hmc, m, rfl, hm, hth, -⟩
  · exact h.no_end (List.mem_of_mem_take hx) hy
  · exact h.no_final (hfew hmc) (List.mem_of_mem_take hx) hm hth

/-- what is sent out was made in reaction to a stored transaction -/
theorem processed_made {rng : Nat → Rng} {k : SecretKey} {c : Exonum.Schema} {y : Exonum.Envelope} {xs : List Exonum.Envelope} {i : Nat}
    (h : y ∈ (Chain.processBlock N rng k c i xs).1) :
    ∃ x ∈ xs, ∃ j id t l d, Identifier.fromStr x.id = .ok id ∧ Exonum.getTransaction c id = some t ∧ generateTransactions N (rng j) k (Exonum.toStore c) t = .ok l ∧ d ∈ l ∧
      y = Exonum.Envelope.ofTx d := by
  induction xs generalizing i with
  | nil => cases h
  | cons x xs ih =>
    unfold Chain.processBlock at h
    split at h
    · rename_i out hr
      rcases List.mem_append.1 h with h | h
      · unfold react at hr
        split at hr
        · rename_i id hid
          split at hr
          · rename_i t ht
            split at hr
            · rename_i l hl
              cases hr
              obtain ⟨d, hd, rfl⟩ := List.mem_map.1 h
              exact ⟨x, by simp, i, id, t, l, d, hid, ht, hl, (List.mem_filter.1 hd).1, rfl⟩
            · cases hr
            · cases hr
          · cases hr
            cases h
        · cases hr
          cases h
        · cases hr
      · obtain ⟨x', hx', r⟩ := ih h
        exact ⟨x', by simp [hx'], r⟩
    · cases h

theorem released_made {evs : List BlockEvent} {y : Exonum.Envelope} (h : Released N evs y) :
    ∃ pre k rng j, pre ++ [.afterCommit k rng (j + 1)] <+: evs ∧ ∃ x ∈ (Chain.run N pre).blocks.getD j [], ∃ i id t l d, Identifier.fromStr x.id = .ok id ∧
      Exonum.getTransaction ((Chain.run N pre).schemaAt N.toEnv (j + 1)) id = some t ∧
      generateTransactions N (rng i) k (Exonum.toStore ((Chain.run N pre).schemaAt N.toEnv (j + 1))) t = .ok l ∧ d ∈ l ∧ y = Exonum.Envelope.ofTx d := by
  obtain ⟨pre, k, rng, h', hpre, hy⟩ := h
  rw [Chain.run_snoc] at hy
  cases h' with
  | zero => simp [Chain.step] at hy
  | succ j =>
    refine ⟨pre, k, rng, j, hpre, ?_⟩
    simp only [Chain.step] at hy
    split at hy
    · simp only [List.drop_left] at hy
      exact processed_made hy
    · simp at hy

theorem blocks_step (c : Chain) (ev : BlockEvent) : c.blocks <+: (Chain.step N c ev).blocks := by
  cases ev with
  | submit x => exact List.prefix_rfl
  | commit places => exact List.prefix_append _ _
  | lose i =>
    simp only [Chain.step]
    split <;> exact List.prefix_rfl
  | afterCommit k rng h =>
    simp only [Chain.step]
    split
    · exact List.prefix_rfl
    · split <;> exact List.prefix_rfl

theorem blocks_prefix {pre evs : List BlockEvent} (h : pre <+: evs) : (Chain.run N pre).blocks <+: (Chain.run N evs).blocks := by
  obtain ⟨post, rfl⟩ := h
  induction post using List.reverseRecOn with
  | nil => rw [List.append_nil]
  | append_singleton post ev ih =>
    rw [← List.append_assoc, Chain.run_snoc]
    exact ih.trans (blocks_step _ _)

theorem flatten_prefix {α : Type} {a b : List (List α)} (h : a <+: b) : a.flatten <+: b.flatten := by
  obtain ⟨c, rfl⟩ := h
  rw [List.flatten_append]
  exact List.prefix_append _ _

/-- what nodes send out, in terms of a prefix of the accepted transactions -/
theorem released_on_ledger {evs : List BlockEvent} (hlab : ∀ x ∈ (Chain.run N evs).blocks.flatten, Labelled x) (hrust : RustRun N evs) {y : Exonum.Envelope} (h : Released N evs y) :
    ∃ w k rng t l d, t ∈ (Exonum.accepted N.toEnv OMap.empty (Chain.run N evs).blocks.flatten).take w ∧
      generateTransactions N rng k (MemStore.ofList ((Exonum.accepted N.toEnv OMap.empty (Chain.run N evs).blocks.flatten).take w)).toStore t = .ok l ∧ d ∈ l ∧
      SignedTx.fromBytes y.data = .ok d := by
  obtain ⟨pre, k, rng, j, hpre, x, hx, i, id, t, l, d, hid, ht, hl, hd, rfl⟩ := released_made h
  have hb : ((Chain.run N pre).blocks.take (j + 1 + 1)).flatten <+: (Chain.run N evs).blocks.flatten :=
    flatten_prefix ((List.take_prefix _ _).trans (blocks_prefix ((List.prefix_append pre _).trans hpre)))
  obtain ⟨rest, hrest⟩ := hb
  obtain ⟨hs, hg⟩ := Exonum.accepted_spec N.toEnv ((Chain.run N pre).blocks.take (j + 1 + 1)).flatten fun z hz => hlab z (by rw [← hrest]; simp [hz])
  have hw : Exonum.WF ((Chain.run N pre).schemaAt N.toEnv (j + 1)) := Exonum.wf_deliverAll fun z hz => hlab z (by rw [← hrest]; exact List.mem_append_left _ hz)
  have hpref : Exonum.accepted N.toEnv OMap.empty ((Chain.run N pre).blocks.take (j + 1 + 1)).flatten <+: Exonum.accepted N.toEnv OMap.empty (Chain.run N evs).blocks.flatten := by
    rw [← hrest, Exonum.accepted_append]
    exact List.prefix_append _ _
  have ht' := ht
  rw [show Exonum.getTransaction ((Chain.run N pre).schemaAt N.toEnv (j + 1)) id = _ from hg id] at ht'
  obtain ⟨hmem, rfl⟩ := (Network.get_some hs.nodup).1 ht'
  have hin : InStore (Exonum.toStore ((Chain.run N pre).schemaAt N.toEnv (j + 1))) t := ht
  have hrd := hrust pre k rng j hpre x hx t hid hin i l hl d hd
  have hf : forget d = d := by
    have hk := (Setup.emitted (Exonum.lawful hw) hin hl hd).2.2
    cases d <;> first | rfl | (revert hk; cases t <;> simp [Setup.follows, kindOf])
  refine ⟨(Exonum.accepted N.toEnv OMap.empty ((Chain.run N pre).blocks.take (j + 1 + 1)).flatten).length, k, rng i, t, l, d, ?_, ?_, hd, ?_⟩
  · rw [← List.prefix_iff_eq_take.1 hpref]
    exact hmem
  · rw [← List.prefix_iff_eq_take.1 hpref, ← generate_congr N (rng i) k (Exonum.lawful hw) hs.whole.lawful hg t]
    exact hl
  · have := (Exonum.C37_envelope_roundtrip d hrd).1
    rwa [hf] at this

end Secrecy

/-- **C90** Take any schedule of submissions, blocks and hooks, in which submissions carry their own ids, the authority has not ended the voting of the election, and, if there is a
mixnet, all but too few of the trustees leave mixing to their nodes.  Whatever else anybody submits, no node sends out decryption shares for the election. -/
theorem C90_votes_stay_sealed_partial (N : NodeEnv) (e : ElectionTx) (hT : ProperTrustees e) (H : List PublicKey) (hfew : e.mixConfig ≠ none → TooFewOthers e H) (evs : List BlockEvent)
    (hev : ∀ ev ∈ evs, OnBlocks (VotingOpen N.toEnv e H) ev) (hrust : RustRun N evs) (he : ElectionAt (Exonum.toStore ((Chain.run N evs).schema N.toEnv)) e.id e) :
    ¬ ∃ p, SharesReleased N evs e.id p := by
  rintro ⟨p, y, hy, hd, hn⟩
  obtain ⟨n, hn', hR⟩ := Chain.run_sim (P := VotingOpen N.toEnv e H) (fun _ => trivial) evs hev hrust
  have hlab : ∀ x ∈ (Chain.run N evs).blocks.flatten, Labelled x := fun x hx => hR.labelled x (List.mem_append_left _ hx)
  obtain ⟨w, k, rng, t, l, d, ht, hl, hdl, hdec⟩ := Secrecy.released_on_ledger hlab hrust hy
  rw [hd] at hdec
  cases hdec
  rw [← hR.ledger] at ht hl
  have ho : Secrecy.Open N e H (Network.run N n) := by
    refine ⟨Network.history_run n hn', ?_, hT⟩
    obtain ⟨sg, he⟩ := he
    refine ⟨sg, ?_⟩
    have := (Exonum.accepted_spec N.toEnv _ hlab).2 e.id
    rw [← hR.ledger] at this
    exact this.symm.trans he
  exact ho.sealed hfew ht hl hdl hn

/-- **C90** Every decryption share that a node ever sends out is one of a stored vote in an election without mixnet, when an end of voting signed by the authority of the election is
stored; or one of the output of a stored mix in an election with mixnet, when as many trustees as are needed have mixed, one after the other (a number that is compared modulo 256). -/
theorem C90_what_is_opened_partial (N : NodeEnv) (evs : List BlockEvent) (hev : ∀ ev ∈ evs, OnBlocks (fun _ => True) ev) (hrust : RustRun N evs) (el : Identifier)
    (p : Signed PartialDecryptionTx) (hp : SharesReleased N evs el p) (S : Store) (hS : S = Exonum.toStore ((Chain.run N evs).schema N.toEnv)) :
    ∃ e, ElectionAt S el e ∧
      ((e.mixConfig = none ∧
          (∃ s, InStore S (.votingEnd s) ∧ s.tx.election = el ∧ s.tx.authorityPublicKey = e.authorityPublic ∧ SignatureValid N.toEnv (.votingEnd s)) ∧
          ∃ v : Signed VoteTx, InStore S (.vote v) ∧ v.tx.election = el ∧ v.tx.id = p.tx.upstreamId) ∨
       (e.mixConfig ≠ none ∧
          ∃ chain m, IsMixChain S chain ∧ chain.getLast? = some m ∧ m.tx.electionId = el ∧ UInt8.ofNat chain.length = e.trusteesThreshold ∧ m.tx.id = p.tx.upstreamId)) := by
  subst hS
  obtain ⟨y, hy, hd, hn⟩ := hp
  obtain ⟨n, hn', hR⟩ := Chain.run_sim (P := fun _ => True) (fun _ => trivial) evs hev hrust
  have hlab : ∀ x ∈ (Chain.run N evs).blocks.flatten, Labelled x := fun x hx => hR.labelled x (List.mem_append_left _ hx)
  obtain ⟨w, k, rng, t, l, d, ht, hl, hdl, hdec⟩ := Secrecy.released_on_ledger hlab hrust hy
  rw [hd] at hdec
  cases hdec
  rw [← hR.ledger] at ht hl
  have H := Network.history_run (N := N) n hn'
  have hget : ∀ id, ((Chain.run N evs).schema N.toEnv |> Exonum.toStore).getTransaction id = (MemStore.ofList (Network.run N n).ledger).toStore.getTransaction id := by
    intro id
    have := (Exonum.accepted_spec N.toEnv _ hlab).2 id
    rw [← hR.ledger] at this
    exact this
  have hin : ∀ x, InStore (Exonum.toStore ((Chain.run N evs).schema N.toEnv)) x ↔ x ∈ (Network.run N n).ledger := by
    intro x
    unfold InStore
    rw [hget]
    exact Network.stored_iff_mem H.sound.nodup x
  have hL := H.sound.ledger w
  have hnd := H.sound.nodup.sublist ((List.take_sublist w (Network.run N n).ledger).map _)
  have hup : ∀ x, InStore (MemStore.ofList ((Network.run N n).ledger.take w)).toStore x → x ∈ (Network.run N n).ledger := fun x hx =>
    List.mem_of_mem_take ((Network.stored_iff_mem hnd x).1 hx)
  have hxin := (Network.stored_iff_mem hnd t).2 ht
  obtain ⟨e, ⟨sg, he⟩, heid, hcase⟩ := Secrecy.partial_emitted hL.lawful hL.replay.typedStore hxin hl hdl
  have hel : ElectionAt (Exonum.toStore ((Chain.run N evs).schema N.toEnv)) el e := by
    refine ⟨sg, ?_⟩
    have h1 := (Network.get_some hnd).1 he
    rw [hget, ← hn]
    exact (Network.get_some H.sound.nodup).2 ⟨List.mem_of_mem_take h1.1, h1.2⟩
  refine ⟨e, hel, ?_⟩
  rcases hcase with ⟨hmc, ⟨s, rfl, hs⟩, v, hv, hve, hvu, -⟩ | ⟨hmc, m, rfl, hm, hth, hmu, -⟩
  · refine .inl ⟨hmc, ⟨s, (hin _).2 (List.mem_of_mem_take ht), hs.trans (heid.trans hn), ?_⟩, v, (hin _).2 (hup _ hv), ?_, hvu⟩
    · obtain ⟨i, hi⟩ := List.getElem?_of_mem (List.mem_of_mem_take ht)
      obtain ⟨-, hsig, hv⟩ := SignedTx.validate_ok.1 (H.accepted i _ hi)
      obtain ⟨e', ⟨sg', he'⟩, hauth⟩ := VotingEndTx.validateTx_ok.1 hv
      have hnd' := H.sound.nodup.sublist ((List.take_sublist i (Network.run N n).ledger).map _)
      have h1 := (Network.get_some hnd').1 he'
      have h2 := (Network.get_some H.sound.nodup).2 ⟨List.mem_of_mem_take h1.1, h1.2⟩
      obtain ⟨sg'', h3⟩ := hel
      rw [hget, ← hn, ← heid, ← hs] at h3
      have : some (SignedTx.election ⟨e', sg'⟩) = some (.election ⟨e, sg''⟩) := h2.symm.trans h3
      cases this
      exact ⟨hauth, hsig⟩
    · obtain ⟨i, hi⟩ := List.getElem?_of_mem (hup _ hv)
      obtain ⟨-, -, hval⟩ := SignedTx.validate_ok.1 (H.accepted i _ hi)
      obtain ⟨hid, e', he', -⟩ := (VoteTx.validateTx_ok (H.sound.ledger i).lawful).1 hval
      have h1 := E2e.election_id_eq (H.sound.ledger i).replay he'
      have h2 := E2e.election_id_eq hL.replay ⟨sg, he⟩
      rw [hid] at hve
      have h3 : v.tx.election.electionId = e.id.electionId := hve
      rw [← hn, h1, h2, h3, heid]
  · refine .inr ⟨hmc, ?_⟩
    obtain ⟨chain, hc, hlast⟩ := C24_mix_chain N.toEnv _ H.sound.whole m ((Network.stored_iff_mem H.sound.nodup _).2 (List.mem_of_mem_take ht))
    refine ⟨chain, m, ⟨fun c hcm => ?_, hc.index, hc.same, hc.first, hc.linked, hc.outputs, fun c hcm => ?_, hc.distinct⟩, hlast, hm.trans (heid.trans hn), ?_, hmu⟩
    · unfold InStore
      rw [hget]
      exact hc.stored c hcm
    · obtain ⟨e', ⟨sg', he'⟩, htr⟩ := hc.trustees c hcm
      exact ⟨e', ⟨sg', (hget _).trans he'⟩, htr⟩
    · have hpos : 0 < chain.length := by
        rw [List.length_pos_iff]
        rintro rfl
        cases hlast
      rw [List.getLast?_eq_getElem?] at hlast
      have h1 := (hc.index _ _ hlast).1
      rw [Env.addU8_ok] at hth
      rw [hth.2]
      apply UInt8.toNat_inj.1
      rw [UInt8.toNat_add, h1]
      simp
      omega

namespace Toy
open Chain

/-- two votes have been cast and voting goes on -/
def openPoll : List BlockEvent :=
  [.submit (.ofTx clientTx)] ++ tick 2 ++ tick 4 ++ tick 6 ++ tick 8 ++ tick 10 ++ [.submit (.ofTx (.vote (clientVote 31 "a"))), .submit (.ofTx (.vote (clientVote 32 "b")))] ++ tick 12

/-- a stranger's election with the id and the trustees of the election, but another authority and no mixnet -/
def lookalikeTx : SignedTx := .election ⟨{ storedElection with authorityPublic := key 9, mixConfig := none }, sig 9⟩

/-- the stranger's end of voting, which names the id under which the lookalike is stored -/
def lookalikeEnd : SignedTx := .votingEnd ⟨VotingEndTx.new eid2 (key 9), sig 9⟩

/-- the stranger has the trustee's node open the votes -/
def openedPoll : List BlockEvent := openPoll ++ [.submit ⟨key 9, eid2.toString, lookalikeTx.asBytes⟩] ++ tick 14 ++ [.submit (.ofTx lookalikeEnd)] ++ tick 16

theorem openPoll_few : TooFewOthers storedElection [key 1] := by
  unfold TooFewOthers
  decide +kernel

theorem tick_open (h : Nat) : ∀ ev ∈ tick h, OnBlocks (VotingOpen node.toEnv storedElection [key 1]) ev := by
  intro ev hev
  simp only [tick, List.mem_cons, List.not_mem_nil, or_false] at hev
  rcases hev with rfl | rfl | rfl
  · trivial
  · trivial
  · exact fun _ _ _ => trivial

theorem openPoll_open : ∀ ev ∈ openPoll, OnBlocks (VotingOpen node.toEnv storedElection [key 1]) ev := by
  intro ev hev
  simp only [openPoll, List.mem_append, List.mem_cons, List.not_mem_nil, or_false] at hev
  rcases hev with ((((((rfl | h) | h) | h) | h) | h) | rfl | rfl) | h
  · exact onBlocks_submit clientTx_fits fun _ => ⟨fun _ h => (by cases h), fun _ h => (by cases h)⟩
  iterate 5 exact tick_open _ ev h
  · exact onBlocks_submit (by decide +kernel) fun _ => ⟨fun _ h => (by cases h), fun _ h => (by cases h)⟩
  · exact onBlocks_submit (by decide +kernel) fun _ => ⟨fun _ h => (by cases h), fun _ h => (by cases h)⟩
  · exact tick_open _ ev h

theorem openPoll_rust : RustRun node openPoll := by
  refine rust_of_check (r := rng) (fun ev hev k r h heq => ?_) (by decide +kernel)
  subst heq
  simp only [openPoll, tick, List.mem_append, List.mem_cons, List.not_mem_nil, or_false, reduceCtorEq, false_or, BlockEvent.afterCommit.injEq] at hev
  aesop

theorem openedPoll_rust : RustRun node openedPoll := by
  refine rust_of_check (r := rng) (fun ev hev k r h heq => ?_) (by decide +kernel)
  subst heq
  simp only [openedPoll, openPoll, tick, List.mem_append, List.mem_cons, List.not_mem_nil, or_false, reduceCtorEq, false_or, BlockEvent.afterCommit.injEq] at hev
  aesop

theorem openPoll_election : ElectionAt (Exonum.toStore ((run node openPoll).schema node.toEnv)) storedElection.id storedElection := election_of_check (by decide +kernel)

theorem openedPoll_election : ElectionAt (Exonum.toStore ((run node openedPoll).schema node.toEnv)) storedElection.id storedElection := election_of_check (by decide +kernel)

theorem anyLabel {P : Event → Prop} {ev : BlockEvent} (h : OnBlocks P ev) : OnBlocksAnyLabel P ev := by
  cases ev with
  | submit x => exact h.2
  | _ => exact h

theorem openedPoll_open : ∀ ev ∈ openedPoll, OnBlocksAnyLabel (VotingOpen node.toEnv storedElection [key 1]) ev := by
  intro ev hev
  simp only [openedPoll, List.mem_append, List.mem_cons, List.not_mem_nil, or_false] at hev
  rcases hev with (((h | rfl) | h) | rfl) | h
  · exact anyLabel (openPoll_open ev h)
  · intro t ht
    have := (Exonum.C37_envelope_roundtrip lookalikeTx (fits_of_check _ _ (by decide +kernel))).1.symm.trans ht
    injection this with this
    rw [← this]
    exact fun _ => ⟨fun _ h => (by cases h), fun _ h => (by cases h)⟩
  · exact anyLabel (tick_open _ ev h)
  · refine anyLabel (onBlocks_submit (by decide +kernel) fun _ => ⟨fun s h hn => ?_, fun _ h => (by cases h)⟩)
    cases h
    revert hn
    decide +kernel
  · exact anyLabel (tick_open _ ev h)

/-- the share of a vote that the node sends out -/
def openedShare (k : UInt8) (name : String) : Signed PartialDecryptionTx :=
  ⟨PartialDecryptionTx.new storedElection.id (clientVote k name).tx.id 0 1 0 (key 1) [⟨Selection.encode ⟨true, 0, str name⟩⟩], sig 1⟩

/-- the last thing that happens is that the node catches up -/
theorem openedPoll_last : openedPoll = openPoll ++ [.submit ⟨key 9, eid2.toString, lookalikeTx.asBytes⟩] ++ tick 14 ++ [.submit (.ofTx lookalikeEnd), .commit [0, 0, 0], .commit []] ++
    [.afterCommit (key 1) (fun _ => rng) 16] := rfl

def openedCheck (before after : Chain) (p : Signed PartialDecryptionTx) : Bool :=
  (after.pool.drop before.pool.length).any fun y => match SignedTx.fromBytes y.data with | .ok (.partialDecryption q) => decide (q = p) | _ => false

theorem shares_of_check {evs pre : List BlockEvent} {k : SecretKey} {r : Nat → Rng} {h : Nat} (hl : pre ++ [.afterCommit k r h] <+: evs) {p : Signed PartialDecryptionTx}
    {e : Identifier} (hp : p.tx.electionId = e) (hc : openedCheck (run node pre) (run node (pre ++ [.afterCommit k r h])) p = true) : SharesReleased node evs e p := by
  obtain ⟨y, hy, hc⟩ := List.any_eq_true.1 hc
  refine ⟨y, ⟨_, _, _, _, hl, hy⟩, ?_, hp⟩
  revert hc
  split
  · rename_i q hq
    intro hc
    rw [hq, of_decide_eq_true hc]
  · simp

theorem openedPoll_a : SharesReleased node openedPoll storedElection.id (openedShare 31 "a") := shares_of_check ⟨[], by rw [List.append_nil, openedPoll_last]⟩ rfl (by decide +kernel)
theorem openedPoll_b : SharesReleased node openedPoll storedElection.id (openedShare 32 "b") := shares_of_check ⟨[], by rw [List.append_nil, openedPoll_last]⟩ rfl (by decide +kernel)

/-- the share of the first output of the mix that the node sends out in an orderly election -/
theorem chainPoll_share : SharesReleased node chainPoll storedElection.id
    ⟨PartialDecryptionTx.new storedElection.id (MixTx.buildId storedElection.id 0 0 0 1) 0 1 0 (key 1) [⟨Selection.encode ⟨true, 0, str "b"⟩⟩], sig 1⟩ :=
  shares_of_check (pre := chainPoll.take 24) (k := key 1) (r := fun _ => rng) (h := 14) ⟨chainPoll.drop 25, rfl⟩ rfl (by decide +kernel)

end Toy

/-- The schedule meets the hypotheses of what follows: after two votes have been cast, voting ended and mixed, decryption shares are sent out. -/
example : (∀ ev ∈ Toy.chainPoll, OnBlocks (fun _ => True) ev) ∧ RustRun Toy.node Toy.chainPoll ∧ ∃ p, SharesReleased Toy.node Toy.chainPoll Toy.storedElection.id p :=
  ⟨fun ev hev => by
    have := Toy.chainPoll_fair ev hev
    cases ev with
    | submit x => exact ⟨this.1, fun _ _ => trivial⟩
    | commit _ => trivial
    | lose _ => trivial
    | afterCommit _ _ _ => exact fun _ _ _ => trivial, Toy.chainPoll_rust, _, Toy.chainPoll_share⟩

/-- The schedule meets the hypotheses of C90: two votes have been cast, voting is open, the only trustee leaves mixing to their node. -/
example : ProperTrustees Toy.storedElection ∧ TooFewOthers Toy.storedElection [Toy.key 1] ∧ (∀ ev ∈ Toy.openPoll, OnBlocks (VotingOpen Toy.node.toEnv Toy.storedElection [Toy.key 1]) ev) ∧
    RustRun Toy.node Toy.openPoll ∧ ElectionAt (Exonum.toStore ((Chain.run Toy.node Toy.openPoll).schema Toy.node.toEnv)) Toy.storedElection.id Toy.storedElection ∧
    Exonum.getTransaction ((Chain.run Toy.node Toy.openPoll).schema Toy.node.toEnv) (Toy.clientVote 31 "a").tx.id = some (.vote (Toy.clientVote 31 "a")) :=
  ⟨Toy.storedNodes.trustees, Toy.openPoll_few, Toy.openPoll_open, Toy.openPoll_rust, Toy.openPoll_election,
    Toy.stored_of_check (t := .vote (Toy.clientVote 31 "a")) (by decide +kernel) (by decide +kernel)⟩

/-- What is sent out in the schedule of the next theorem is enough to read the votes. -/
example : ∃ p, SharesReleased Toy.node Toy.openedPoll Toy.storedElection.id p ∧ p.tx.upstreamId = (Toy.clientVote 31 "a").tx.id ∧ ∃ c share,
    (Toy.clientVote 31 "a").tx.encryptedVotes.flatMap (·.selections) = [c] ∧ p.tx.partialDecryption = [share] ∧
    ∀ index proof, (Toy.node.thresholdDecrypt Toy.storedElection.trusteesThreshold.toNat c [(index, proof, share)]).map Selection.decode = .ok (some ⟨true, 0, str "a"⟩) :=
  ⟨_, Toy.openedPoll_a, rfl, ⟨Selection.encode ⟨true, 0, str "a"⟩⟩, ⟨Selection.encode ⟨true, 0, str "a"⟩⟩, by decide +kernel, rfl, fun _ _ => by rfl⟩

/-- **C90** is false if submissions may be labelled with the id of another transaction: a stranger stores an election with the same id and trustees, but with themselves as the authority
and without mixnet, under another id, and ends its voting.  The nodes of the trustees then send out decryption shares for the votes as they were cast, at any time the stranger likes. -/
theorem C90_votes_stay_sealed_false :
    ¬ ∀ (N : NodeEnv) (e : ElectionTx), ProperTrustees e → ∀ H : List PublicKey, (e.mixConfig ≠ none → TooFewOthers e H) → ∀ evs : List BlockEvent,
      (∀ ev ∈ evs, OnBlocksAnyLabel (VotingOpen N.toEnv e H) ev) → RustRun N evs → ElectionAt (Exonum.toStore ((Chain.run N evs).schema N.toEnv)) e.id e →
      ¬ ∃ p, SharesReleased N evs e.id p := fun h =>
  h Toy.node Toy.storedElection Toy.storedNodes.trustees [Toy.key 1] (fun _ => Toy.openPoll_few) Toy.openedPoll Toy.openedPoll_open Toy.openedPoll_rust Toy.openedPoll_election
    ⟨_, Toy.openedPoll_a⟩

end CB
