import Verif.Lemmas.Blocks
import Verif.Props.NetworkE2e
import Verif.Props.Api
/-!
# C70: elections held on a blockchain
-/

namespace CB
open Spec Server

namespace Server.Chain

variable {N : NodeEnv} {P : Event → Prop} {K : List SecretKey} {e : ElectionTx}

/-- the network behind the blockchain: the same lookups, and at rest when the blockchain is -/
theorem view (hP : ∀ i, P (.deliver i)) (evs : List BlockEvent) (hev : ∀ ev ∈ evs, OnBlocks P ev) (hrust : RustRun N evs) :
    ∃ l : List Event, (∀ ev ∈ l, P ev) ∧ (∃ r, Exonum.toStore ((run N evs).schema N.toEnv) = ⟨(Network.run N l).store.toStore.getTransaction, r⟩) ∧
      (∀ x ∈ (run N evs).blocks.flatten, Labelled x) ∧
      (Quiet N K e (run N evs) → (∀ t ∈ (Network.run N l).pending, t.id.electionId ≠ e.id.electionId) ∧
        ∀ t, InStore (Network.run N l).store.toStore t → t.id.electionId = e.id.electionId → ∃ m, (Network.run N l).ledger[m]? = some t ∧
          ∀ k ∈ K, (k, m) ∈ (Network.run N l).reacted) := by
  obtain ⟨l₀, hl₀, hR⟩ := run_sim hP evs hev hrust
  have hlab : ∀ x ∈ (run N evs).blocks.flatten, Labelled x := fun x hx => hR.labelled x (List.mem_append_left _ hx)
  obtain ⟨hs, hg⟩ := Exonum.accepted_spec N.toEnv _ hlab
  obtain ⟨l, hl, hled, hrest⟩ : ∃ l, (∀ ev ∈ l, P ev) ∧ (Network.run N l).ledger = (Network.run N l₀).ledger ∧ (Quiet N K e (run N evs) →
      (Network.run N l).reacted = (Network.run N l₀).reacted ∧ ∀ t ∈ (Network.run N l).pending, t.id.electionId ≠ e.id.electionId) := by
    by_cases hq : Quiet N K e (run N evs)
    · obtain ⟨is, h1, h2, h3⟩ := Network.drain N e.id (Network.run N l₀) fun t ht hf => by
        obtain ⟨x, hx, hd⟩ := List.mem_filterMap.1 (hR.pending.mem_iff.1 ht)
        have hin := hq.delivered x (List.mem_append.1 hx) ⟨t, Exonum.decoded_eq_some.1 hd, hf⟩
        rw [hR.labelled x (List.mem_append_right _ hx) t (Exonum.decoded_eq_some.1 hd)] at hin
        obtain ⟨y, hy⟩ := Option.isSome_iff_exists.1 hin
        obtain ⟨u, hu, -⟩ := Exonum.C36_filed_under_own_id_partial N.toEnv _ hlab _ _ hy
        have : Exonum.getTransaction ((run N evs).schema N.toEnv) t.id = _ := hg t.id
        rw [show Exonum.getTransaction _ t.id = some u from Exonum.getTransaction_eq_some.2 ⟨y, hy, hu⟩, ← hR.ledger] at this
        show (Network.store _ |>.toStore.getTransaction t.id).isSome
        rw [show (Network.run N l₀).store.toStore.getTransaction t.id = some u from this.symm]
        rfl
      have heq : Network.run N (l₀ ++ is.map .deliver) = (is.map Event.deliver).foldl (Network.step N) (Network.run N l₀) := List.foldl_append
      refine ⟨l₀ ++ is.map .deliver, fun ev hev => ?_, heq ▸ h1, fun _ => heq ▸ ⟨h2, h3⟩⟩
      rcases List.mem_append.1 hev with hev | hev
      · exact hl₀ ev hev
      · obtain ⟨i, -, rfl⟩ := List.mem_map.1 hev
        exact hP i
    · exact ⟨l₀, hl₀, rfl, fun h => absurd h hq⟩
  have hkeep : ∀ t, InStore (Network.run N l).store.toStore t ↔ t ∈ (Network.run N l).ledger := fun t => Network.stored_iff_mem (Network.sound_run N l).nodup t
  refine ⟨l, hl, ⟨(Exonum.toStore ((run N evs).schema N.toEnv)).range, ?_⟩, hlab, fun hq => ⟨(hrest hq).2, fun t ht hf => ?_⟩⟩
  · have : (Exonum.toStore ((run N evs).schema N.toEnv)).getTransaction = (Network.run N l).store.toStore.getTransaction := by
      funext id
      refine (hg id).trans ?_
      rw [← hR.ledger, ← hled]
      rfl
    rw [← this]
  · obtain ⟨m, hm⟩ := List.getElem?_of_mem ((hkeep t).1 ht)
    refine ⟨m, hm, fun k hk => ?_⟩
    rw [(hrest hq).1]
    rw [hled, hR.ledger] at hm
    obtain ⟨h, x, hx, hd, hlt⟩ := Exonum.accepted_in_block hm
    obtain ⟨h', hh, y, hy, hyx, hp⟩ := hq.processed h x hx ⟨t, Exonum.decoded_eq_some.1 hd, hf⟩ k hk
    have hxl := hlab x (mem_flatten_of_getD hx) t (Exonum.decoded_eq_some.1 hd)
    refine hR.reacted k h' hp y hy t (hyx.trans hxl) m ?_
    rw [← List.take_append_drop (h + 1) (run N evs).blocks, List.flatten_append, Exonum.accepted_append, List.getElem?_append_left hlt] at hm
    rw [show (run N evs).blocks.take (h' + 1) = (run N evs).blocks.take (h + 1) ++ ((run N evs).blocks.take (h' + 1)).drop (h + 1) by
      rw [show (run N evs).blocks.take (h + 1) = ((run N evs).blocks.take (h' + 1)).take (h + 1) by rw [List.take_take, Nat.min_eq_left (by omega)], List.take_append_drop],
      List.flatten_append, Exonum.accepted_append, List.getElem?_append_left hlt]
    exact hm

theorem partial_filed {l : List Event} {p : Signed PartialDecryptionTx} (hp : InStore (Network.run N l).store.toStore (.partialDecryption p)) (hpe : p.tx.electionId = e.id) :
    p.tx.id.electionId = e.id.electionId := by
  have h := Network.history_run (N := N) (Q := fun _ => True) l (by simp)
  obtain ⟨j, hj⟩ := List.getElem?_of_mem ((Network.stored_iff_mem h.sound.nodup _).1 hp)
  obtain ⟨e', -, -, hid, -⟩ := PartialDecryptionTx.validateTx_ok.1 (SignedTx.validate_ok.1 (h.accepted j _ hj)).2.2
  rw [hid, hpe]
  rfl

theorem mix_filed {l : List Event} {m : Signed MixTx} (hm : InStore (Network.run N l).store.toStore (.mix m)) (hme : m.tx.electionId = e.id) :
    m.tx.id.electionId = e.id.electionId := by
  have h := Network.history_run (N := N) (Q := fun _ => True) l (by simp)
  obtain ⟨j, hj⟩ := List.getElem?_of_mem ((Network.stored_iff_mem h.sound.nodup _).1 hm)
  obtain ⟨hid, -⟩ := (MixTx.validateTx_ok (h.sound.ledger j).lawful).1 (SignedTx.validate_ok.1 (h.accepted j _ hj)).2.2
  rw [hid, hme]
  rfl

theorem quiet_mixed {fits : Bytes → Prop} {Enc : ElGamalKey → Ciphertext → Bytes → Prop} (hM : MixCorrect N fits Enc) {sk : UInt8 → SecretKey} (hN : Nodes N K e sk)
    (hp : e.mixConfig ≠ none) (hth : e.trusteesThreshold = 1) {l : List Event} (hl : ∀ ev ∈ l, FairMix N K e ev) (he : ElectionAt (Network.run N l).store.toStore e.id e)
    (hq : (∀ t ∈ (Network.run N l).pending, t.id.electionId ≠ e.id.electionId) ∧
      ∀ t, InStore (Network.run N l).store.toStore t → t.id.electionId = e.id.electionId → ∃ m, (Network.run N l).ledger[m]? = some t ∧
        ∀ k ∈ K, (k, m) ∈ (Network.run N l).reacted)
    {ek : Signed EncryptionKeyTx} (hek : (Network.run N l).store.toStore.getTransaction (singleId e.id .encryptionKey) = some (.encryptionKey ek))
    {vs : Signed VotingEndTx} (hend : InStore (Network.run N l).store.toStore (.votingEnd vs)) (hvs : vs.tx.election = e.id) (h1 : ∃ tr ∈ e.trustees, tr.index = 1) (hk : sk 1 ∈ K)
    {votes : List (Signed VoteTx)} (hall : AllVotes (Network.run N l).store.toStore e.id votes) (hlen : votes.length ≤ 65535)
    {c : UInt32} {sels : List (List Selection)} (hh : List.Forall₂ (fun v sel => HonestVote N fits ek.tx.encryptionKey v.tx c sel) votes sels) :
    ∃ ds, AllDecryptions (Network.run N l).store.toStore e c ds ∧ (ds.map (·.tx.decryptedVote)).Perm sels := by
  have hreact : ∀ {t : SignedTx}, InStore (Network.run N l).store.toStore t → t.id.electionId = e.id.electionId → Reacted (Network.run N l) (sk 1) t := by
    intro t ht hf
    obtain ⟨m, hm, h⟩ := hq.2 t ht hf
    exact ⟨m, hm, h _ hk⟩
  obtain ⟨run, key, hR, -⟩ := Setup.exists_mixing_run hM hN.trustees sk
  have h := Setup.mixHeld_run hN hR hp l hl he
  obtain ⟨j, hj⟩ := List.getElem?_of_mem (h.in_ledger.1 hend)
  have hvid := h.end_id hj hvs
  obtain ⟨tr, htr, hi⟩ := h1
  refine C68_votes_are_mixed_and_decrypted_partial N fits Enc hM K e sk hN hp hth l hl _ rfl _ rfl he ek hek votes hall hlen c sels hh vs hend hvs hq.1 ⟨tr, htr, hi⟩
    (hreact hend (by show vs.tx.id.electionId = _; rw [hvid]; rfl)) 1 ⟨tr, htr, hi⟩ (fun m hm hme _ => hreact hm (mix_filed hm hme)) (sk 1) ⟨tr, htr, ?_⟩
    fun p hp hpe _ => hreact hp (partial_filed hp hpe)
  rw [← hi]
  exact (hN.held tr htr).symm

/-- the read API's answer -/
theorem answer {c : Chain} (hl : ∀ x ∈ c.blocks.flatten, Labelled x) (p : Str) :
    ∃ txs, Api.getAll (c.schema N.toEnv) (some p) = .ok txs ∧ Answer (Exonum.toStore (c.schema N.toEnv)) p txs := by
  obtain ⟨txs, h1, h2, h3⟩ := (Api.C39_prefix_query_exact_partial N.toEnv c.blocks.flatten hl).1 p
  exact ⟨txs, h1, h3, h2⟩

end Server.Chain

/-- **C70** (set-up) Take any schedule of submissions, blocks and `after_commit` hooks, in which only nodes make set-up transactions of the election.  When nothing is left to do for
the election (what got lost has been made up for), the election is set up; with the same encryption key whatever the schedule was. -/
theorem C70_blocks_set_up (N : NodeEnv) (fits : Bytes → Prop) (hF : ThresholdCorrect N fits) (K : List SecretKey) (e : ElectionTx) (sk : UInt8 → SecretKey)
    (hN : Nodes N K e sk) (hK : AllRun N K e sk) :
    ∃ key, ∀ evs : List BlockEvent, (∀ ev ∈ evs, OnBlocks (Permitted K e) ev) → RustRun N evs → ∀ S : Store, S = Exonum.toStore ((Chain.run N evs).schema N.toEnv) →
      ElectionAt S e.id e → Quiet N K e (Chain.run N evs) → SetUp S e key := by
  obtain ⟨key, hkey⟩ := C65_settled_network_is_set_up N fits hF K e sk hN hK
  refine ⟨key, ?_⟩
  rintro evs hev hrust S rfl he hq
  obtain ⟨l, hl, ⟨r, hr⟩, -, hquiet⟩ := Chain.view (P := Permitted K e) (K := K) (e := e) (fun _ => trivial) evs hev hrust
  rw [hr] at he ⊢
  obtain ⟨hdel, hre⟩ := hquiet hq
  have hn := (Network.sound_run N l).nodup
  obtain ⟨h1, h2, h3, h4, h5⟩ := hkey l hl he ⟨hdel, fun m t hm hf _ k hk => by
    obtain ⟨m', hm', h⟩ := hre t ((Network.stored_iff_mem hn t).2 (List.mem_of_getElem? hm)) hf
    have h1 : ((Network.run N l).ledger.map SignedTx.id)[m]? = some t.id := by rw [List.getElem?_map, hm]; rfl
    have h2 : ((Network.run N l).ledger.map SignedTx.id)[m']? = some t.id := by rw [List.getElem?_map, hm']; rfl
    have := (List.getElem?_inj (List.getElem?_eq_some_iff.1 h1).1 hn).1 (h1.trans h2.symm)
    subst this
    exact h k hk⟩
  exact ⟨h1, h2, h3, h4, h5⟩

/-- **C70** (decryptions are right) On the blockchain, whatever gets lost: in an election without mixnet, a stored decryption of an honest vote is what the voter selected. -/
theorem C70_blocks_decryptions_are_right (N : NodeEnv) (fits : Bytes → Prop) (hF : ThresholdCorrect N fits) (K : List SecretKey) (e : ElectionTx) (sk : UInt8 → SecretKey)
    (hN : Nodes N K e sk) (hp : e.mixConfig = none) (evs : List BlockEvent) (hev : ∀ ev ∈ evs, OnBlocks (Fair N K e) ev) (hrust : RustRun N evs)
    (S : Store) (hS : S = Exonum.toStore ((Chain.run N evs).schema N.toEnv))
    (he : ElectionAt S e.id e) (ek : Signed EncryptionKeyTx) (hek : S.getTransaction (singleId e.id .encryptionKey) = some (.encryptionKey ek))
    (v : Signed VoteTx) (hv : InStore S (.vote v)) (hve : v.tx.election = e.id) (hu : UniqueVote S v.tx) (c : UInt32) (sel : List Selection)
    (hh : HonestVote N fits ek.tx.encryptionKey v.tx c sel)
    (d : Signed DecryptionTx) (hd : InStore S (.decryption d)) (hde : d.tx.electionId = e.id) (hdv : d.tx.upstreamId = v.tx.id) (hdc : d.tx.contestIndex = c)
    (hnd : d.tx.trustees.Nodup ∨ QuorumNeeded N) : d.tx.decryptedVote = sel := by
  obtain ⟨l, hl, ⟨r, hr⟩, -, -⟩ := Chain.view (P := Fair N K e) (K := K) (e := e) (fun _ => trivial) evs hev hrust
  rw [hr] at hS
  subst hS
  exact C66_decryptions_are_right N fits hF K e sk hN hp l hl _ rfl he ek hek v hv hve hu c sel hh d hd hde hdv hdc hnd

/-- **C70** (all honest votes are decrypted) In an election without mixnet: when voting has ended, nothing is left to do for the election (what got lost has been made up for), and a quorum of
trustees run nodes, a decryption of every honest vote is stored, and is right. -/
theorem C70_blocks_votes_are_decrypted (N : NodeEnv) (fits : Bytes → Prop) (hF : ThresholdCorrect N fits) (K : List SecretKey) (e : ElectionTx) (sk : UInt8 → SecretKey)
    (hN : Nodes N K e sk) (hp : e.mixConfig = none) (hcon : e.contests ≠ []) (evs : List BlockEvent) (hev : ∀ ev ∈ evs, OnBlocks (Fair N K e) ev) (hrust : RustRun N evs)
    (S : Store) (hS : S = Exonum.toStore ((Chain.run N evs).schema N.toEnv)) (he : ElectionAt S e.id e) (hquiet : Quiet N K e (Chain.run N evs))
    (ek : Signed EncryptionKeyTx) (hek : S.getTransaction (singleId e.id .encryptionKey) = some (.encryptionKey ek))
    (vs : Signed VotingEndTx) (hend : S.getTransaction (singleId e.id .votingEnd) = some (.votingEnd vs)) (hvs : vs.tx.election = e.id)
    (Q : List UInt8) (hQ : Q.Nodup) (hQm : ∀ i ∈ Q, sk i ∈ K ∧ ∃ tr ∈ e.trustees, tr.index = i) (hlen : e.trusteesThreshold.toNat ≤ Q.length)
    (v : Signed VoteTx) (hv : InStore S (.vote v)) (hve : v.tx.election = e.id) (hu : UniqueVote S v.tx) (c : UInt32) (sel : List Selection)
    (hh : HonestVote N fits ek.tx.encryptionKey v.tx c sel) :
    ∃ d : Signed DecryptionTx, InStore S (.decryption d) ∧ d.tx.electionId = e.id ∧ d.tx.upstreamId = v.tx.id ∧ d.tx.contestIndex = c ∧
      (d.tx.trustees.Nodup ∨ QuorumNeeded N → d.tx.decryptedVote = sel) := by
  obtain ⟨l, hl, ⟨r, hr⟩, -, hqq⟩ := Chain.view (P := Fair N K e) (K := K) (e := e) (fun _ => trivial) evs hev hrust
  rw [hr] at hS
  subst hS
  obtain ⟨hdel, hre⟩ := hqq hquiet
  have hsound := Network.sound_run N l
  have hvid : vs.tx.id = singleId e.id .votingEnd := ((Network.get_some hsound.nodup).1 hend).2
  have hreact : ∀ {t : SignedTx}, InStore (Network.run N l).store.toStore t → t.id.electionId = e.id.electionId → ∀ k ∈ K, Reacted (Network.run N l) k t := by
    intro t ht hf k hk
    obtain ⟨m, hm, h⟩ := hre t ht hf
    exact ⟨m, hm, h k hk⟩
  have hend' : InStore (Network.run N l).store.toStore (.votingEnd vs) := by
    show (Network.run N l).store.toStore.getTransaction vs.tx.id = _
    rw [hvid]; exact hend
  -- the quorum is not empty
  have h0 : Q ≠ [] := by
    rintro rfl
    have := hN.trustees.threshold
    simp only [List.length_nil, Nat.le_zero] at hlen
    omega
  obtain ⟨i0, hi0⟩ := List.exists_mem_of_ne_nil _ h0
  obtain ⟨hk0, tr0, htr0, rfl⟩ := hQm i0 hi0
  refine C66_votes_are_decrypted N fits hF K e sk hN hp hcon l hl _ rfl _ rfl he ek hek v hv hve hu c sel hh vs hend hvs hdel Q hQ (fun i hi => (hQm i hi).2) hlen
    (fun i hi => hreact hend' (by show vs.tx.id.electionId = _; rw [hvid]; rfl) _ (hQm i hi).1) (sk tr0.index) ⟨tr0, htr0, (hN.held tr0 htr0).symm⟩ ?_
  intro p hp' hpe hpu hpc
  refine hreact hp' ?_ _ hk0
  exact Chain.partial_filed (l := l) hp' hpe

/-- **C70** (mixed and decrypted) In an election with mixnet for which one trustee suffices: when voting has ended, nothing is left to do for the election (what got lost has been made up for),
and the first trustee runs a node, the stored decryptions of each contest are what the voters selected, in some order.  (Missing: elections in which two or more trustees have to take
part, see C68.) -/
theorem C70_blocks_mix_and_decrypt_partial (N : NodeEnv) (fits : Bytes → Prop) (Enc : ElGamalKey → Ciphertext → Bytes → Prop) (hM : MixCorrect N fits Enc) (K : List SecretKey)
    (e : ElectionTx) (sk : UInt8 → SecretKey) (hN : Nodes N K e sk) (hp : e.mixConfig ≠ none) (hth : e.trusteesThreshold = 1) (evs : List BlockEvent)
    (hev : ∀ ev ∈ evs, OnBlocks (FairMix N K e) ev) (hrust : RustRun N evs) (S : Store) (hS : S = Exonum.toStore ((Chain.run N evs).schema N.toEnv)) (he : ElectionAt S e.id e)
    (hquiet : Quiet N K e (Chain.run N evs)) (ek : Signed EncryptionKeyTx) (hek : S.getTransaction (singleId e.id .encryptionKey) = some (.encryptionKey ek))
    (vs : Signed VotingEndTx) (hend : InStore S (.votingEnd vs)) (hvs : vs.tx.election = e.id) (h1 : ∃ tr ∈ e.trustees, tr.index = 1) (hk : sk 1 ∈ K)
    (votes : List (Signed VoteTx)) (hall : AllVotes S e.id votes) (hlen : votes.length ≤ 65535)
    (c : UInt32) (sels : List (List Selection)) (hh : List.Forall₂ (fun v sel => HonestVote N fits ek.tx.encryptionKey v.tx c sel) votes sels) :
    ∃ ds, AllDecryptions S e c ds ∧ (ds.map (·.tx.decryptedVote)).Perm sels := by
  obtain ⟨l, hl, ⟨r, hr⟩, -, hqq⟩ := Chain.view (P := FairMix N K e) (K := K) (e := e) (fun _ => trivial) evs hev hrust
  rw [hr] at hS
  subst hS
  exact Chain.quiet_mixed hM hN hp hth hl he (hqq hquiet) hek hend hvs h1 hk hall hlen hh

/-- **C70** (elections verify) On the blockchain, whatever gets lost: the read API answers the query of the e2e command, and the command reports success on the answer, provided that the
voters' keys differ and the transactions of no other election are in the answer. -/
theorem C70_blocks_verify (N : NodeEnv) (fits : Bytes → Prop) (hF : ThresholdCorrect N fits) (K : List SecretKey) (e : ElectionTx) (sk : UInt8 → SecretKey)
    (hN : Nodes N K e sk) (evs : List BlockEvent) (hev : ∀ ev ∈ evs, OnBlocks (FairE2e N K e) ev) (hrust : RustRun N evs)
    (S : Store) (hS : S = Exonum.toStore ((Chain.run N evs).schema N.toEnv)) (he : ElectionAt S e.id e) (hD : DistinctVoters S e) (p : Str) (hO : OnlyElection S e p) :
    ∃ txs, Api.getAll ((Chain.run N evs).schema N.toEnv) (some p) = .ok txs ∧ E2e.verify N.toEnv txs = .ok (MemStore.ofList txs) := by
  obtain ⟨l, hl, ⟨r, hr⟩, hlab, -⟩ := Chain.view (P := FairE2e N K e) (K := K) (e := e) (fun _ => ⟨trivial, fun _ h => by cases h⟩) evs hev hrust
  obtain ⟨txs, hget, hans⟩ := Chain.answer hlab p
  refine ⟨txs, hget, ?_⟩
  rw [hr] at hS hans
  subst hS
  exact C69_held_elections_verify N fits hF K e sk hN l hl _ rfl he hD p hO txs hans

/-- **C70** (elections are counted right) Take an election made by `cryptoballot election generate`, as it is stored on the blockchain, of which the authority runs the one trustee's
node; and votes made by `cryptoballot vote generate` with keys that differ.  When voting has ended, nothing is left to do for the election (what got lost has been made up for): the read API
answers the query of the e2e command, the command reports success on the answer, and it prints the tally of the texts the voters gave: every text with the number of voters who gave it,
and nothing else. -/
theorem C70_blocks_count_client_elections (N : NodeEnv) (fits : Bytes → Prop) (Enc : ElGamalKey → Ciphertext → Bytes → Prop) (hM : MixCorrect N fits Enc)
    (K : List SecretKey) (authority : SecretKey) (hK : authority ∈ K) (el : BArr 15) (e : ElectionTx) (hee : e = forgetElection (Client.election N authority el))
    (hN : Nodes N K e fun _ => authority) (evs : List BlockEvent) (hev : ∀ ev ∈ evs, OnBlocks (FairE2e N K e) ev) (hrust : RustRun N evs)
    (S : Store) (hS : S = Exonum.toStore ((Chain.run N evs).schema N.toEnv)) (he : ElectionAt S e.id e) (hquiet : Quiet N K e (Chain.run N evs))
    (ek : Signed EncryptionKeyTx) (hek : S.getTransaction (singleId e.id .encryptionKey) = some (.encryptionKey ek))
    (vs : Signed VotingEndTx) (hend : InStore S (.votingEnd vs)) (hvs : vs.tx.election = e.id)
    (votes : List (Signed VoteTx)) (hall : AllVotes S e.id votes) (hlen : votes.length ≤ 65535) (texts : List Str)
    (hv : List.Forall₂ (fun v text => ClientVote N fits ek.tx v.tx text) votes texts) (hD : DistinctVoters S e) (p : Str) (hO : OnlyElection S e p) :
    ∃ txs m totals, Api.getAll ((Chain.run N evs).schema N.toEnv) (some p) = .ok txs ∧ E2e.verify N.toEnv txs = .ok m ∧ E2e.tally m e.id = .ok totals ∧
      (totals.map Prod.fst).Nodup ∧ ∀ c n, (c, n) ∈ totals ↔ 0 < n ∧ n = texts.count c := by
  have hp : e.mixConfig ≠ none := by subst hee; simp [forgetElection, Client.election]
  have hth : e.trusteesThreshold = 1 := by subst hee; rfl
  have h1 : ∃ tr ∈ e.trustees, tr.index = 1 := by subst hee; exact ⟨_, List.mem_singleton_self _, rfl⟩
  obtain ⟨l, hl, ⟨r, hr⟩, hlab, hqq⟩ := Chain.view (P := FairE2e N K e) (K := K) (e := e) (fun _ => ⟨trivial, fun _ h => by cases h⟩) evs hev hrust
  obtain ⟨txs, hget, hans⟩ := Chain.answer hlab p
  rw [hr] at hS hans
  subst hS
  obtain ⟨run, key, hR, -⟩ := Setup.exists_mixing_run hM hN.trustees (fun _ => authority)
  have h := Setup.cleanHeld_run hN hR l hl he
  obtain ⟨ds, hds, hperm⟩ := Chain.quiet_mixed hM hN hp hth (fun ev hev => (hl ev hev).1) he (hqq hquiet) hek hend hvs h1 hK hall hlen
    (c := 0) (sels := texts.map fun t => [⟨true, 0, t⟩]) (by
      rw [List.forall₂_map_right_iff]
      exact hv.imp fun _ _ h => (Setup.clientVote_honest h).1)
  obtain ⟨m, totals, h2, h3, h4, h5⟩ := h.counted hp he hD hall hv hds hperm hO hans
  exact ⟨txs, m, totals, hget, h2, h3, h4, h5⟩

/-- **C70** (losses can be repaired) Whoever posts an envelope with the id of a stored transaction once more, whatever is in it, makes the nodes react to the stored transaction again:
two blocks later every node submits what it would generate now and is not stored yet; and the ledger is unchanged. -/
theorem C70_reposting_makes_nodes_react (N : NodeEnv) (c : Chain) (t : SignedTx) (ht : InStore (Exonum.toStore (c.schema N.toEnv)) t) (x : Exonum.Envelope)
    (hx : x.id = t.id.toString) (k : SecretKey) (rng : Nat → Rng) (out : List SignedTx)
    (hout : generateTransactions N (rng 0) k (Exonum.toStore (c.schema N.toEnv)) t = .ok out) (c' : Chain)
    (hc' : c' = [.submit x, .commit [c.pool.length], .commit [], .afterCommit k rng (c.blocks.length + 1)].foldl (Chain.step N) c) :
    c'.pool = c.pool ++ (out.filter fun d => ((Exonum.toStore (c.schema N.toEnv)).getTransaction d.id).isNone).map Exonum.Envelope.ofTx ∧
    c'.schema N.toEnv = c.schema N.toEnv ∧ (k, c.blocks.length + 1) ∈ c'.processed := by
  subst hc'
  have hp : Chain.pick (c.pool ++ [x]) [c.pool.length] = ([x], c.pool) := by
    simp [Chain.pick, List.eraseIdx_append_of_length_le]
  have hs : Exonum.deliverAll N.toEnv OMap.empty (c.blocks ++ [[x]] ++ [[]]).flatten = c.schema N.toEnv := by
    simp only [List.flatten_append, List.flatten_cons, List.flatten_nil, List.append_nil]
    rw [Exonum.deliverAll_snoc]
    obtain ⟨y, hy, -⟩ := Exonum.getTransaction_eq_some.1 ht
    rw [← hx] at hy
    have : Exonum.verifyAndStore N.toEnv (Exonum.deliverAll N.toEnv OMap.empty c.blocks.flatten) x = .err .transactionAlreadyExists := by
      unfold Exonum.verifyAndStore
      rw [show (Exonum.deliverAll N.toEnv OMap.empty c.blocks.flatten).get x.id = some y from hy]
      rfl
    unfold Exonum.deliver
    rw [this]
    rfl
  have hlen : (c.blocks ++ [[x]] ++ [[]]).length = c.blocks.length + 2 := by simp
  have hat : ∀ p l q, Chain.schemaAt N.toEnv ⟨c.blocks ++ [[x]] ++ [[]], p, l, q⟩ (c.blocks.length + 1) = c.schema N.toEnv := by
    intro p l q
    unfold Chain.schemaAt
    rw [List.take_of_length_le (Nat.le_of_eq hlen)]
    exact hs
  have hb : (c.blocks ++ [[x]] ++ [[]]).getD c.blocks.length [] = [x] := by
    rw [List.getD_eq_getElem?_getD, List.append_assoc, List.getElem?_append_right (Nat.le_refl _)]
    simp
  have hr : react N (rng 0) k (c.schema N.toEnv) x = .ok ((out.filter fun d => (Exonum.getTransaction (c.schema N.toEnv) d.id).isNone).map Exonum.Envelope.ofTx) := by
    unfold react
    rw [hx, (C01_identifier_text_roundtrip t.id).1]
    simp only
    rw [show Exonum.getTransaction (c.schema N.toEnv) t.id = some t from ht]
    simp only [hout]
  simp only [List.foldl_cons, List.foldl_nil, Chain.step, hp]
  have hp0 : Chain.pick c.pool [] = ([], c.pool) := rfl
  rw [hp0]
  dsimp only
  have hlt : c.blocks.length + 1 < (c.blocks ++ [[x]] ++ [[]]).length := by omega
  rw [if_pos hlt]
  simp only [hat, hb, Chain.processBlock, hr, List.append_nil, if_true, List.mem_cons, true_or, and_true]
  refine ⟨rfl, hs⟩

/-! ## Examples -/

namespace Toy
open Chain

/-- the accepted transactions as a network at rest -/
def ledgerOf (N : NodeEnv) (c : Chain) : Network := ⟨Exonum.accepted N.toEnv OMap.empty c.blocks.flatten, [], []⟩

theorem labelled_of_check {c : Chain} (h : (c.blocks.flatten.all fun x => match SignedTx.fromBytes x.data with | .ok t => decide (x.id = t.id.toString) | _ => true) = true) :
    ∀ x ∈ c.blocks.flatten, Labelled x := by
  intro x hx t ht
  have := List.all_eq_true.1 h x hx
  rw [ht] at this
  exact of_decide_eq_true this

theorem ledgerOf_spec {N : NodeEnv} {c : Chain} (hl : ∀ x ∈ c.blocks.flatten, Labelled x) :
    ((ledgerOf N c).ledger.map SignedTx.id).Nodup ∧
    ∃ r, Exonum.toStore (c.schema N.toEnv) = ⟨(ledgerOf N c).store.toStore.getTransaction, r⟩ := by
  obtain ⟨hs, hg⟩ := Exonum.accepted_spec N.toEnv _ hl
  refine ⟨hs.nodup, (Exonum.toStore (c.schema N.toEnv)).range, ?_⟩
  have : (Exonum.toStore (c.schema N.toEnv)).getTransaction = (ledgerOf N c).store.toStore.getTransaction := funext hg
  rw [← this]

theorem onBlocks_submit {P : Event → Prop} {t : SignedTx} (hR : fitsCheck 127 t.toCbor = true) (h : P (.submit (forget t))) : OnBlocks P (.submit (.ofTx t)) := by
  have hr := Exonum.C37_envelope_roundtrip t (fits_of_check _ _ hR)
  refine ⟨hr.2.2.1, fun t' ht' => ?_⟩
  have := hr.1.symm.trans ht'
  injection this with this
  rw [← this]
  exact h

theorem stored_of_check {s : Exonum.Schema} {t : SignedTx} (hR : fitsCheck 127 t.toCbor = true) (h : decide ((s.get t.id.toString).map (·.data) = some t.asBytes) = true) :
    Exonum.getTransaction s t.id = some (forget t) := by
  replace h := of_decide_eq_true h
  obtain ⟨x, hx, hd⟩ := Option.map_eq_some_iff.1 h
  refine Exonum.getTransaction_eq_some.2 ⟨x, hx, ?_⟩
  rw [hd]
  exact C47_serialization_roundtrip t (fits_of_check _ _ hR)

/-- what a node makes at this event is Rust data -/
def eventCheck (N : NodeEnv) (r : Rng) (c : Chain) : BlockEvent → Bool
  | .afterCommit k _ (h + 1) => (c.blocks.getD h []).all fun x =>
    match Identifier.fromStr x.id with
    | .ok id =>
      match Exonum.getTransaction (c.schemaAt N.toEnv (h + 1)) id with
      | some t =>
        match generateTransactions N r k (Exonum.toStore (c.schemaAt N.toEnv (h + 1))) t with
        | .ok l => l.all fun d => fitsCheck 127 d.toCbor
        | _ => true
      | none => true
    | _ => true
  | _ => true

/-- check of `RustRun` for schedules in which nodes use one source of randomness -/
def rustCheck (N : NodeEnv) (r : Rng) : Chain → List BlockEvent → Bool
  | _, [] => true
  | c, ev :: evs => eventCheck N r c ev && rustCheck N r (step N c ev) evs

theorem rust_of_check {N : NodeEnv} {r : Rng} {evs : List BlockEvent} (hr : ∀ ev ∈ evs, ∀ k rng h, ev = .afterCommit k rng h → rng = fun _ => r)
    (h : rustCheck N r genesis evs = true) : RustRun N evs := by
  intro pre k rng h' hp x hx t hid ht i l hl d hd
  obtain ⟨post, rfl⟩ := hp
  have hrng := hr (.afterCommit k rng (h' + 1)) (by simp) _ _ _ rfl
  subst hrng
  have key : ∀ (pre : List BlockEvent) (c : Chain) (post : List BlockEvent), rustCheck N r c (pre ++ post) = true → rustCheck N r (pre.foldl (step N) c) post = true := by
    intro pre
    induction pre with
    | nil => exact fun c post h => h
    | cons ev pre ih =>
      intro c post h
      rw [List.cons_append, rustCheck, Bool.and_eq_true] at h
      exact ih _ _ h.2
  rw [List.append_assoc] at h
  have h1 : rustCheck N r (run N pre) _ = true := key _ _ _ h
  rw [List.cons_append, rustCheck, Bool.and_eq_true] at h1
  have h2 := List.all_eq_true.1 h1.1 x hx
  rw [hid] at h2
  simp only at h2
  rw [show Exonum.getTransaction _ t.id = some t from ht] at h2
  simp only at h2
  rw [show generateTransactions N r k _ t = .ok l from hl] at h2
  exact fits_of_check _ _ (List.all_eq_true.1 h2 d hd)

theorem quiet_of_check {N : NodeEnv} {K : List SecretKey} {e : ElectionTx} {c : Chain} (h1 : c.pool.isEmpty = true) (h2 : c.lost.isEmpty = true)
    (h3 : ((List.range c.blocks.length).all fun h => (c.blocks.getD h []).isEmpty || K.all fun k => decide ((k, h + 1) ∈ c.processed)) = true) : Quiet N K e c := by
  rw [List.isEmpty_iff] at h1 h2
  refine ⟨fun x hx => ?_, fun h x hx _ k hk => ?_⟩
  · rw [h1, h2] at hx
    rcases hx with hx | hx <;> cases hx
  · by_cases hlt : h < c.blocks.length
    · have := List.all_eq_true.1 h3 h (List.mem_range.2 hlt)
      rw [Bool.or_eq_true] at this
      rcases this with h' | h'
      · rw [List.isEmpty_iff.1 h'] at hx
        cases hx
      · exact ⟨h, Nat.le_refl _, x, hx, rfl, of_decide_eq_true (List.all_eq_true.1 h' k hk)⟩
    · rw [List.getD_eq_getElem?_getD, List.getElem?_eq_none (by omega)] at hx
      cases hx

/-- the client's election as it is stored -/
def storedElection : ElectionTx := forgetElection clientElection

theorem storedNodes : Nodes node [key 1] storedElection fun _ => key 1 where
  trustees := ⟨by decide +kernel, by decide +kernel, by decide +kernel, by decide +kernel⟩
  keys := by decide +kernel
  held := by decide +kernel
  only := by decide +kernel
  sign := node_sign
  aes := aes_correct
  dh := dh_agrees

theorem clientTx_fits : fitsCheck 127 clientTx.toCbor = true := by decide +kernel

theorem election_of_check {s : Exonum.Schema} (h : decide ((s.get clientTx.id.toString).map (·.data) = some clientTx.asBytes) = true) :
    ElectionAt (Exonum.toStore s) storedElection.id storedElection :=
  ⟨sig 1, (stored_of_check clientTx_fits h : Exonum.getTransaction s clientTx.id = some (forget clientTx))⟩

/-- a block with the first three submissions, an empty block, and the authority's node catches up -/
def tick (h : Nat) : List BlockEvent := [.commit [0, 0, 0], .commit [], .afterCommit (key 1) (fun _ => rng) h]

/-- an election of two votes, on the blockchain -/
def chainPoll : List BlockEvent :=
  [.submit (.ofTx clientTx)] ++ tick 2 ++ tick 4 ++ tick 6 ++ tick 8 ++ tick 10 ++
    [.submit (.ofTx (.vote (clientVote 31 "a"))), .submit (.ofTx (.vote (clientVote 32 "b"))), .submit (.ofTx endTx)] ++ tick 12 ++ tick 14 ++ tick 16 ++ tick 18

theorem tick_fair (h : Nat) : ∀ ev ∈ tick h, OnBlocks (FairE2e node [key 1] storedElection) ev := by
  intro ev hev
  simp only [tick, List.mem_cons, List.not_mem_nil, or_false] at hev
  rcases hev with rfl | rfl | rfl
  · trivial
  · trivial
  · exact fun _ _ _ => ⟨List.mem_singleton_self _, fun _ h => by cases h⟩

theorem chainPoll_fair : ∀ ev ∈ chainPoll, OnBlocks (FairE2e node [key 1] storedElection) ev := by
  intro ev hev
  simp only [chainPoll, List.mem_append, List.mem_cons, List.not_mem_nil, or_false] at hev
  have hv : ∀ v : Signed VoteTx, FairE2e node [key 1] storedElection (.submit (.vote v)) := fun v =>
    ⟨⟨fun _ => ⟨by simp [SetupKind, kindOf], by simp [kindOf]⟩, fun _ h => (by cases h), fun _ h => (by cases h)⟩, fun _ h => (by cases h)⟩
  rcases hev with (((((((((rfl | h) | h) | h) | h) | h) | rfl | rfl | rfl) | h) | h) | h) | h
  · exact onBlocks_submit (by decide +kernel)
      ⟨⟨fun _ => ⟨by simp [SetupKind, kindOf, clientTx, forget], by simp [kindOf, clientTx, forget]⟩, fun _ h => (by cases h), fun _ h => (by cases h)⟩, fun _ h => (by cases h)⟩
  iterate 5 exact tick_fair _ ev h
  · exact onBlocks_submit (by decide +kernel) (hv _)
  · exact onBlocks_submit (by decide +kernel) (hv _)
  · refine onBlocks_submit (by decide +kernel)
      ⟨⟨fun _ => ⟨by simp [SetupKind, kindOf, endTx, forget], by simp [kindOf, endTx, forget]⟩, fun y h _ _ _ => ?_, fun _ h => (by cases h)⟩, fun y h _ => ?_⟩
    · cases h
      rfl
    · cases h
      rfl
  iterate 4 exact tick_fair _ ev h

/-- everything the examples need to know about the final state -/
def chainCheck (c : Chain) : Bool :=
  (c.blocks.flatten.all fun x => match SignedTx.fromBytes x.data with | .ok t => decide (x.id = t.id.toString) | _ => true) &&
  decide (((c.schema node.toEnv).get clientTx.id.toString).map (·.data) = some clientTx.asBytes) &&
  (c.pool.isEmpty && c.lost.isEmpty && (List.range c.blocks.length).all fun h => (c.blocks.getD h []).isEmpty || [key 1].all fun k => decide ((k, h + 1) ∈ c.processed)) &&
  (match (ledgerOf node c).store.getTransaction (singleId storedElection.id .encryptionKey) with | some (.encryptionKey x) => decide (x = encOf) | _ => false) &&
  (match ((ledgerOf node c).ledger[7]? : Option SignedTx) with | some (.votingEnd w) => decide (w = endOf) | _ => false) &&
  decide (((ledgerOf node c).ledger.filterMap fun t =>
    match t with | .vote v => if v.tx.id.electionId = storedElection.id.electionId ∧ v.tx.id.txType = .vote then some v else none | _ => none) = [clientVote 31 "a", clientVote 32 "b"]) &&
  (ledgerOf node c).ledger.all (fun t => decide (t.id.txType = .vote → kindOf t = .vote)) &&
  (((ledgerOf node c).ledger.filterMap fun t => match t with | .vote v => some v | _ => none).all fun v =>
      ((ledgerOf node c).ledger.filterMap fun t => match t with | .vote v => some v | _ => none).all fun w =>
        decide (v.tx.anonymousKey.val.take 10 = w.tx.anonymousKey.val.take 10 → v = w)) &&
  decide ((ledgerOf node c).ledger.map kindOf = [.election, .keyGenCommitment, .keyGenShare, .keyGenPublicKey, .encryptionKey, .vote, .vote, .votingEnd, .mix, .partialDecryption,
    .partialDecryption, .decryption, .decryption])

theorem chainPoll_check : chainCheck (run node chainPoll) = true := by decide +kernel

theorem chainPoll_rust : RustRun node chainPoll := by
  refine rust_of_check (r := rng) (fun ev hev k r h heq => ?_) (by decide +kernel)
  subst heq
  simp only [chainPoll, tick, List.mem_append, List.mem_cons, List.not_mem_nil, or_false, reduceCtorEq, false_or, BlockEvent.afterCommit.injEq] at hev
  aesop

/-- what the check says -/
theorem chainCheck_spec {c : Chain} (h : chainCheck c = true) : Quiet node [key 1] storedElection c ∧
    ∃ S : Store, S = Exonum.toStore (c.schema node.toEnv) ∧ ElectionAt S storedElection.id storedElection ∧
    S.getTransaction (singleId storedElection.id .encryptionKey) = some (.encryptionKey encOf) ∧
    AllVotes S storedElection.id [clientVote 31 "a", clientVote 32 "b"] ∧ InStore S (.votingEnd endOf) ∧ DistinctVoters S storedElection := by
  simp only [chainCheck, Bool.and_eq_true] at h
  obtain ⟨⟨⟨⟨⟨⟨⟨⟨h1, h2⟩, ⟨h3, h4⟩, h5⟩, h6⟩, h7⟩, h8⟩, h9⟩, h10⟩, -⟩ := h
  obtain ⟨hn, r, hr⟩ := ledgerOf_spec (N := node) (labelled_of_check h1)
  refine ⟨quiet_of_check h3 h4 h5, _, rfl, election_of_check h2, ?_⟩
  rw [hr]
  exact ⟨key_of_check h6, votes_of_check hn h8 h9 two_sorted, (end_of_check hn h7).1, distinct_of_check hn h10⟩

/-- the node's first submission gets lost -/
def lossy : List BlockEvent := [.submit (.ofTx clientTx)] ++ tick 2 ++ [.lose 0]

/-- what is needed to know about that -/
def lossyCheck (c : Chain) : Bool :=
  decide (((c.schema node.toEnv).get clientTx.id.toString).map (·.data) = some clientTx.asBytes) &&
  (c.pool.isEmpty && decide (c.blocks.map List.length = [0, 1, 0]) && decide ((key 1, 2) ∈ c.processed)) &&
  (Exonum.getTransaction (c.schema node.toEnv) (singleId storedElection.id .encryptionKey)).isNone

theorem lossy_check : lossyCheck (run node lossy) = true := by decide +kernel

theorem lossyCheck_spec {c : Chain} (h : lossyCheck c = true) :
    ElectionAt (Exonum.toStore (c.schema node.toEnv)) storedElection.id storedElection ∧ c.pool = [] ∧ (∀ h, ∀ x ∈ c.blocks.getD h [], ∀ k ∈ [key 1], (k, h + 1) ∈ c.processed) ∧
    ¬ ∃ key, SetUp (Exonum.toStore (c.schema node.toEnv)) storedElection key := by
  simp only [lossyCheck, Bool.and_eq_true] at h
  obtain ⟨⟨h1, ⟨h2, h3⟩, h4⟩, h5⟩ := h
  refine ⟨election_of_check h1, List.isEmpty_iff.1 h2, ?_, ?_⟩
  · intro j x hx k hk
    have hlen := of_decide_eq_true h3
    rw [List.mem_singleton] at hk
    subst hk
    have hj : ((c.blocks.map List.length)[j]?).getD 0 ≠ 0 := by
      rw [List.getElem?_map]
      rw [List.getD_eq_getElem?_getD] at hx
      cases hb : c.blocks[j]? with
      | none => rw [hb] at hx; cases hx
      | some b =>
        rw [hb] at hx
        simp only [Option.map_some, Option.getD_some]
        exact fun h0 => by rw [Option.getD_some, List.length_eq_zero_iff.1 h0] at hx; cases hx
    rw [hlen] at hj
    have : j = 1 := by
      match j with
      | 0 => simp at hj
      | 1 => rfl
      | 2 => simp at hj
      | j + 3 => simp at hj
    subst this
    exact of_decide_eq_true h4
  · rintro ⟨k, hs⟩
    obtain ⟨s, hs, -⟩ := hs.encryptionKey
    rw [show Exonum.getTransaction (c.schema node.toEnv) (singleId storedElection.id .encryptionKey) = _ from hs] at h5
    cases h5

theorem lossy_rust : RustRun node lossy := by
  refine rust_of_check (r := rng) (fun ev hev k r h heq => ?_) (by decide +kernel)
  subst heq
  simp only [lossy, tick, List.mem_append, List.mem_cons, List.not_mem_nil, or_false, reduceCtorEq, false_or, BlockEvent.afterCommit.injEq] at hev
  exact hev.2.1

theorem lossy_permitted : ∀ ev ∈ lossy, OnBlocks (Permitted [key 1] storedElection) ev := by
  intro ev hev
  simp only [lossy, tick, List.mem_append, List.mem_cons, List.not_mem_nil, or_false] at hev
  rcases hev with (rfl | rfl | rfl | rfl) | rfl
  · exact onBlocks_submit clientTx_fits (fun _ => by simp [SetupKind, kindOf, clientTx, forget])
  · trivial
  · trivial
  · exact fun _ _ _ => List.mem_singleton_self _
  · trivial

theorem storedNodes_run : AllRun node [key 1] storedElection fun _ => key 1 := ⟨by decide +kernel, key 1, by decide +kernel, by decide +kernel⟩

end Toy

/-- The schedule meets the hypotheses of C70: two votes are cast, mixed and decrypted in 18 blocks. -/
example : (∀ ev ∈ Toy.chainPoll, OnBlocks (FairE2e Toy.node [Toy.key 1] Toy.storedElection) ev) ∧ RustRun Toy.node Toy.chainPoll ∧
    Nodes Toy.node [Toy.key 1] Toy.storedElection (fun _ => Toy.key 1) ∧ AllRun Toy.node [Toy.key 1] Toy.storedElection (fun _ => Toy.key 1) ∧
    MixCorrect Toy.node (fun _ => True) (fun _ c m => c.raw = m) ∧
    List.Forall₂ (fun v text => ClientVote Toy.node (fun _ => True) Toy.encOf.tx v.tx text) [Toy.clientVote 31 "a", Toy.clientVote 32 "b"] [str "a", str "b"] ∧
    Quiet Toy.node [Toy.key 1] Toy.storedElection (Chain.run Toy.node Toy.chainPoll) ∧
    ∃ S : Store, S = Exonum.toStore ((Chain.run Toy.node Toy.chainPoll).schema Toy.node.toEnv) ∧ ElectionAt S Toy.storedElection.id Toy.storedElection ∧
    S.getTransaction (singleId Toy.storedElection.id .encryptionKey) = some (.encryptionKey Toy.encOf) ∧
    AllVotes S Toy.storedElection.id [Toy.clientVote 31 "a", Toy.clientVote 32 "b"] ∧ InStore S (.votingEnd Toy.endOf) ∧ DistinctVoters S Toy.storedElection :=
  ⟨Toy.chainPoll_fair, Toy.chainPoll_rust, Toy.storedNodes, Toy.storedNodes_run, Toy.node_mix,
    .cons (Toy.clientVote_made _ _ ⟨by decide +kernel, by decide +kernel⟩) (.cons (Toy.clientVote_made _ _ ⟨by decide +kernel, by decide +kernel⟩) .nil),
    Toy.chainCheck_spec Toy.chainPoll_check⟩

/-- **C70 is false of the code** when submissions can get lost: nodes do not submit anything twice.  Here no submission is on its way, all nodes have completed `after_commit` for all
transactions, and the election is not set up, although nobody did anything wrong. -/
theorem C70_lost_submissions_are_made_up_for_false :
    ¬ ∀ (N : NodeEnv) (fits : Bytes → Prop), ThresholdCorrect N fits → ∀ (K : List SecretKey) (e : ElectionTx) (sk : UInt8 → SecretKey), Nodes N K e sk → AllRun N K e sk →
      ∀ evs : List BlockEvent, (∀ ev ∈ evs, OnBlocks (Permitted K e) ev) → RustRun N evs → ∀ S : Store, S = Exonum.toStore ((Chain.run N evs).schema N.toEnv) →
      ElectionAt S e.id e → (Chain.run N evs).pool = [] → (∀ h, ∀ x ∈ (Chain.run N evs).blocks.getD h [], ∀ k ∈ K, (k, h + 1) ∈ (Chain.run N evs).processed) →
      ∃ key, SetUp S e key := by
  intro h
  obtain ⟨h1, h2, h3, h4⟩ := Toy.lossyCheck_spec Toy.lossy_check
  exact h4 (h Toy.node _ Toy.node_threshold [Toy.key 1] Toy.storedElection _ Toy.storedNodes Toy.storedNodes_run Toy.lossy Toy.lossy_permitted Toy.lossy_rust _ rfl h1 h2 h3)

end CB
