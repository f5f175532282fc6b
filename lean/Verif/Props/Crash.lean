import Verif.Lemmas.Missed
import Verif.Props.Blocks
/-!
# C93: nodes that stop in the middle of their work
-/

namespace CB
open Spec Server

/-- **C93** (set-up) Nodes may be stopped at any point of their hooks, any number of times, and started again.  Take any schedule in which only nodes make set-up transactions of the
election.  When everything that was cut off or lost has been made up for, the election is set up; with the same encryption key whatever the schedule was. -/
theorem C93_crashed_nodes_set_up (N : NodeEnv) (fits : Bytes → Prop) (hF : ThresholdCorrect N fits) (K : List SecretKey) (e : ElectionTx) (sk : UInt8 → SecretKey)
    (hN : Nodes N K e sk) (hK : AllRun N K e sk) :
    ∃ key, ∀ evs : List CrashEvent, (∀ ev ∈ evs, OnCrashes (Permitted K e) ev) → RustCrashes N evs → ∀ S : Store, S = Exonum.toStore ((Chain.runC N evs).schema N.toEnv) →
      ElectionAt S e.id e → Quiet N K e (Chain.runC N evs) → SetUp S e key := by
  obtain ⟨key, hkey⟩ := C70_blocks_set_up N fits hF K e sk hN hK
  refine ⟨key, fun evs hev hrust S hS he hq => ?_⟩
  obtain ⟨l, hl, hr, hs⟩ := Chain.uncrashed evs hev hrust
  exact hkey l hl hr S (by rw [hs.schema]; exact hS) he (hs.quiet hq)

/-- **C93** (decryptions are right) Wherever nodes are stopped, and whether or not it is made up for: in an election without mixnet, a stored decryption of an honest vote is what the
voter selected. -/
theorem C93_decryptions_are_right_despite_crashes (N : NodeEnv) (fits : Bytes → Prop) (hF : ThresholdCorrect N fits) (K : List SecretKey) (e : ElectionTx) (sk : UInt8 → SecretKey)
    (hN : Nodes N K e sk) (hp : e.mixConfig = none) (evs : List CrashEvent) (hev : ∀ ev ∈ evs, OnCrashes (Fair N K e) ev) (hrust : RustCrashes N evs)
    (S : Store) (hS : S = Exonum.toStore ((Chain.runC N evs).schema N.toEnv))
    (he : ElectionAt S e.id e) (ek : Signed EncryptionKeyTx) (hek : S.getTransaction (singleId e.id .encryptionKey) = some (.encryptionKey ek))
    (v : Signed VoteTx) (hv : InStore S (.vote v)) (hve : v.tx.election = e.id) (hu : UniqueVote S v.tx) (c : UInt32) (sel : List Selection)
    (hh : HonestVote N fits ek.tx.encryptionKey v.tx c sel)
    (d : Signed DecryptionTx) (hd : InStore S (.decryption d)) (hde : d.tx.electionId = e.id) (hdv : d.tx.upstreamId = v.tx.id) (hdc : d.tx.contestIndex = c)
    (hnd : d.tx.trustees.Nodup ∨ QuorumNeeded N) : d.tx.decryptedVote = sel := by
  obtain ⟨l, hl, hr, hs⟩ := Chain.uncrashed evs hev hrust
  exact C70_blocks_decryptions_are_right N fits hF K e sk hN hp l hl hr S (by rw [hs.schema]; exact hS) he ek hek v hv hve hu c sel hh d hd hde hdv hdc hnd

/-- **C93** (all honest votes are decrypted) In an election without mixnet: when voting has ended, everything that was cut off or lost has been made up for, and a quorum of trustees run
nodes, a decryption of every honest vote is stored, and is right. -/
theorem C93_votes_are_decrypted_despite_crashes (N : NodeEnv) (fits : Bytes → Prop) (hF : ThresholdCorrect N fits) (K : List SecretKey) (e : ElectionTx) (sk : UInt8 → SecretKey)
    (hN : Nodes N K e sk) (hp : e.mixConfig = none) (hcon : e.contests ≠ []) (evs : List CrashEvent) (hev : ∀ ev ∈ evs, OnCrashes (Fair N K e) ev) (hrust : RustCrashes N evs)
    (S : Store) (hS : S = Exonum.toStore ((Chain.runC N evs).schema N.toEnv)) (he : ElectionAt S e.id e) (hquiet : Quiet N K e (Chain.runC N evs))
    (ek : Signed EncryptionKeyTx) (hek : S.getTransaction (singleId e.id .encryptionKey) = some (.encryptionKey ek))
    (vs : Signed VotingEndTx) (hend : S.getTransaction (singleId e.id .votingEnd) = some (.votingEnd vs)) (hvs : vs.tx.election = e.id)
    (Q : List UInt8) (hQ : Q.Nodup) (hQm : ∀ i ∈ Q, sk i ∈ K ∧ ∃ tr ∈ e.trustees, tr.index = i) (hlen : e.trusteesThreshold.toNat ≤ Q.length)
    (v : Signed VoteTx) (hv : InStore S (.vote v)) (hve : v.tx.election = e.id) (hu : UniqueVote S v.tx) (c : UInt32) (sel : List Selection)
    (hh : HonestVote N fits ek.tx.encryptionKey v.tx c sel) :
    ∃ d : Signed DecryptionTx, InStore S (.decryption d) ∧ d.tx.electionId = e.id ∧ d.tx.upstreamId = v.tx.id ∧ d.tx.contestIndex = c ∧
      (d.tx.trustees.Nodup ∨ QuorumNeeded N → d.tx.decryptedVote = sel) := by
  obtain ⟨l, hl, hr, hs⟩ := Chain.uncrashed evs hev hrust
  exact C70_blocks_votes_are_decrypted N fits hF K e sk hN hp hcon l hl hr S (by rw [hs.schema]; exact hS) he (hs.quiet hquiet) ek hek vs hend hvs Q hQ hQm hlen v hv hve hu c sel hh

/-- **C93** (elections verify) Wherever nodes are stopped, and whether or not it is made up for: the read API answers the query of the e2e command, and the command reports success on
the answer, provided that the voters' keys differ and the transactions of no other election are in the answer. -/
theorem C93_elections_verify_despite_crashes (N : NodeEnv) (fits : Bytes → Prop) (hF : ThresholdCorrect N fits) (K : List SecretKey) (e : ElectionTx) (sk : UInt8 → SecretKey)
    (hN : Nodes N K e sk) (evs : List CrashEvent) (hev : ∀ ev ∈ evs, OnCrashes (FairE2e N K e) ev) (hrust : RustCrashes N evs)
    (S : Store) (hS : S = Exonum.toStore ((Chain.runC N evs).schema N.toEnv)) (he : ElectionAt S e.id e) (hD : DistinctVoters S e) (p : Str) (hO : OnlyElection S e p) :
    ∃ txs, Api.getAll ((Chain.runC N evs).schema N.toEnv) (some p) = .ok txs ∧ E2e.verify N.toEnv txs = .ok (MemStore.ofList txs) := by
  obtain ⟨l, hl, hr, hs⟩ := Chain.uncrashed evs hev hrust
  rw [← hs.schema (N := N)] at hS ⊢
  exact C70_blocks_verify N fits hF K e sk hN l hl hr S hS he hD p hO

/-- **C93** (elections are counted right) An election made by `cryptoballot election generate`, of which the authority runs the one trustee's node, with votes made by `cryptoballot vote
generate` with keys that differ.  However often the node was stopped: when voting has ended and everything that was cut off or lost has been made up for, the e2e command reports success,
and prints every text with the number of voters who gave it, and nothing else. -/
theorem C93_client_elections_are_counted_despite_crashes (N : NodeEnv) (fits : Bytes → Prop) (Enc : ElGamalKey → Ciphertext → Bytes → Prop) (hM : MixCorrect N fits Enc)
    (K : List SecretKey) (authority : SecretKey) (hK : authority ∈ K) (el : BArr 15) (e : ElectionTx) (hee : e = forgetElection (Client.election N authority el))
    (hN : Nodes N K e fun _ => authority) (evs : List CrashEvent) (hev : ∀ ev ∈ evs, OnCrashes (FairE2e N K e) ev) (hrust : RustCrashes N evs)
    (S : Store) (hS : S = Exonum.toStore ((Chain.runC N evs).schema N.toEnv)) (he : ElectionAt S e.id e) (hquiet : Quiet N K e (Chain.runC N evs))
    (ek : Signed EncryptionKeyTx) (hek : S.getTransaction (singleId e.id .encryptionKey) = some (.encryptionKey ek))
    (vs : Signed VotingEndTx) (hend : InStore S (.votingEnd vs)) (hvs : vs.tx.election = e.id)
    (votes : List (Signed VoteTx)) (hall : AllVotes S e.id votes) (hlen : votes.length ≤ 65535) (texts : List Str)
    (hv : List.Forall₂ (fun v text => ClientVote N fits ek.tx v.tx text) votes texts) (hD : DistinctVoters S e) (p : Str) (hO : OnlyElection S e p) :
    ∃ txs m totals, Api.getAll ((Chain.runC N evs).schema N.toEnv) (some p) = .ok txs ∧ E2e.verify N.toEnv txs = .ok m ∧ E2e.tally m e.id = .ok totals ∧
      (totals.map Prod.fst).Nodup ∧ ∀ c n, (c, n) ∈ totals ↔ 0 < n ∧ n = texts.count c := by
  obtain ⟨l, hl, hr, hs⟩ := Chain.uncrashed evs hev hrust
  rw [← hs.schema (N := N)] at hS ⊢
  exact C70_blocks_count_client_elections N fits Enc hM K authority hK el e hee hN l hl hr S hS he (hs.quiet hquiet) ek hek vs hend hvs votes hall hlen texts hv hD p hO

/-- **C93** (a missed block stops an election) If a trustee's node is stopped, before its first submission, whenever it runs its hook after a block with an envelope that bears the
election's id, then however long the network goes on, the election is not set up: no commitment of the trustee is ever stored, and of nobody shares, a public key or the encryption key.
A node that is started again does not catch up; somebody has to post the election's id again (C70, reposting). -/
theorem C93_missed_election_is_never_set_up (N : NodeEnv) (fits : Bytes → Prop) (hF : ThresholdCorrect N fits) (K : List SecretKey) (e : ElectionTx) (sk : UInt8 → SecretKey)
    (hN : Nodes N K e sk) (tr : Trustee) (htr : tr ∈ e.trustees) (evs : List CrashEvent) (hev : ∀ ev ∈ evs, OnCrashes (Permitted K e) ev) (hrust : RustCrashes N evs)
    (hmiss : NeverAfter N evs (sk tr.index) e.id) (S : Store) (hS : S = Exonum.toStore ((Chain.runC N evs).schema N.toEnv)) (he : ElectionAt S e.id e) :
    ∀ t, InStore S t → t.id.electionId = e.id.electionId →
      (kindOf t = .keyGenCommitment → ∀ i, trusteeOf t ≠ some (i, tr.publicKey)) ∧ kindOf t ≠ .keyGenShare ∧ kindOf t ≠ .keyGenPublicKey ∧ kindOf t ≠ .encryptionKey := by
  obtain ⟨l, hl, hr, hs⟩ := Chain.uncrashed evs hev hrust
  obtain ⟨nl, hnl, ⟨r, hr⟩, hlab, -⟩ := Chain.view (P := Permitted K e) (K := K) (e := e) (fun _ => trivial) l hl hr
  rw [hs.schema] at hr
  rw [hs.blocks] at hlab
  have hw : e.id = ⟨e.id.electionId, .election, zero16⟩ := by
    rw [hS, hr] at he
    obtain ⟨sg, hg⟩ := he
    obtain ⟨m0, -, -, hv, -⟩ := (Network.sound_run N nl).whole.accepted hg
    exact (ElectionTx.validateTx_ok.1 (SignedTx.validate_ok.1 hv).2.2).1
  have hno := Chain.without_commitment hN hw htr evs hev hrust hmiss
  have hcom : ∀ t, InStore S t → t.id.electionId = e.id.electionId → kindOf t = .keyGenCommitment → ∀ i, trusteeOf t ≠ some (i, tr.publicKey) := by
    intro t ht hf hk
    rw [hS] at ht
    obtain ⟨x, hx, hd⟩ := Exonum.getTransaction_eq_some.1 ht
    obtain ⟨-, -, b, a, -, hsplit, -⟩ := Exonum.C36_stored_was_validated N.toEnv _ _ _ hx
    exact hno x (.inl (by rw [hsplit]; simp)) t hd hf hk
  rw [hr] at hS
  subst hS
  have hH := Network.history_run (N := N) (Q := Permitted K e) nl hnl
  obtain ⟨run, key, hR⟩ := Setup.exists_run hF hN.trustees sk
  have hI := (Setup.live_run hN hR nl hnl he).inv
  have hin : ∀ t, InStore (Network.run N nl).store.toStore t ↔ t ∈ (Network.run N nl).ledger := fun t => Network.stored_iff_mem hH.sound.nodup t
  -- no shares
  have hshare : ∀ t ∈ (Network.run N nl).ledger, t.id.electionId = e.id.electionId → kindOf t ≠ .keyGenShare := by
    intro t ht hf hk
    have hord := hI.orderly.order (Network.run N nl).ledger.length t (by rw [List.take_length]; exact ht) hf hk
    rw [List.take_length] at hord
    obtain ⟨u, hu, h1, h2, h3⟩ := hI.stepDone hN (.inl rfl) hord tr htr
    exact hcom u hu h1 h2 _ h3
  -- who reacts to what
  have hfrom : ∀ t ∈ (Network.run N nl).ledger, t.id.electionId = e.id.electionId → SetupKind (kindOf t) →
      ∃ w, ∃ k ∈ K, ∃ rng l', ∃ x, Setup.View N e sk run key (MemStore.ofList ((Network.run N nl).ledger.take w)).toStore ∧ electionOf x = e.id ∧
        (kindOf x, kindOf t) ∈ Setup.follows ∧ generateTransactions N rng k (MemStore.ofList ((Network.run N nl).ledger.take w)).toStore x = .ok l' ∧ t ∈ l' := by
    intro t ht hf hk
    obtain ⟨i, hi⟩ := List.getElem?_of_mem ht
    rcases hH.listed i t hi with hsub | ⟨k, rng, m, v, hk', w, -, x, rng', l', hx, hg, hd⟩
    · exact absurd hk (hsub hf)
    · have hx' : InStore (MemStore.ofList ((Network.run N nl).ledger.take w)).toStore x := (Network.stored_iff_mem (Network.nodup_take hH.sound.nodup w) x).2 hx
      obtain ⟨-, h1, h2⟩ := Setup.emitted (hH.sound.ledger w).lawful hx' hg hd
      obtain ⟨h3, h4⟩ := (hI.orderly.take w).names hx (by rw [← h1]; exact hf)
      exact ⟨w, k, hk', rng', l', x, (hI.orderly.take w).view h4, h3, h2, hg, hd⟩
  obtain ⟨tr', htr'⟩ : ∃ tr', tr' ∈ e.getFullTrustees := by
    have : e.getFullTrustees.length = e.trustees.length := by simp [ElectionTx.getFullTrustees]
    exact List.exists_mem_of_length_pos (by rw [this]; exact List.length_pos_of_mem htr)
  have hslot : ∀ (w : Nat) (ty : TxType), Setup.Filled e (MemStore.ofList ((Network.run N nl).ledger.take w)).toStore ty →
      ∃ u ∈ (Network.run N nl).ledger, u.id.electionId = e.id.electionId ∧ kindOf u = ty := by
    intro w ty hfil
    obtain ⟨u, hu⟩ := hfil tr' htr'
    have hw := hI.orderly.take w
    have hid := hw.sound.whole.lawful.keyed _ _ hu
    have hmem : u ∈ (Network.run N nl).ledger.take w := (Network.stored_iff_mem hw.sound.nodup u).1 (by show MemStore.getTransaction _ u.id = _; rw [hid]; exact hu)
    exact ⟨u, List.mem_of_mem_take hmem, by rw [hid]; rfl, hw.in_slot hmem hid⟩
  have hpub : ∀ t ∈ (Network.run N nl).ledger, t.id.electionId = e.id.electionId → kindOf t ≠ .keyGenPublicKey := by
    intro t ht hf hk
    obtain ⟨w, k, hkK, rng, l', x, hV, hx, h, hg, hd⟩ := hfrom t ht hf (by rw [hk]; simp [SetupKind])
    rw [hk] at h
    cases x with
    | keyGenShare s =>
      obtain ⟨l'', hl'', h4, -⟩ := Setup.react_share hN hR hV rng hkK (t := s.tx) (sig := s.sig) hx
      have hg : _ = Res.ok l' := hg
      rw [hl''] at hg
      cases hg
      obtain ⟨u, hu, huf, huk⟩ := hslot w _ (h4 t hd).1
      exact hshare u hu huf huk
    | _ => simp [Setup.follows, kindOf] at h
  intro t ht hf
  refine ⟨hcom t ht hf, hshare t ((hin t).1 ht) hf, hpub t ((hin t).1 ht) hf, fun hk => ?_⟩
  obtain ⟨w, k, hkK, rng, l', x, hV, hx, h, hg, hd⟩ := hfrom t ((hin t).1 ht) hf (by rw [hk]; simp [SetupKind])
  rw [hk] at h
  cases x with
  | keyGenPublicKey s =>
    obtain ⟨l'', hl'', h4, -⟩ := Setup.react_publicKey hN hV rng k (t := s.tx) (sig := s.sig) hx
    have hg : _ = Res.ok l' := hg
    rw [hl''] at hg
    cases hg
    obtain ⟨u, hu, huf, huk⟩ := hslot w _ (h4 t hd).2.1
    exact hpub u hu huf huk
  | _ => simp [Setup.follows, kindOf] at h

namespace Toy
open Server.Chain

/-- nothing is left to do -/
def quietCheck (N : NodeEnv) (K : List SecretKey) (c : Chain) : Bool :=
  ((c.pool ++ c.lost).all fun x => ((c.schema N.toEnv).get x.id).isSome) &&
  (List.range c.blocks.length).all fun h => (c.blocks.getD h []).all fun x => K.all fun k =>
    (List.range c.blocks.length).any fun h' => decide (h ≤ h') && ((c.blocks.getD h' []).any fun y => decide (y.id = x.id)) && decide ((k, h' + 1) ∈ c.processed)

theorem quiet_of_quietCheck {N : NodeEnv} {K : List SecretKey} {e : ElectionTx} {c : Chain} (h : quietCheck N K c = true) : Quiet N K e c := by
  rw [quietCheck, Bool.and_eq_true] at h
  refine ⟨fun x hx _ => List.all_eq_true.1 h.1 x (List.mem_append.2 hx), fun j x hx _ k hk => ?_⟩
  by_cases hlt : j < c.blocks.length
  · have := List.all_eq_true.1 (List.all_eq_true.1 (List.all_eq_true.1 h.2 j (List.mem_range.2 hlt)) x hx) k hk
    obtain ⟨h', -, hh⟩ := List.any_eq_true.1 this
    rw [Bool.and_eq_true, Bool.and_eq_true] at hh
    obtain ⟨y, hy, hyx⟩ := List.any_eq_true.1 hh.1.2
    exact ⟨h', of_decide_eq_true hh.1.1, y, hy, of_decide_eq_true hyx, of_decide_eq_true hh.2⟩
  · rw [List.getD_eq_getElem?_getD, List.getElem?_eq_none (by omega)] at hx
    cases hx

/-- what a node makes at this event is Rust data -/
def eventCheckC (N : NodeEnv) (r : Rng) (c : Chain) : CrashEvent → Bool
  | .block ev => eventCheck N r c ev
  | .crash k _ h _ => eventCheck N r c (.afterCommit k (fun _ => r) h)

/-- check of `RustCrashes` for schedules in which nodes use one source of randomness -/
def rustCheckC (N : NodeEnv) (r : Rng) : Chain → List CrashEvent → Bool
  | _, [] => true
  | c, ev :: evs => eventCheckC N r c ev && rustCheckC N r (stepC N c ev) evs

theorem rust_of_checkC {N : NodeEnv} {r : Rng} {evs : List CrashEvent} (hr : ∀ ev ∈ evs, ∀ k rng h, HookAt k rng h ev → rng = fun _ => r)
    (h : rustCheckC N r genesis evs = true) : RustCrashes N evs := by
  intro pre ev hp k rng h' hk x hx t hid ht i l hl d hd
  obtain ⟨post, rfl⟩ := hp
  have hrng := hr ev (by simp) _ _ _ hk
  subst hrng
  have key : ∀ (pre : List CrashEvent) (c : Chain) (post : List CrashEvent), rustCheckC N r c (pre ++ post) = true → rustCheckC N r (pre.foldl (stepC N) c) post = true := by
    intro pre
    induction pre with
    | nil => exact fun c post h => h
    | cons ev pre ih =>
      intro c post h
      rw [List.cons_append, rustCheckC, Bool.and_eq_true] at h
      exact ih _ _ h.2
  rw [List.append_assoc] at h
  have h1 := key pre genesis _ h
  rw [List.cons_append, rustCheckC, Bool.and_eq_true] at h1
  have h1 : eventCheck N r (runC N pre) (.afterCommit k (fun _ => r) (h' + 1)) = true := by
    rcases hk with rfl | ⟨sent, rfl⟩
    · exact h1.1
    · exact h1.1
  have h2 := List.all_eq_true.1 h1 x hx
  rw [hid] at h2
  simp only at h2
  rw [show Exonum.getTransaction _ t.id = some t from ht] at h2
  simp only at h2
  rw [show generateTransactions N r k _ t = .ok l from hl] at h2
  exact fits_of_check _ _ (List.all_eq_true.1 h2 d hd)

/-- a block with the first three submissions, an empty block, and the authority's node catches up -/
def tickC (h : Nat) : List CrashEvent := (tick h).map .block

/-- a block with the first three submissions, an empty block, and the authority's node is stopped after so many submissions -/
def crashTick (h sent : Nat) : List CrashEvent := [.block (.commit [0, 0, 0]), .block (.commit []), .crash (key 1) (fun _ => rng) h sent]

/-- an envelope with the id of the mix, and nothing in it -/
def nudge : Exonum.Envelope := ⟨BArr.fill 32 0, (MixTx.buildId storedElection.id 0 0 0 1).toString, []⟩

/-- an election of two votes, in which the node is stopped before it posts its commitment, and again between its decryption shares of the two votes; each time, an envelope with the id
of the transaction that it was reacting to is posted again -/
def crashPoll : List CrashEvent :=
  [.block (.submit (.ofTx clientTx))] ++ crashTick 2 0 ++ [.block (.submit (.ofTx clientTx))] ++ tickC 4 ++ tickC 6 ++ tickC 8 ++ tickC 10 ++ tickC 12 ++
    [.block (.submit (.ofTx (.vote (clientVote 31 "a")))), .block (.submit (.ofTx (.vote (clientVote 32 "b")))), .block (.submit (.ofTx endTx))] ++ tickC 14 ++ crashTick 16 1 ++
    [.block (.submit nudge)] ++ tickC 18 ++ tickC 20 ++ tickC 22

/-- everything the example needs to know about the final state -/
def crashCheck (c : Chain) : Bool :=
  (c.blocks.flatten.all fun x => match SignedTx.fromBytes x.data with | .ok t => decide (x.id = t.id.toString) | _ => true) &&
  decide (((c.schema node.toEnv).get clientTx.id.toString).map (·.data) = some clientTx.asBytes) &&
  quietCheck node [key 1] c &&
  (match (ledgerOf node c).store.getTransaction (singleId storedElection.id .encryptionKey) with | some (.encryptionKey x) => decide (x = encOf) | _ => false) &&
  (match ((ledgerOf node c).ledger[7]? : Option SignedTx) with | some (.votingEnd w) => decide (w = endOf) | _ => false) &&
  decide (((ledgerOf node c).ledger.filterMap fun t =>
    match t with | .vote v => if v.tx.id.electionId = storedElection.id.electionId ∧ v.tx.id.txType = .vote then some v else none | _ => none) = [clientVote 31 "a", clientVote 32 "b"]) &&
  (ledgerOf node c).ledger.all (fun t => decide (t.id.txType = .vote → kindOf t = .vote)) &&
  (((ledgerOf node c).ledger.filterMap fun t => match t with | .vote v => some v | _ => none).all fun v =>
      ((ledgerOf node c).ledger.filterMap fun t => match t with | .vote v => some v | _ => none).all fun w =>
        decide (v.tx.anonymousKey.val.take 10 = w.tx.anonymousKey.val.take 10 → v = w)) &&
  (decide (c.lost.length = 2) && decide ((ledgerOf node c).ledger.map kindOf = [.election, .keyGenCommitment, .keyGenShare, .keyGenPublicKey, .encryptionKey, .vote, .vote, .votingEnd,
    .mix, .partialDecryption, .decryption, .partialDecryption, .decryption]))

theorem crashPoll_check : crashCheck (runC node crashPoll) = true := by decide +kernel

theorem crashCheck_spec {c : Chain} (h : crashCheck c = true) : c.lost.length = 2 ∧ Quiet node [key 1] storedElection c ∧
    ∃ S : Store, S = Exonum.toStore (c.schema node.toEnv) ∧ ElectionAt S storedElection.id storedElection ∧
    S.getTransaction (singleId storedElection.id .encryptionKey) = some (.encryptionKey encOf) ∧
    AllVotes S storedElection.id [clientVote 31 "a", clientVote 32 "b"] ∧ InStore S (.votingEnd endOf) ∧ DistinctVoters S storedElection := by
  simp only [crashCheck, Bool.and_eq_true] at h
  obtain ⟨⟨⟨⟨⟨⟨⟨⟨h1, h2⟩, h5⟩, h6⟩, h7⟩, h8⟩, h9⟩, h10⟩, h11, -⟩ := h
  obtain ⟨hn, r, hr⟩ := ledgerOf_spec (N := node) (labelled_of_check h1)
  refine ⟨of_decide_eq_true h11, quiet_of_quietCheck h5, _, rfl, election_of_check h2, ?_⟩
  rw [hr]
  exact ⟨key_of_check h6, votes_of_check hn h8 h9 two_sorted, (end_of_check hn h7).1, distinct_of_check hn h10⟩

theorem tickC_rng (h : Nat) : ∀ ev ∈ tickC h, ∀ k r j, HookAt k r j ev → r = fun _ => rng := by
  intro ev hev k r j hk
  simp only [tickC, tick, List.map_cons, List.map_nil, List.mem_cons, List.not_mem_nil, or_false] at hev
  rcases hk with rfl | ⟨sent, rfl⟩
  · simp only [CrashEvent.block.injEq, reduceCtorEq, BlockEvent.afterCommit.injEq, false_or] at hev
    exact hev.2.1
  · simp at hev

theorem crashTick_rng (h sent : Nat) : ∀ ev ∈ crashTick h sent, ∀ k r j, HookAt k r j ev → r = fun _ => rng := by
  intro ev hev k r j hk
  simp only [crashTick, List.mem_cons, List.not_mem_nil, or_false] at hev
  rcases hk with rfl | ⟨sent, rfl⟩
  · simp at hev
  · simp only [reduceCtorEq, CrashEvent.crash.injEq, false_or] at hev
    exact hev.2.1

theorem submit_rng (x : Exonum.Envelope) {k : SecretKey} {r : Nat → Rng} {j : Nat} (hk : HookAt k r j (.block (.submit x))) : r = fun _ => rng := by
  rcases hk with hk | ⟨_, hk⟩ <;> cases hk

theorem crashPoll_rust : RustCrashes node crashPoll := by
  refine rust_of_checkC (r := rng) (fun ev hev => ?_) (by decide +kernel)
  simp only [crashPoll, List.mem_append, List.mem_cons, List.not_mem_nil, or_false] at hev
  rcases hev with ((((((((((((((rfl | h) | rfl) | h) | h) | h) | h) | h) | rfl | rfl | rfl) | h) | h) | rfl) | h) | h) | h)
  all_goals first | exact tickC_rng _ ev h | exact crashTick_rng _ _ ev h | exact fun _ _ _ => submit_rng _

theorem tickC_fair (h : Nat) : ∀ ev ∈ tickC h, OnCrashes (FairE2e node [key 1] storedElection) ev := by
  intro ev hev
  obtain ⟨b, hb, rfl⟩ := List.mem_map.1 hev
  exact tick_fair h b hb

theorem crashTick_fair (h sent : Nat) : ∀ ev ∈ crashTick h sent, OnCrashes (FairE2e node [key 1] storedElection) ev := by
  intro ev hev
  simp only [crashTick, List.mem_cons, List.not_mem_nil, or_false] at hev
  rcases hev with rfl | rfl | rfl
  · trivial
  · trivial
  · exact fun _ _ _ => ⟨List.mem_singleton_self _, fun _ h => by cases h⟩

theorem nudge_fair (P : Event → Prop) : OnBlocks P (.submit nudge) := by
  have h : (match SignedTx.fromBytes nudge.data with | .ok _ => true | _ => false) = false := by decide +kernel
  refine ⟨fun t ht => ?_, fun t ht => ?_⟩
  · rw [ht] at h; cases h
  · rw [ht] at h; cases h

theorem crashPoll_fair : ∀ ev ∈ crashPoll, OnCrashes (FairE2e node [key 1] storedElection) ev := by
  intro ev hev
  simp only [crashPoll, List.mem_append, List.mem_cons, List.not_mem_nil, or_false] at hev
  have hsub : ∀ x, BlockEvent.submit x ∈ chainPoll → OnCrashes (FairE2e node [key 1] storedElection) (.block (.submit x)) := fun x hx => chainPoll_fair _ hx
  rcases hev with ((((((((((((((rfl | h) | rfl) | h) | h) | h) | h) | h) | rfl | rfl | rfl) | h) | h) | rfl) | h) | h) | h)
  · exact hsub _ (by simp only [chainPoll, List.mem_append, List.mem_cons, true_or])
  · exact crashTick_fair _ _ ev h
  · exact hsub _ (by simp only [chainPoll, List.mem_append, List.mem_cons, true_or])
  iterate 5 exact tickC_fair _ ev h
  · exact hsub _ (by simp only [chainPoll, List.mem_append, List.mem_cons, true_or, or_true])
  · exact hsub _ (by simp only [chainPoll, List.mem_append, List.mem_cons, true_or, or_true])
  · exact hsub _ (by simp only [chainPoll, List.mem_append, List.mem_cons, true_or, or_true])
  · exact tickC_fair _ ev h
  · exact crashTick_fair _ _ ev h
  · exact nudge_fair _
  iterate 3 exact tickC_fair _ ev h

/-- the node is stopped before it posts its commitment; later it is started again and goes on with the blocks after that -/
def missedPoll : List CrashEvent := [.block (.submit (.ofTx clientTx))] ++ crashTick 2 0 ++ tickC 4 ++ tickC 6

/-- what the example needs to know about that -/
def missedCheck (c : Chain) : Bool :=
  decide (((c.schema node.toEnv).get clientTx.id.toString).map (·.data) = some clientTx.asBytes) &&
  (c.pool.isEmpty && decide (c.blocks.map List.length = [0, 1, 0, 0, 0, 0, 0]))

theorem missed_check : missedCheck (runC node missedPoll) = true := by decide +kernel

theorem missedCheck_spec {c : Chain} (h : missedCheck c = true) : ElectionAt (Exonum.toStore (c.schema node.toEnv)) storedElection.id storedElection ∧ c.pool = [] ∧
    ∀ h, ∀ x ∈ c.blocks.getD h [], h = 1 := by
  simp only [missedCheck, Bool.and_eq_true] at h
  refine ⟨election_of_check h.1, List.isEmpty_iff.1 h.2.1, fun j x hx => ?_⟩
  have hlen := of_decide_eq_true h.2.2
  have hj : ((c.blocks.map List.length)[j]?).getD 0 ≠ 0 := by
    rw [List.getElem?_map]
    rw [List.getD_eq_getElem?_getD] at hx
    cases hb : c.blocks[j]? with
    | none => rw [hb] at hx; cases hx
    | some b =>
      rw [hb] at hx
      simp only [Option.map_some, Option.getD_some]
      exact fun h0 => by rw [Option.getD_some, List.length_eq_zero_iff.1 h0] at hx; cases hx
  rw [hlen] at hj
  match j with
  | 0 => simp at hj
  | 1 => rfl
  | 2 => simp at hj
  | 3 => simp at hj
  | 4 => simp at hj
  | 5 => simp at hj
  | 6 => simp at hj
  | j + 7 => simp at hj

theorem missed_rust : RustCrashes node missedPoll := by
  refine rust_of_checkC (r := rng) (fun ev hev => ?_) (by decide +kernel)
  simp only [missedPoll, List.mem_append, List.mem_cons, List.not_mem_nil, or_false] at hev
  rcases hev with ((rfl | h) | h) | h
  all_goals first | exact tickC_rng _ ev h | exact crashTick_rng _ _ ev h | exact fun _ _ _ => submit_rng _

theorem missed_permitted : ∀ ev ∈ missedPoll, OnCrashes (Permitted [key 1] storedElection) ev := by
  intro ev hev
  simp only [missedPoll, List.mem_append, List.mem_cons, List.not_mem_nil, or_false] at hev
  have htick : ∀ h, ∀ ev ∈ tickC h, OnCrashes (Permitted [key 1] storedElection) ev := by
    intro h ev hev
    simp only [tickC, tick, List.map_cons, List.map_nil, List.mem_cons, List.not_mem_nil, or_false] at hev
    rcases hev with rfl | rfl | rfl
    · trivial
    · trivial
    · exact fun _ _ _ => List.mem_singleton_self _
  rcases hev with ((rfl | h) | h) | h
  · exact onBlocks_submit clientTx_fits (fun _ => by simp [SetupKind, kindOf, clientTx, forget])
  · simp only [crashTick, List.mem_cons, List.not_mem_nil, or_false] at h
    rcases h with rfl | rfl | rfl
    · trivial
    · trivial
    · exact fun _ _ _ => List.mem_singleton_self _
  · exact htick _ ev h
  · exact htick _ ev h

/-- check of one event for `NeverAfter` -/
def neverEvent (k : SecretKey) (id : Identifier) (c : Chain) : CrashEvent → Bool
  | .block (.afterCommit k' _ (h + 1)) => decide (k' ≠ k) || (c.blocks.getD h []).all fun x => match Identifier.fromStr x.id with | .ok i => decide (i ≠ id) | _ => true
  | .crash k' _ _ (_ + 1) => decide (k' ≠ k)
  | _ => true

/-- check of `NeverAfter` -/
def neverCheck (N : NodeEnv) (k : SecretKey) (id : Identifier) : Chain → List CrashEvent → Bool
  | _, [] => true
  | c, ev :: evs => neverEvent k id c ev && neverCheck N k id (stepC N c ev) evs

theorem never_of_check {N : NodeEnv} {k : SecretKey} {id : Identifier} {evs : List CrashEvent} (h : neverCheck N k id genesis evs = true) : NeverAfter N evs k id := by
  intro pre ev hp rng j hk x hx hid
  obtain ⟨post, rfl⟩ := hp
  have key : ∀ (pre : List CrashEvent) (c : Chain) (post : List CrashEvent), neverCheck N k id c (pre ++ post) = true → neverCheck N k id (pre.foldl (stepC N) c) post = true := by
    intro pre
    induction pre with
    | nil => exact fun c post h => h
    | cons ev pre ih =>
      intro c post h
      rw [List.cons_append, neverCheck, Bool.and_eq_true] at h
      exact ih _ _ h.2
  rw [List.append_assoc] at h
  have h1 := key pre genesis _ h
  rw [List.cons_append, neverCheck, Bool.and_eq_true] at h1
  rcases hk with rfl | ⟨sent, rfl⟩
  · have h2 : (decide (k ≠ k) || ((runC N pre).blocks.getD j []).all fun x => match Identifier.fromStr x.id with | .ok i => decide (i ≠ id) | _ => true) = true := h1.1
    rw [decide_eq_false (fun h => h rfl), Bool.false_or] at h2
    have h3 := List.all_eq_true.1 h2 x hx
    rw [hid] at h3
    exact of_decide_eq_true h3 rfl
  · exact of_decide_eq_true h1.1 rfl

theorem missed_never : NeverAfter node missedPoll (key 1) storedElection.id := never_of_check (by decide +kernel)

end Toy

/-- The schedule meets the hypotheses of C93: two votes are cast, mixed and decrypted, although the node is stopped twice. -/
example : (∀ ev ∈ Toy.crashPoll, OnCrashes (FairE2e Toy.node [Toy.key 1] Toy.storedElection) ev) ∧ RustCrashes Toy.node Toy.crashPoll ∧
    Nodes Toy.node [Toy.key 1] Toy.storedElection (fun _ => Toy.key 1) ∧ AllRun Toy.node [Toy.key 1] Toy.storedElection (fun _ => Toy.key 1) ∧
    MixCorrect Toy.node (fun _ => True) (fun _ c m => c.raw = m) ∧ (Chain.runC Toy.node Toy.crashPoll).lost.length = 2 ∧
    Quiet Toy.node [Toy.key 1] Toy.storedElection (Chain.runC Toy.node Toy.crashPoll) ∧
    ∃ S : Store, S = Exonum.toStore ((Chain.runC Toy.node Toy.crashPoll).schema Toy.node.toEnv) ∧ ElectionAt S Toy.storedElection.id Toy.storedElection ∧
    S.getTransaction (singleId Toy.storedElection.id .encryptionKey) = some (.encryptionKey Toy.encOf) ∧
    AllVotes S Toy.storedElection.id [Toy.clientVote 31 "a", Toy.clientVote 32 "b"] ∧ InStore S (.votingEnd Toy.endOf) ∧ DistinctVoters S Toy.storedElection :=
  ⟨Toy.crashPoll_fair, Toy.crashPoll_rust, Toy.storedNodes, Toy.storedNodes_run, Toy.node_mix, Toy.crashCheck_spec Toy.crashPoll_check⟩

/-- A schedule in which the trustee's node misses the election. -/
example : (∀ ev ∈ Toy.missedPoll, OnCrashes (Permitted [Toy.key 1] Toy.storedElection) ev) ∧ RustCrashes Toy.node Toy.missedPoll ∧
    ThresholdCorrect Toy.node (fun _ => True) ∧ Nodes Toy.node [Toy.key 1] Toy.storedElection (fun _ => Toy.key 1) ∧ Toy.storedElection.trustees ≠ [] ∧
    NeverAfter Toy.node Toy.missedPoll (Toy.key 1) Toy.storedElection.id ∧
    ElectionAt (Exonum.toStore ((Chain.runC Toy.node Toy.missedPoll).schema Toy.node.toEnv)) Toy.storedElection.id Toy.storedElection :=
  ⟨Toy.missed_permitted, Toy.missed_rust, Toy.node_threshold, Toy.storedNodes, by decide +kernel, Toy.missed_never, (Toy.missedCheck_spec Toy.missed_check).1⟩

/-- **C93 is false of the code** without making up for it: nodes that are stopped do not catch up after they are started again.  Here no submission is on its way, and for every block
that holds a transaction all nodes have completed their hooks, except one hook during which the node was stopped; and the election is not set up. -/
theorem C93_restarted_nodes_catch_up_false :
    ¬ ∀ (N : NodeEnv) (fits : Bytes → Prop), ThresholdCorrect N fits → ∀ (K : List SecretKey) (e : ElectionTx) (sk : UInt8 → SecretKey), Nodes N K e sk → AllRun N K e sk →
      ∀ evs : List CrashEvent, (∀ ev ∈ evs, OnCrashes (Permitted K e) ev) → RustCrashes N evs → ∀ S : Store, S = Exonum.toStore ((Chain.runC N evs).schema N.toEnv) →
      ElectionAt S e.id e → (Chain.runC N evs).pool = [] → (∀ i, CrashEvent.block (.lose i) ∉ evs) →
      (∀ h, ∀ x ∈ (Chain.runC N evs).blocks.getD h [], ∀ k ∈ K, (k, h + 1) ∈ (Chain.runC N evs).processed ∨ ∃ rng sent, CrashEvent.crash k rng (h + 1) sent ∈ evs) →
      ∃ key, SetUp S e key := by
  intro h
  obtain ⟨h1, h2, h3⟩ := Toy.missedCheck_spec Toy.missed_check
  obtain ⟨key, hkey⟩ := h Toy.node _ Toy.node_threshold [Toy.key 1] Toy.storedElection _ Toy.storedNodes Toy.storedNodes_run Toy.missedPoll Toy.missed_permitted Toy.missed_rust _ rfl h1 h2
    (by simp [Toy.missedPoll, Toy.crashTick, Toy.tickC, Toy.tick]) (fun j x hx k hk => by
      rw [h3 j x hx, List.mem_singleton.1 hk]
      exact .inr ⟨_, 0, by simp [Toy.missedPoll, Toy.crashTick]; exact .inl rfl⟩)
  obtain ⟨tr, htr⟩ := List.exists_mem_of_ne_nil _ (show Toy.storedElection.trustees ≠ [] by decide +kernel)
  obtain ⟨t, ht, hte, htk, htr'⟩ := hkey.commitments tr htr
  exact (C93_missed_election_is_never_set_up Toy.node _ Toy.node_threshold [Toy.key 1] Toy.storedElection _ Toy.storedNodes tr htr Toy.missedPoll Toy.missed_permitted Toy.missed_rust
    Toy.missed_never _ rfl h1 t ht hte).1 htk _ htr'

end CB
