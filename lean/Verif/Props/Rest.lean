import Verif.Lemmas.Rest
import Verif.Props.Blocks
/-!
# C71: elections on the blockchain complete
-/

namespace CB
open Spec Server

namespace Server.Chain

variable {N : NodeEnv} {K : List SecretKey} {evs : Nat → BlockEvent}

theorem nothing_lost (D : Dutiful N K evs) (n : Nat) : (after N evs n).lost = [] := by
  induction n with
  | zero => rfl
  | succ n ih =>
    rw [after_succ]
    cases hev : evs n with
    | submit x => exact ih
    | commit is => exact ih
    | lose i => exact absurd hev (D.lossless n i)
    | afterCommit k rng h =>
      unfold step
      dsimp only
      split
      · exact ih
      · split <;> exact ih

theorem quiet_at_last (D : Dutiful N K evs) (e : ElectionTx) : ∃ n₀, ∀ n, n₀ ≤ n → Quiet N K e (after N evs n) := by
  obtain ⟨n₀, h⟩ := comes_to_rest D
  refine ⟨n₀, fun n hn => ⟨fun x hx => ?_, fun h' x hx _ k hk => ⟨h', Nat.le_refl _, x, hx, rfl, (h n hn).2.2 h' x hx k hk⟩⟩⟩
  rw [(h n hn).1, nothing_lost D n] at hx
  rcases hx with hx | hx <;> cases hx

end Server.Chain

/-- **C71** (nodes come to rest) Nodes react to what is committed, and to each other's reactions.  But as soon as nobody else submits anything, they come to an end, in every endless
schedule in which submissions are committed and nodes run their hooks at any times: from some time on, nothing is submitted, nothing is filed, and every node has completed its hook
for every block that is not empty.  This holds whatever was submitted before, and whatever the cryptography does. -/
theorem C71_nodes_come_to_rest (N : NodeEnv) (K : List SecretKey) (evs : Nat → BlockEvent) (hD : Dutiful N K evs) :
    ∃ n₀, ∀ n, n₀ ≤ n → (after N evs n).pool = [] ∧ (after N evs n).blocks.flatten = (after N evs n₀).blocks.flatten ∧
      (after N evs n).schema N.toEnv = (after N evs n₀).schema N.toEnv ∧ ∀ h, ∀ x ∈ (after N evs n).blocks.getD h [], ∀ k ∈ K, (k, h + 1) ∈ (after N evs n).processed := by
  obtain ⟨n₀, h⟩ := Chain.comes_to_rest hD
  refine ⟨n₀, fun n hn => ⟨(h n hn).1, (h n hn).2.1, ?_, (h n hn).2.2⟩⟩
  unfold Chain.schema
  rw [(h n hn).2.1]

/-- **C71** (set-up completes) In every endless schedule in which the blockchain and the nodes do their duty, and only nodes make set-up transactions of the election: if the election
is filed at some time, it is set up at some time, and remains so; with the same encryption key in all schedules. -/
theorem C71_elections_are_set_up (N : NodeEnv) (fits : Bytes → Prop) (hF : ThresholdCorrect N fits) (K : List SecretKey) (e : ElectionTx) (sk : UInt8 → SecretKey)
    (hN : Nodes N K e sk) (hK : AllRun N K e sk) :
    ∃ key, ∀ evs : Nat → BlockEvent, Dutiful N K evs → (∀ n, OnBlocks (Permitted K e) (evs n)) → (∀ n, RustRun N ((List.range n).map evs)) →
      ∀ m, ElectionAt (Exonum.toStore ((after N evs m).schema N.toEnv)) e.id e →
      ∃ n₀, ∀ n, n₀ ≤ n → SetUp (Exonum.toStore ((after N evs n).schema N.toEnv)) e key := by
  obtain ⟨key, hkey⟩ := C70_blocks_set_up N fits hF K e sk hN hK
  refine ⟨key, fun evs hD hev hrust m ⟨s, hm⟩ => ?_⟩
  obtain ⟨n₀, hq⟩ := Chain.quiet_at_last hD e
  refine ⟨max n₀ m, fun n hn => hkey _ ?_ (hrust n) _ rfl ⟨s, Chain.schema_mono N evs (show m ≤ n by omega) hm⟩ (hq n (by omega))⟩
  intro ev h
  obtain ⟨i, -, rfl⟩ := List.mem_map.1 h
  exact hev i

/-- **C71** (all honest votes are decrypted) In every endless schedule in which the blockchain and the nodes do their duty, for every election without mixnet of which a quorum of
trustees run nodes: from some time on, if voting has ended, a decryption of every honest vote is stored, and is right. -/
theorem C71_votes_are_decrypted (N : NodeEnv) (fits : Bytes → Prop) (hF : ThresholdCorrect N fits) (K : List SecretKey) (e : ElectionTx) (sk : UInt8 → SecretKey)
    (hN : Nodes N K e sk) (hp : e.mixConfig = none) (hcon : e.contests ≠ []) (Q : List UInt8) (hQ : Q.Nodup)
    (hQm : ∀ i ∈ Q, sk i ∈ K ∧ ∃ tr ∈ e.trustees, tr.index = i) (hlen : e.trusteesThreshold.toNat ≤ Q.length)
    (evs : Nat → BlockEvent) (hD : Dutiful N K evs) (hev : ∀ n, OnBlocks (Fair N K e) (evs n)) (hrust : ∀ n, RustRun N ((List.range n).map evs)) :
    ∃ n₀, ∀ n, n₀ ≤ n → ∀ S : Store, S = Exonum.toStore ((after N evs n).schema N.toEnv) → ElectionAt S e.id e →
      ∀ ek : Signed EncryptionKeyTx, S.getTransaction (singleId e.id .encryptionKey) = some (.encryptionKey ek) →
      ∀ vs : Signed VotingEndTx, S.getTransaction (singleId e.id .votingEnd) = some (.votingEnd vs) → vs.tx.election = e.id →
      ∀ v : Signed VoteTx, InStore S (.vote v) → v.tx.election = e.id → UniqueVote S v.tx → ∀ c sel, HonestVote N fits ek.tx.encryptionKey v.tx c sel →
      ∃ d : Signed DecryptionTx, InStore S (.decryption d) ∧ d.tx.electionId = e.id ∧ d.tx.upstreamId = v.tx.id ∧ d.tx.contestIndex = c ∧
        (d.tx.trustees.Nodup ∨ QuorumNeeded N → d.tx.decryptedVote = sel) := by
  obtain ⟨n₀, hq⟩ := Chain.quiet_at_last hD e
  refine ⟨n₀, fun n hn S hS he ek hek vs hend hvs v hv hve hu c sel hh => ?_⟩
  refine C70_blocks_votes_are_decrypted N fits hF K e sk hN hp hcon _ ?_ (hrust n) S hS he (hq n hn) ek hek vs hend hvs Q hQ hQm hlen v hv hve hu c sel hh
  intro ev h
  obtain ⟨i, -, rfl⟩ := List.mem_map.1 h
  exact hev i

/-- **C71**, for elections with mixnet and a threshold of 1 (partial as C68 is: with more, nodes decrypt nothing).  In every endless schedule in which the blockchain and the nodes do
their duty: from some time on, if voting has ended, the stored decryptions of a contest in which all voters made honest votes are what the voters selected, each once, in some
order. -/
theorem C71_votes_are_mixed_and_decrypted_partial (N : NodeEnv) (fits : Bytes → Prop) (Enc : ElGamalKey → Ciphertext → Bytes → Prop) (hM : MixCorrect N fits Enc)
    (K : List SecretKey) (e : ElectionTx) (sk : UInt8 → SecretKey) (hN : Nodes N K e sk) (hp : e.mixConfig ≠ none) (hth : e.trusteesThreshold = 1)
    (h1 : ∃ tr ∈ e.trustees, tr.index = 1) (hk : sk 1 ∈ K)
    (evs : Nat → BlockEvent) (hD : Dutiful N K evs) (hev : ∀ n, OnBlocks (FairMix N K e) (evs n)) (hrust : ∀ n, RustRun N ((List.range n).map evs)) :
    ∃ n₀, ∀ n, n₀ ≤ n → ∀ S : Store, S = Exonum.toStore ((after N evs n).schema N.toEnv) → ElectionAt S e.id e →
      ∀ ek : Signed EncryptionKeyTx, S.getTransaction (singleId e.id .encryptionKey) = some (.encryptionKey ek) →
      ∀ vs : Signed VotingEndTx, InStore S (.votingEnd vs) → vs.tx.election = e.id →
      ∀ votes : List (Signed VoteTx), AllVotes S e.id votes → votes.length ≤ 65535 →
      ∀ c sels, List.Forall₂ (fun v sel => HonestVote N fits ek.tx.encryptionKey v.tx c sel) votes sels →
      ∃ ds, AllDecryptions S e c ds ∧ (ds.map (·.tx.decryptedVote)).Perm sels := by
  obtain ⟨n₀, hq⟩ := Chain.quiet_at_last hD e
  refine ⟨n₀, fun n hn S hS he ek hek vs hend hvs votes hall hlen c sels hh => ?_⟩
  refine C70_blocks_mix_and_decrypt_partial N fits Enc hM K e sk hN hp hth _ ?_ (hrust n) S hS he (hq n hn) ek hek vs hend hvs h1 hk votes hall hlen c sels hh
  intro ev h
  obtain ⟨i, -, rfl⟩ := List.mem_map.1 h
  exact hev i

/-- **C71** (elections are counted) Take an election made by `cryptoballot election generate`, of which the authority runs the one trustee's node.  In every endless schedule in which
the blockchain and the nodes do their duty: from some time on, if voting has ended and all votes were made by `cryptoballot vote generate` with keys that differ, `cryptoballot e2e`
reports success, and prints the tally of the texts the voters gave. -/
theorem C71_client_elections_are_counted (N : NodeEnv) (fits : Bytes → Prop) (Enc : ElGamalKey → Ciphertext → Bytes → Prop) (hM : MixCorrect N fits Enc)
    (K : List SecretKey) (authority : SecretKey) (hK : authority ∈ K) (el : BArr 15) (e : ElectionTx) (hee : e = forgetElection (Client.election N authority el))
    (hN : Nodes N K e fun _ => authority)
    (evs : Nat → BlockEvent) (hD : Dutiful N K evs) (hev : ∀ n, OnBlocks (FairE2e N K e) (evs n)) (hrust : ∀ n, RustRun N ((List.range n).map evs)) :
    ∃ n₀, ∀ n, n₀ ≤ n → ∀ S : Store, S = Exonum.toStore ((after N evs n).schema N.toEnv) → ElectionAt S e.id e →
      ∀ ek : Signed EncryptionKeyTx, S.getTransaction (singleId e.id .encryptionKey) = some (.encryptionKey ek) →
      ∀ vs : Signed VotingEndTx, InStore S (.votingEnd vs) → vs.tx.election = e.id →
      ∀ votes : List (Signed VoteTx), AllVotes S e.id votes → votes.length ≤ 65535 →
      ∀ texts : List Str, List.Forall₂ (fun v text => ClientVote N fits ek.tx v.tx text) votes texts → DistinctVoters S e → ∀ p : Str, OnlyElection S e p →
      ∃ txs m totals, Api.getAll ((after N evs n).schema N.toEnv) (some p) = .ok txs ∧ E2e.verify N.toEnv txs = .ok m ∧ E2e.tally m e.id = .ok totals ∧
        (totals.map Prod.fst).Nodup ∧ ∀ c n, (c, n) ∈ totals ↔ 0 < n ∧ n = texts.count c := by
  obtain ⟨n₀, hq⟩ := Chain.quiet_at_last hD e
  refine ⟨n₀, fun n hn S hS he ek hek vs hend hvs votes hall hlen texts hv hdist p hO => ?_⟩
  refine C70_blocks_count_client_elections N fits Enc hM K authority hK el e hee hN _ ?_ (hrust n) S hS he (hq n hn) ek hek vs hend hvs votes hall hlen texts hv hdist p hO
  intro ev h
  obtain ⟨i, -, rfl⟩ := List.mem_map.1 h
  exact hev i

/-! ## An endless schedule -/

namespace Toy
open Chain

/-- the schedule `pre`, and then for ever an empty block and a run of the node's hook, from height `L` on -/
def forever (pre : List BlockEvent) (L : Nat) (n : Nat) : BlockEvent :=
  if h : n < pre.length then pre[n] else if (n - pre.length) % 2 = 0 then .commit [] else .afterCommit (key 1) (fun _ => rng) (L + (n - pre.length) / 2)

/-- Everything is processed: at the start, and whatever empty blocks follow. -/
structure Calm (c : Chain) (L : Nat) : Prop where
  length : c.blocks.length = L
  pool : c.pool = []
  last : c.blocks.getD (L - 1) [] = []
  pos : 0 < L
  processed : ∀ h, h + 1 < L → (key 1, h + 1) ∈ c.processed

theorem Calm.next {N : NodeEnv} {c : Chain} {L : Nat} (h : Calm c L) : Calm (step N (step N c (.commit [])) (.afterCommit (key 1) (fun _ => rng) L)) (L + 1) ∧
    (step N c (.commit [])).pool = [] ∧ (step N c (.commit [])).blocks.getD (L - 1) [] = [] ∧ (key 1, L) ∈ (step N (step N c (.commit [])) (.afterCommit (key 1) (fun _ => rng) L)).processed := by
  obtain ⟨blocks, pool, lost, processed⟩ := c
  obtain ⟨h1, h2, h3, h4, h5⟩ := h
  dsimp only at h1 h2 h3 h5
  subst h2
  obtain ⟨l, rfl⟩ : ∃ l, L = l + 1 := ⟨L - 1, by omega⟩
  have hget : (blocks ++ [[]]).getD l [] = [] := by
    rw [List.getD_eq_getElem?_getD, List.getElem?_append_left (by omega), ← List.getD_eq_getElem?_getD]
    exact h3
  have hs : step N ⟨blocks, [], lost, processed⟩ (.commit []) = ⟨blocks ++ [[]], [], lost, processed⟩ := rfl
  have hs2 : step N ⟨blocks ++ [[]], [], lost, processed⟩ (.afterCommit (key 1) (fun _ => rng) (l + 1)) = ⟨blocks ++ [[]], [], lost, (key 1, l + 1) :: processed⟩ := by
    have : l + 1 < (blocks ++ [[]]).length := by simp; omega
    simp only [step, if_pos this, hget, processBlock, List.append_nil, if_true]
  rw [hs, hs2]
  refine ⟨⟨by simp [h1], rfl, ?_, by omega, fun h hh => ?_⟩, rfl, hget, List.mem_cons_self⟩
  · dsimp only
    rw [Nat.add_sub_cancel, List.getD_eq_getElem?_getD, List.getElem?_append_right (by omega), h1]
    simp
  · dsimp only
    by_cases heq : h = l
    · subst heq; exact List.mem_cons_self
    · exact List.mem_cons_of_mem _ (h5 h (by omega))

theorem forever_start (pre : List BlockEvent) (L : Nat) : (List.range pre.length).map (forever pre L) = pre := by
  refine List.ext_getElem (by simp) fun i h1 h2 => ?_
  simp [forever, h2]

theorem forever_commit (pre : List BlockEvent) (L j : Nat) : forever pre L (pre.length + 2 * j) = .commit [] := by
  have : (pre.length + 2 * j - pre.length) = 2 * j := by omega
  simp [forever]

theorem forever_hook (pre : List BlockEvent) (L j : Nat) : forever pre L (pre.length + 2 * j + 1) = .afterCommit (key 1) (fun _ => rng) (L + j) := by
  have h1 : ¬ pre.length + 2 * j + 1 < pre.length := by omega
  have h2 : pre.length + 2 * j + 1 - pre.length = 2 * j + 1 := by omega
  have h3 : (2 * j + 1) % 2 ≠ 0 := by omega
  have h4 : (2 * j + 1) / 2 = j := by omega
  simp [forever, h1, h2, h4]

theorem forever_calm {pre : List BlockEvent} {L : Nat} (h : Calm (run node pre) L) (j : Nat) : Calm (after node (forever pre L) (pre.length + 2 * j)) (L + j) := by
  induction j with
  | zero =>
    show Calm (run node ((List.range pre.length).map (forever pre L))) L
    rw [forever_start]
    exact h
  | succ j ih =>
    have := (ih.next (N := node)).1
    rw [← forever_commit pre L j, ← after_succ, ← forever_hook pre L j, ← after_succ] at this
    exact this

theorem forever_cases (pre : List BlockEvent) (n : Nat) : n < pre.length ∨ (∃ j, n = pre.length + 2 * j) ∨ ∃ j, n = pre.length + 2 * j + 1 := by
  rcases Nat.lt_or_ge n pre.length with h | h
  · exact .inl h
  · rcases Nat.mod_two_eq_zero_or_one (n - pre.length) with h' | h'
    · exact .inr (.inl ⟨(n - pre.length) / 2, by omega⟩)
    · exact .inr (.inr ⟨(n - pre.length) / 2, by omega⟩)

theorem forever_all {P : BlockEvent → Prop} {pre : List BlockEvent} (L : Nat) (h : ∀ ev ∈ pre, P ev) (hc : P (.commit [])) (hk : ∀ h, P (.afterCommit (key 1) (fun _ => rng) h)) (n : Nat) :
    P (forever pre L n) := by
  rcases forever_cases pre n with hn | ⟨j, rfl⟩ | ⟨j, rfl⟩
  · rw [forever, dif_pos hn]
    exact h _ (List.getElem_mem hn)
  · rw [forever_commit]; exact hc
  · rw [forever_hook]; exact hk _

theorem forever_dutiful {pre : List BlockEvent} {L : Nat} (h : Calm (run node pre) L) (hp : ∀ ev ∈ pre, (∀ i, ev ≠ .lose i) ∧ ∀ k rng h, ev = .afterCommit k rng h → k = key 1) :
    Dutiful node [key 1] (forever pre L) where
  silent := ⟨pre.length, fun n hn x => by
    rcases forever_cases pre n with h | ⟨j, rfl⟩ | ⟨j, rfl⟩
    · omega
    · rw [forever_commit]; exact fun h => by cases h
    · rw [forever_hook]; exact fun h => by cases h⟩
  lossless := forever_all (P := fun ev => ∀ i, ev ≠ .lose i) L (fun ev hev => (hp ev hev).1) (fun _ h => by cases h) (fun _ _ h => by cases h)
  taken := fun n x _ => ⟨pre.length + 2 * n, by omega, by rw [(forever_calm h n).pool]; exact List.not_mem_nil⟩
  members := forever_all (P := fun ev => ∀ k rng h, ev = .afterCommit k rng h → k ∈ [key 1]) L (fun ev hev k rng h he => by rw [(hp ev hev).2 k rng h he]; exact List.mem_singleton_self _) (fun _ _ _ h => by cases h)
    (fun _ k rng h he => by cases he; exact List.mem_singleton_self _)
  completed := fun k hk j => by
    rw [List.mem_singleton] at hk
    subst hk
    have := forever_calm h (j + 2)
    exact ⟨_, this.processed j (by omega)⟩
  finitely := fun k _ j => ⟨pre.length + 2 * (j + 1), fun n hn rng he => by
    rcases forever_cases pre n with h | ⟨i, rfl⟩ | ⟨i, rfl⟩
    · omega
    · rw [forever_commit] at he; cases he
    · rw [forever_hook] at he
      cases he
      have := h.pos
      omega⟩

theorem rust_snoc {N : NodeEnv} {l : List BlockEvent} {ev : BlockEvent} (h : RustRun N l)
    (hev : ∀ k rng j, ev = .afterCommit k rng (j + 1) → (run N l).blocks.getD j [] = []) : RustRun N (l ++ [ev]) := by
  intro pre k rng j hp x hx
  rcases List.prefix_concat_iff.1 hp with heq | hp
  · obtain ⟨rfl, heq'⟩ := List.append_inj' heq rfl
    injection heq' with heq'
    rw [hev k rng j heq'.symm] at hx
    cases hx
  · exact h pre k rng j hp x hx

theorem rust_prefix {N : NodeEnv} {l l' : List BlockEvent} (h : RustRun N l) (hp : l' <+: l) : RustRun N l' :=
  fun pre k rng j hp' => h pre k rng j (hp'.trans hp)

theorem forever_rust {pre : List BlockEvent} {L : Nat} (h : Calm (run node pre) L) (hr : RustRun node pre) (n : Nat) : RustRun node ((List.range n).map (forever pre L)) := by
  induction n with
  | zero => exact rust_prefix hr List.nil_prefix
  | succ n ih =>
    rcases forever_cases pre n with hn | ⟨i, rfl⟩ | ⟨i, rfl⟩
    · refine rust_prefix hr ?_
      have : List.range (n + 1) <+: List.range pre.length := by
        obtain ⟨d, hd⟩ : ∃ d, pre.length = (n + 1) + d := ⟨pre.length - (n + 1), by omega⟩
        rw [hd, List.range_add (n := n + 1)]
        exact List.prefix_append _ _
      have := this.map (forever pre L)
      rwa [forever_start] at this
    · rw [List.range_succ, List.map_append, List.map_singleton]
      refine rust_snoc ih fun k rng j he => ?_
      rw [forever_commit] at he
      cases he
    · rw [List.range_succ, List.map_append, List.map_singleton]
      refine rust_snoc ih fun k rng j he => ?_
      rw [forever_hook] at he
      have hc := (forever_calm h i).next (N := node)
      have hpos := h.pos
      have : (run node ((List.range (pre.length + 2 * i + 1)).map (forever pre L))) = step node (after node (forever pre L) (pre.length + 2 * i)) (.commit []) := by
        rw [← forever_commit pre L i, ← after_succ]; rfl
      rw [this]
      have hj : L + i = j + 1 := by injection he
      have := hc.2.2.1
      rw [hj] at this
      exact this

/-- the poll of C70, and the node catches up with the empty blocks -/
def caughtUp : List BlockEvent := chainPoll ++ (List.range 9).map fun i => .afterCommit (key 1) (fun _ => rng) (2 * i + 1)

/-- what is needed to know about that -/
def calmCheck (c : Chain) (L : Nat) : Bool :=
  decide (c.blocks.length = L) && c.pool.isEmpty && (c.blocks.getD (L - 1) []).isEmpty && decide (0 < L) && (List.range (L - 1)).all fun h => decide ((key 1, h + 1) ∈ c.processed)

theorem calm_of_check {c : Chain} {L : Nat} (h : calmCheck c L = true) : Calm c L := by
  simp only [calmCheck, Bool.and_eq_true] at h
  obtain ⟨⟨⟨⟨h1, h2⟩, h3⟩, h4⟩, h5⟩ := h
  exact ⟨of_decide_eq_true h1, List.isEmpty_iff.1 h2, List.isEmpty_iff.1 h3, of_decide_eq_true h4,
    fun j hj => of_decide_eq_true (List.all_eq_true.1 h5 j (List.mem_range.2 (by omega)))⟩

theorem caughtUp_calm : Calm (run node caughtUp) 19 := calm_of_check (by decide +kernel)

theorem caughtUp_check : chainCheck (run node caughtUp) = true := by decide +kernel

theorem caughtUp_rust : RustRun node caughtUp := by
  refine rust_of_check (r := rng) (fun ev hev k r h heq => ?_) (by decide +kernel)
  subst heq
  simp only [caughtUp, chainPoll, tick, List.mem_append, List.mem_map, List.mem_cons, List.not_mem_nil, or_false, reduceCtorEq, false_or, BlockEvent.afterCommit.injEq] at hev
  aesop

theorem caughtUp_fair : ∀ ev ∈ caughtUp, OnBlocks (FairE2e node [key 1] storedElection) ev := by
  intro ev hev
  rcases List.mem_append.1 hev with h | h
  · exact chainPoll_fair ev h
  · obtain ⟨i, -, rfl⟩ := List.mem_map.1 h
    exact fun _ _ _ => ⟨List.mem_singleton_self _, fun _ h => by cases h⟩

theorem caughtUp_events : ∀ ev ∈ caughtUp, (∀ i, ev ≠ .lose i) ∧ ∀ k rng h, ev = .afterCommit k rng h → k = key 1 := by
  intro ev hev
  simp only [caughtUp, chainPoll, tick, List.mem_append, List.mem_map, List.mem_cons, List.not_mem_nil, or_false] at hev
  aesop

end Toy

/-- The poll of C70, followed by empty blocks for ever, meets the hypotheses of C71: the schedule is dutiful, and at some time (in fact, from then on) two votes are stored, voting
has ended, … -/
example : Dutiful Toy.node [Toy.key 1] (Toy.forever Toy.caughtUp 19) ∧ (∀ n, OnBlocks (FairE2e Toy.node [Toy.key 1] Toy.storedElection) (Toy.forever Toy.caughtUp 19 n)) ∧
    (∀ n, RustRun Toy.node ((List.range n).map (Toy.forever Toy.caughtUp 19))) ∧
    Nodes Toy.node [Toy.key 1] Toy.storedElection (fun _ => Toy.key 1) ∧ AllRun Toy.node [Toy.key 1] Toy.storedElection (fun _ => Toy.key 1) ∧
    ∃ n, ∃ S : Store, S = Exonum.toStore ((after Toy.node (Toy.forever Toy.caughtUp 19) n).schema Toy.node.toEnv) ∧ ElectionAt S Toy.storedElection.id Toy.storedElection ∧
      S.getTransaction (singleId Toy.storedElection.id .encryptionKey) = some (.encryptionKey Toy.encOf) ∧
      AllVotes S Toy.storedElection.id [Toy.clientVote 31 "a", Toy.clientVote 32 "b"] ∧ InStore S (.votingEnd Toy.endOf) ∧ DistinctVoters S Toy.storedElection := by
  refine ⟨Toy.forever_dutiful Toy.caughtUp_calm Toy.caughtUp_events,
    Toy.forever_all _ Toy.caughtUp_fair trivial (fun _ _ _ _ => ⟨List.mem_singleton_self _, fun _ h => by cases h⟩),
    Toy.forever_rust Toy.caughtUp_calm Toy.caughtUp_rust, Toy.storedNodes, Toy.storedNodes_run, Toy.caughtUp.length, ?_⟩
  unfold after
  rw [Toy.forever_start]
  exact (Toy.chainCheck_spec Toy.caughtUp_check).2

end CB
