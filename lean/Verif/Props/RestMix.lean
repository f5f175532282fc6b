import Verif.Props.Rest
/-!
# C71: what the nodes do not manage in elections with mixnet

Apart from `Props/Rest.lean`: the full claim is false for elections with mixnet, also with a threshold of 1.
-/

namespace CB
open Spec Server Chain

namespace Toy

/-- a vote by somebody who abstains -/
def abstention (k : UInt8) : Signed VoteTx := ⟨{ (clientVote k "b").tx with encryptedVotes := [] }, sig k⟩

/-- an election of one vote and one abstention, on the blockchain; the node catches up with the empty blocks -/
def stuckPoll : List BlockEvent :=
  [.submit (.ofTx clientTx)] ++ tick 2 ++ tick 4 ++ tick 6 ++ tick 8 ++ tick 10 ++
    [.submit (.ofTx (.vote (clientVote 31 "a"))), .submit (.ofTx (.vote (abstention 32))), .submit (.ofTx endTx)] ++ tick 12 ++ tick 14 ++
    (List.range 7).map fun i => .afterCommit (key 1) (fun _ => rng) (2 * i + 1)

theorem stuckPoll_fair : ∀ ev ∈ stuckPoll, OnBlocks (FairE2e node [key 1] storedElection) ev := by
  intro ev hev
  simp only [stuckPoll, List.mem_append, List.mem_cons, List.not_mem_nil, or_false, List.mem_map] at hev
  have hv : ∀ v : Signed VoteTx, FairE2e node [key 1] storedElection (.submit (.vote v)) := fun v =>
    ⟨⟨fun _ => ⟨by simp [SetupKind, kindOf], by simp [kindOf]⟩, fun _ h => (by cases h), fun _ h => (by cases h)⟩, fun _ h => (by cases h)⟩
  rcases hev with ((((((((rfl | h) | h) | h) | h) | h) | rfl | rfl | rfl) | h) | h) | ⟨i, -, rfl⟩
  · exact onBlocks_submit (by decide +kernel)
      ⟨⟨fun _ => ⟨by simp [SetupKind, kindOf, clientTx, forget], by simp [kindOf, clientTx, forget]⟩, fun _ h => (by cases h), fun _ h => (by cases h)⟩, fun _ h => (by cases h)⟩
  iterate 5 exact tick_fair _ ev h
  · exact onBlocks_submit (by decide +kernel) (hv _)
  · exact onBlocks_submit (by decide +kernel) (hv _)
  · refine onBlocks_submit (by decide +kernel)
      ⟨⟨fun _ => ⟨by simp [SetupKind, kindOf, endTx, forget], by simp [kindOf, endTx, forget]⟩, fun y h _ _ _ => ?_, fun _ h => (by cases h)⟩, fun y h _ => ?_⟩
    · cases h
      rfl
    · cases h
      rfl
  · exact tick_fair _ ev h
  · exact tick_fair _ ev h
  · exact fun _ _ _ => ⟨List.mem_singleton_self _, fun _ h => by cases h⟩

theorem stuckPoll_rust : RustRun node stuckPoll := by
  refine rust_of_check (r := rng) (fun ev hev k r h heq => ?_) (by decide +kernel)
  subst heq
  simp only [stuckPoll, tick, List.mem_append, List.mem_map, List.mem_cons, List.not_mem_nil, or_false, reduceCtorEq, false_or, BlockEvent.afterCommit.injEq] at hev
  aesop

theorem stuckPoll_events : ∀ ev ∈ stuckPoll, (∀ i, ev ≠ .lose i) ∧ ∀ k rng h, ev = .afterCommit k rng h → k = key 1 := by
  intro ev hev
  simp only [stuckPoll, tick, List.mem_append, List.mem_map, List.mem_cons, List.not_mem_nil, or_false] at hev
  aesop

theorem stuckPoll_calm : Calm (run node stuckPoll) 15 := calm_of_check (by decide +kernel)

/-- what the theorem needs to know about the final state -/
def stuckCheck (c : Chain) : Bool :=
  (c.blocks.flatten.all fun x => match SignedTx.fromBytes x.data with | .ok t => decide (x.id = t.id.toString) | _ => true) &&
  decide (((c.schema node.toEnv).get clientTx.id.toString).map (·.data) = some clientTx.asBytes) &&
  (match (ledgerOf node c).store.getTransaction (singleId storedElection.id .encryptionKey) with | some (.encryptionKey x) => decide (x = encOf) | _ => false) &&
  (match ((ledgerOf node c).ledger[7]? : Option SignedTx) with | some (.votingEnd w) => decide (w = endOf) | _ => false) &&
  (match ((ledgerOf node c).ledger[5]? : Option SignedTx) with | some (.vote w) => decide (w = clientVote 31 "a") | _ => false) &&
  (ledgerOf node c).ledger.all fun t => decide (kindOf t ≠ .decryption)

theorem stuckPoll_check : stuckCheck (run node stuckPoll) = true := by decide +kernel

theorem stuckCheck_spec {c : Chain} (h : stuckCheck c = true) {S : Store} (hS : S = Exonum.toStore (c.schema node.toEnv)) : ElectionAt S storedElection.id storedElection ∧
    S.getTransaction (singleId storedElection.id .encryptionKey) = some (.encryptionKey encOf) ∧ InStore S (.votingEnd endOf) ∧ InStore S (.vote (clientVote 31 "a")) ∧
    ∀ d, ¬ InStore S (.decryption d) := by
  subst hS
  simp only [stuckCheck, Bool.and_eq_true] at h
  obtain ⟨⟨⟨⟨⟨h1, h2⟩, h3⟩, h4⟩, h5⟩, h6⟩ := h
  obtain ⟨hn, r, hr⟩ := ledgerOf_spec (N := node) (labelled_of_check h1)
  refine ⟨election_of_check h2, ?_⟩
  rw [hr]
  refine ⟨key_of_check h3, (end_of_check hn h4).1, vote_of_check hn h5, fun d hd => ?_⟩
  have := of_decide_eq_true (List.all_eq_true.1 h6 _ ((Network.stored_iff_mem hn _).1 hd))
  exact this rfl

theorem forever_blocks (pre : List BlockEvent) (L j : Nat) :
    (after node (forever pre L) (pre.length + 2 * j)).schema node.toEnv = (run node pre).schema node.toEnv := by
  suffices hb : (after node (forever pre L) (pre.length + 2 * j)).blocks.flatten = (run node pre).blocks.flatten by
    unfold Chain.schema
    rw [hb]
  induction j with
  | zero =>
    show (run node ((List.range pre.length).map (forever pre L))).blocks.flatten = _
    rw [forever_start]
  | succ j ih =>
    have h1 : after node (forever pre L) (pre.length + 2 * (j + 1)) =
        step node (step node (after node (forever pre L) (pre.length + 2 * j)) (.commit [])) (.afterCommit (key 1) (fun _ => rng) (L + j)) := by
      rw [← forever_commit pre L j, ← after_succ, ← forever_hook pre L j, ← after_succ]
      rfl
    rw [h1, ← ih]
    obtain ⟨blocks, pool, lost, processed⟩ := after node (forever pre L) (pre.length + 2 * j)
    have hb : ∀ (c : Chain) k r h, (step node c (.afterCommit k r h)).blocks = c.blocks := by
      intro c k r h
      cases h with
      | zero => rfl
      | succ h =>
        simp only [step]
        split <;> rfl
    rw [hb]
    simp [step, pick]

theorem client_honest_a : HonestVote node (fun _ => True) encOf.tx.encryptionKey (clientVote 31 "a").tx 0 [⟨true, 0, str "a"⟩] :=
  ⟨by
    intro x hx
    rw [List.mem_singleton] at hx
    subst hx
    exact ⟨⟨by decide +kernel, by decide +kernel⟩, trivial⟩, rng, by decide +kernel⟩

end Toy

/-- **C71** is false for elections with mixnet, even if one trustee is enough and all nodes do their duty for ever: one voter votes and another abstains; the vote is never
decrypted. -/
theorem C71_votes_are_mixed_and_decrypted_false :
    ¬ ∀ (N : NodeEnv) (fits : Bytes → Prop) (Enc : ElGamalKey → Ciphertext → Bytes → Prop), MixCorrect N fits Enc → ShuffleWorks N →
      ∀ (K : List SecretKey) (e : ElectionTx) (sk : UInt8 → SecretKey), Nodes N K e sk → AllRun N K e sk → e.mixConfig ≠ none →
      ∀ evs : Nat → BlockEvent, Dutiful N K evs → (∀ n, OnBlocks (FairE2e N K e) (evs n)) → (∀ n, RustRun N ((List.range n).map evs)) →
      ∃ n₀, ∀ n, n₀ ≤ n → ∀ S : Store, S = Exonum.toStore ((after N evs n).schema N.toEnv) → ElectionAt S e.id e →
        ∀ ek : Signed EncryptionKeyTx, S.getTransaction (singleId e.id .encryptionKey) = some (.encryptionKey ek) →
        ∀ vs : Signed VotingEndTx, InStore S (.votingEnd vs) → vs.tx.election = e.id →
        ∀ v : Signed VoteTx, InStore S (.vote v) → v.tx.election = e.id → ∀ c sel, HonestVote N fits ek.tx.encryptionKey v.tx c sel →
          ∃ d : Signed DecryptionTx, InStore S (.decryption d) ∧ d.tx.electionId = e.id ∧ d.tx.contestIndex = c ∧ d.tx.decryptedVote = sel := by
  intro h
  obtain ⟨n₀, h⟩ := h Toy.node _ _ Toy.node_mix Toy.node_shuffles [Toy.key 1] Toy.storedElection (fun _ => Toy.key 1) Toy.storedNodes Toy.storedNodes_run (by decide +kernel)
    (Toy.forever Toy.stuckPoll 15) (Toy.forever_dutiful Toy.stuckPoll_calm Toy.stuckPoll_events)
    (Toy.forever_all _ Toy.stuckPoll_fair trivial (fun _ _ _ _ => ⟨List.mem_singleton_self _, fun _ h => by cases h⟩))
    (Toy.forever_rust Toy.stuckPoll_calm Toy.stuckPoll_rust)
  obtain ⟨h1, h2, h3, h4, h5⟩ := Toy.stuckCheck_spec Toy.stuckPoll_check (congrArg Exonum.toStore (Toy.forever_blocks Toy.stuckPoll 15 n₀))
  obtain ⟨d, hd, -⟩ := h (Toy.stuckPoll.length + 2 * n₀) (by omega) _ rfl h1 _ h2 _ h3 rfl _ h4 rfl _ _ Toy.client_honest_a
  exact h5 d hd

end CB
