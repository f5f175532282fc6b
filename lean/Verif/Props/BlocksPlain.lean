import Verif.Props.Blocks
/-!
# C70: an election without mixnet that meets the hypotheses
-/

namespace CB
open Spec Server

namespace Toy
open Chain

/-- the election as it is stored -/
def plainStored : ElectionTx := forgetElection plainElection

theorem plainStoredNodes : Nodes node nodeKeys3 plainStored trusteeKey where
  trustees := ⟨by decide +kernel, by decide +kernel, by decide +kernel, by decide +kernel⟩
  keys := by decide +kernel
  held := by decide +kernel
  only := by decide +kernel
  sign := node_sign
  aes := aes_correct
  dh := dh_agrees

/-- a block with the first nine submissions, an empty block, and all nodes catch up -/
def tick3 (h : Nat) : List BlockEvent := [.commit (List.replicate 9 0), .commit []] ++ nodeKeys3.map fun k => .afterCommit k (fun _ => rng) h

/-- an election of one vote, on the blockchain -/
def plainPoll : List BlockEvent :=
  [.submit (.ofTx plainTx)] ++ tick3 2 ++ tick3 4 ++ tick3 6 ++ tick3 8 ++ tick3 10 ++
    [.submit (.ofTx (.vote (voteOf 31 "a"))), .submit (.ofTx endTx)] ++ tick3 12 ++ tick3 14 ++ tick3 16

theorem tick3_fair (h : Nat) : ∀ ev ∈ tick3 h, OnBlocks (Fair node nodeKeys3 plainStored) ev := by
  intro ev hev
  simp only [tick3, List.mem_append, List.mem_map, List.mem_cons, List.not_mem_nil, or_false] at hev
  rcases hev with (rfl | rfl) | ⟨k, hk, rfl⟩
  · trivial
  · trivial
  · exact fun _ _ _ => hk

theorem plainTx_fits : fitsCheck 127 plainTx.toCbor = true := by decide +kernel

theorem plainPoll_fair : ∀ ev ∈ plainPoll, OnBlocks (Fair node nodeKeys3 plainStored) ev := by
  intro ev hev
  simp only [plainPoll, List.mem_append, List.mem_cons, List.not_mem_nil, or_false] at hev
  rcases hev with ((((((((rfl | h) | h) | h) | h) | h) | rfl | rfl) | h) | h) | h
  · exact onBlocks_submit plainTx_fits fun _ => ⟨by simp [SetupKind, kindOf, plainTx, forget], by simp [kindOf, plainTx, forget]⟩
  iterate 5 exact tick3_fair _ ev h
  · exact onBlocks_submit (by decide +kernel) fun _ => ⟨by simp [SetupKind, kindOf, forget], by simp [kindOf, forget]⟩
  · exact onBlocks_submit (by decide +kernel) fun _ => ⟨by simp [SetupKind, kindOf, endTx, forget], by simp [kindOf, endTx, forget]⟩
  iterate 3 exact tick3_fair _ ev h

/-- everything the example needs to know about the final state -/
def plainCheck (c : Chain) : Bool :=
  (c.blocks.flatten.all fun x => match SignedTx.fromBytes x.data with | .ok t => decide (x.id = t.id.toString) | _ => true) &&
  decide (((c.schema node.toEnv).get plainTx.id.toString).map (·.data) = some plainTx.asBytes) &&
  (c.pool.isEmpty && c.lost.isEmpty && (List.range c.blocks.length).all fun h => (c.blocks.getD h []).isEmpty || nodeKeys3.all fun k => decide ((k, h + 1) ∈ c.processed)) &&
  (match (ledgerOf node c).store.getTransaction (singleId plainStored.id .encryptionKey) with | some (.encryptionKey x) => decide (x = encOf) | _ => false) &&
  (match ((ledgerOf node c).ledger[9]? : Option SignedTx) with | some (.votingEnd w) => decide (w = endOf) | _ => false) &&
  (match ((ledgerOf node c).ledger[8]? : Option SignedTx) with | some (.vote w) => decide (w = voteOf 31 "a") | _ => false) &&
  ((ledgerOf node c).ledger.all fun t => match t with | .vote w => decide (w.tx.id.uniqueInfo.val.take 10 = (voteOf 31 "a").tx.id.uniqueInfo.val.take 10 → w.tx.id = (voteOf 31 "a").tx.id) | _ => true) &&
  decide ((ledgerOf node c).ledger.map kindOf = [.election, .keyGenCommitment, .keyGenCommitment, .keyGenShare, .keyGenShare, .keyGenPublicKey, .keyGenPublicKey, .encryptionKey, .vote, .votingEnd,
    .partialDecryption, .partialDecryption, .decryption])

theorem plainPoll_check : plainCheck (run node plainPoll) = true := by decide +kernel

theorem plainPoll_rust : RustRun node plainPoll := by
  refine rust_of_check (r := rng) (fun ev hev k r h heq => ?_) (by decide +kernel)
  subst heq
  simp only [plainPoll, tick3, List.mem_append, List.mem_map, List.mem_cons, List.not_mem_nil, or_false, reduceCtorEq, false_or, BlockEvent.afterCommit.injEq] at hev
  aesop

/-- what the check says -/
theorem plainCheck_spec {c : Chain} (h : plainCheck c = true) : Quiet node nodeKeys3 plainStored c ∧
    ∃ S : Store, S = Exonum.toStore (c.schema node.toEnv) ∧ ElectionAt S plainStored.id plainStored ∧
    S.getTransaction (singleId plainStored.id .encryptionKey) = some (.encryptionKey encOf) ∧
    InStore S (.vote (voteOf 31 "a")) ∧ UniqueVote S (voteOf 31 "a").tx ∧ InStore S (.votingEnd endOf) := by
  simp only [plainCheck, Bool.and_eq_true] at h
  obtain ⟨⟨⟨⟨⟨⟨⟨h1, h2⟩, ⟨h3, h4⟩, h5⟩, h6⟩, h7⟩, h8⟩, h9⟩, -⟩ := h
  obtain ⟨hn, r, hr⟩ := ledgerOf_spec (N := node) (labelled_of_check h1)
  have he : ElectionAt (Exonum.toStore (c.schema node.toEnv)) plainStored.id plainStored :=
    ⟨sig 1, (stored_of_check plainTx_fits h2 : Exonum.getTransaction _ plainTx.id = some (forget plainTx))⟩
  refine ⟨quiet_of_check h3 h4 h5, _, rfl, he, ?_⟩
  rw [hr]
  exact ⟨key_of_check h6, vote_of_check hn h8, unique_of_check hn h9, (end_of_check hn h7).1⟩

end Toy

/-- One vote is cast by a voter and decrypted by two trustees; the schedule meets the hypotheses of `C70_blocks_set_up`, `C70_blocks_decryptions_are_right` and
`C70_blocks_votes_are_decrypted`. -/
example : (∀ ev ∈ Toy.plainPoll, OnBlocks (Fair Toy.node Toy.nodeKeys3 Toy.plainStored) ev) ∧ RustRun Toy.node Toy.plainPoll ∧
    Nodes Toy.node Toy.nodeKeys3 Toy.plainStored Toy.trusteeKey ∧ ThresholdCorrect Toy.node (fun _ => True) ∧ QuorumNeeded Toy.node ∧
    Toy.plainStored.mixConfig = none ∧ Toy.plainStored.contests ≠ [] ∧ HonestVote Toy.node (fun _ => True) Toy.encOf.tx.encryptionKey (Toy.voteOf 31 "a").tx 0 [Toy.sel "a"] ∧
    (∀ i ∈ [1, 2], Toy.trusteeKey i ∈ Toy.nodeKeys3 ∧ ∃ tr ∈ Toy.plainStored.trustees, tr.index = i) ∧ Toy.plainStored.trusteesThreshold.toNat ≤ [1, 2].length ∧
    Quiet Toy.node Toy.nodeKeys3 Toy.plainStored (Chain.run Toy.node Toy.plainPoll) ∧
    ∃ S : Store, S = Exonum.toStore ((Chain.run Toy.node Toy.plainPoll).schema Toy.node.toEnv) ∧ ElectionAt S Toy.plainStored.id Toy.plainStored ∧
    S.getTransaction (singleId Toy.plainStored.id .encryptionKey) = some (.encryptionKey Toy.encOf) ∧
    InStore S (.vote (Toy.voteOf 31 "a")) ∧ UniqueVote S (Toy.voteOf 31 "a").tx ∧ InStore S (.votingEnd Toy.endOf) :=
  ⟨Toy.plainPoll_fair, Toy.plainPoll_rust, Toy.plainStoredNodes, Toy.node_threshold, Toy.node_quorum, rfl, by decide +kernel,
    ⟨by
      intro x hx
      rw [List.mem_singleton] at hx
      subst hx
      exact ⟨⟨by decide +kernel, by decide +kernel⟩, trivial⟩, Toy.rng, by decide +kernel⟩,
    by decide +kernel, by decide +kernel, Toy.plainCheck_spec Toy.plainPoll_check⟩

end CB
