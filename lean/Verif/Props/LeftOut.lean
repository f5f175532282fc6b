import Verif.Props.Verifiable
/-!
# C73: a contest that a voter has left out is never counted
-/

namespace CB
open Spec

/-- Shuffle proofs that verify are about as many outputs as inputs. -/
def Spec.ShuffleCounts (E : Env) : Prop :=
  ∀ seed n proof inputs outputs key, E.shuffleVerify seed n proof inputs outputs key = true → inputs.length = outputs.length

theorem mix_next {E : Env} {m : MemStore} (hm : Ledger E m) {t : Signed MixTx} (h : (SignedTx.mix t).validate E m.toStore = .ok ()) {pid : Identifier} (hp : t.tx.prevMixId = some pid) :
    ∃ p : Signed MixTx, m.getTransaction pid = some (.mix p) ∧ p.tx.electionId = t.tx.electionId ∧ p.tx.contestIndex = t.tx.contestIndex := by
  obtain ⟨_, e, _, _, _, _, _, _, inputs, hin, _⟩ := (MixTx.validateTx_ok hm.lawful).1 (SignedTx.validate_ok.1 h).2.2
  cases hin with
  | first hp' => rw [hp] at hp'; cases hp'
  | @next q p sig hq hg _ h1 h2 _ _ =>
    rw [hp] at hq
    cases hq
    exact ⟨⟨p, sig⟩, hg, h1.symm, h2.symm⟩

/-- **C73** If, when voting in an election with mixnet ends, a contest has been left out by a voter (or the numbers do not match for another reason) and it has not been mixed, then, whatever
anybody does, it is never mixed, and nothing of the election is ever decrypted for it: the votes of all others for the contest are lost. -/
theorem C73_left_out_contest_is_never_counted (E : Env) (hsh : ShuffleCounts E) (m : MemStore) (hm : Ledger E m) (e : ElectionTx) (he : ElectionAt m.toStore e.id e) (hmix : e.mixConfig ≠ none)
    (hend : SlotFilled m.toStore e.id .votingEnd) (votes : List (Signed VoteTx)) (hall : AllVotes m.toStore e.id votes) (c : UInt32) (hc : (contestVotes c votes).length ≠ votes.length)
    (hnone : ∀ t : Signed MixTx, InStore m.toStore (.mix t) → ¬ (t.tx.electionId = e.id ∧ t.tx.contestIndex = c)) (m' : MemStore) (hst : LedgerSteps E m m') :
    (∀ t : Signed MixTx, InStore m'.toStore (.mix t) → ¬ (t.tx.electionId = e.id ∧ t.tx.contestIndex = c)) ∧
    (∀ t : Signed MixTx, t.tx.electionId = e.id → t.tx.contestIndex = c → (SignedTx.mix t).validate E m'.toStore ≠ .ok ()) ∧
    ∀ d : Signed DecryptionTx, InStore m'.toStore (.decryption d) → d.tx.electionId = e.id → d.tx.upstreamId.electionId = e.id.electionId → d.tx.contestIndex = c →
      InStore m.toStore (.decryption d) := by
  -- no mix of the contest is accepted where none is stored
  have key : ∀ m1, LedgerSteps E m m1 → (∀ t : Signed MixTx, InStore m1.toStore (.mix t) → ¬ (t.tx.electionId = e.id ∧ t.tx.contestIndex = c)) →
      ∀ t : Signed MixTx, t.tx.electionId = e.id → t.tx.contestIndex = c → (SignedTx.mix t).validate E m1.toStore ≠ .ok () := by
    intro m1 h1 hno t ht htc hv
    have hm1 := h1.ledger hm
    cases hp : t.tx.prevMixId with
    | none =>
      obtain ⟨votes1, hall1, hlen⟩ := C22_one_vote_per_contest_partial E m1.toStore hm1.lawful t.tx t.sig hsh hv hp
      have hfz := (C17_no_votes_after_end E m e.id hend).2 m1 h1.replaySteps
      rw [ht] at hall1
      have : votes1 = votes := by
        refine allVotes_unique (S := m.toStore) ⟨fun u => ?_, hall1.2⟩ hall
        rw [← hall1.1 u]
        constructor
        · rintro ⟨a, b, c⟩; exact ⟨by unfold InStore; exact (hfz _ b c).trans a, b, c⟩
        · rintro ⟨a, b, c⟩; exact ⟨by unfold InStore; exact (hfz _ b c).symm.trans a, b, c⟩
      rw [htc, this] at hlen
      exact hc hlen
    | some pid =>
      obtain ⟨p, hg, h2, h3⟩ := mix_next hm1 hv hp
      refine hno p ?_ ⟨h2.trans ht, h3.trans htc⟩
      show m1.getTransaction p.tx.id = _
      rw [show p.tx.id = pid from MemStore.get_id hm1.replay.wf hg]
      exact hg
  suffices h : (∀ t : Signed MixTx, InStore m'.toStore (.mix t) → ¬ (t.tx.electionId = e.id ∧ t.tx.contestIndex = c)) ∧
      ∀ d : Signed DecryptionTx, InStore m'.toStore (.decryption d) → d.tx.electionId = e.id → d.tx.upstreamId.electionId = e.id.electionId → d.tx.contestIndex = c →
      InStore m.toStore (.decryption d) from ⟨h.1, key m' hst h.1, h.2⟩
  induction hst with
  | refl => exact ⟨hnone, fun d hd _ _ _ => hd⟩
  | @append m1 u h1 hf hv ih =>
    have hm1 := h1.ledger hm
    refine ⟨?_, ?_⟩
    · intro t ht
      unfold InStore at ht
      rw [show (m1.set u).toStore.getTransaction _ = _ from MemStore.get_set _ _ _] at ht
      split at ht
      · cases ht
        rintro ⟨h2, h3⟩
        exact key m1 h1 ih.1 t h2 h3 hv
      · exact ih.1 t ht
    · intro d hd h2 h3 h4
      unfold InStore at hd
      rw [show (m1.set u).toStore.getTransaction _ = _ from MemStore.get_set _ _ _] at hd
      split at hd
      · cases hd
        exfalso
        obtain ⟨-, e1, cts, ⟨sg, he1⟩, hi, -⟩ := C30_decryption_is_threshold_decryption_partial E m1 hm1.replay d.tx d.sig hv
        obtain ⟨sg0, he⟩ := he
        have := h1.extends _ _ he
        rw [h2] at he1
        rw [show m1.getTransaction e.id = _ from he1] at this
        cases this
        generalize e.mixConfig = cfg at hi hmix
        cases hi with
        | ofVote => exact hmix rfl
        | @ofMix mx msig _ _ hg _ h5 _ =>
          have hid : mx.id = d.tx.upstreamId := MemStore.get_id hm1.replay.wf hg
          obtain ⟨m2, hm2, hf2, hv2, hst2⟩ := hm1.accepted hg
          obtain ⟨hid2, e2, ⟨sg2, he2⟩, -⟩ := (MixTx.validateTx_ok hm2.lawful).1 (SignedTx.validate_ok.1 hv2).2.2
          have he2' := hst2.extends _ _ (Extends.set_fresh hf2 _ _ he2)
          refine ih.1 ⟨mx, msig⟩ (by show m1.getTransaction mx.id = _; rw [hid]; exact hg) ⟨?_, h5.trans h4⟩
          have w : ∀ {i x s}, m1.getTransaction i = some (.election ⟨x, s⟩) → i = ⟨i.electionId, .election, zero16⟩ := by
            intro i x s hg
            obtain ⟨m0, _, hv⟩ := hm1.replay.accepted hg
            have := (ElectionTx.validateTx_ok.1 (SignedTx.validate_ok.1 hv).2.2).1
            rw [show x.id = i from MemStore.get_id hm1.replay.wf hg] at this
            exact this
          show mx.electionId = e.id
          rw [w he2', w he1, ← h3, ← hid, hid2]
          rfl
      · exact ih.2 d hd h2 h3 h4

/-- The hypotheses can be met: two voters; the second votes in contest 1 only, so contest 0 is lost. -/
def leftOut : List SignedTx := Toy.setup ++ [Toy.voteTx 31 "a", .vote ⟨Toy.vote (Toy.key 32) [Toy.auth 21 (Toy.key 32)] [⟨1, [Toy.ct "b"]⟩], Toy.sig 32⟩, Toy.endTx]

theorem toy_shuffleCounts (b : Bool) : ShuffleCounts (Toy.env b) := fun _ _ _ _ _ _ h => (List.isPerm_iff.1 h).length_eq

example : ShuffleCounts Toy.env ∧ Ledger Toy.env (MemStore.ofList leftOut) ∧ ElectionAt (MemStore.ofList leftOut).toStore Toy.eid Toy.election ∧ (Toy.election).mixConfig ≠ none ∧
    SlotFilled (MemStore.ofList leftOut).toStore Toy.eid .votingEnd ∧ AllVotes (MemStore.ofList leftOut).toStore Toy.eid (Toy.votesIn leftOut) ∧
    (contestVotes 0 (Toy.votesIn leftOut)).length = 1 ∧ (Toy.votesIn leftOut).length = 2 ∧
    ∀ t : Signed MixTx, InStore (MemStore.ofList leftOut).toStore (.mix t) → ¬ (t.tx.electionId = Toy.eid ∧ t.tx.contestIndex = 0) := by
  obtain ⟨h1, -⟩ := Toy.verified_of_checks (txs := leftOut) (e := Toy.election) (sig := Toy.sig 1) (List.mem_cons_self ..) (by decide +kernel)
  refine ⟨toy_shuffleCounts _, h1.ledger, h1.election, by simp [Toy.election], ⟨Toy.endTx, by rfl⟩, Toy.allVotes_of h1 Toy.two_sorted, by decide +kernel, by decide +kernel, ?_⟩
  intro t ht
  have hm := (Toy.stored_iff h1.distinct _).1 ht
  have : (leftOut.any fun t => match t with | .mix _ => true | _ => false) = true := List.any_eq_true.2 ⟨_, hm, rfl⟩
  exact absurd this (by decide +kernel)

end CB
