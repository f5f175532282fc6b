import Verif.Props.Setup
/-!
# C17–C22: votes
-/

namespace CB
open Spec

theorem IndexMap.get_eq_some {κ ν : Type} [DecidableEq κ] (m : IndexMap κ ν) (k : κ) (v : ν) : m.get k = some v ↔ (k, v) ∈ m.entries := by
  obtain ⟨l, hl⟩ := m
  simp only [IndexMap.get]
  induction l with
  | nil => simp [IndexMap.lookup]
  | cons e es ih =>
    obtain ⟨a, b⟩ := e
    rw [List.map_cons, List.nodup_cons] at hl
    simp only [IndexMap.lookup, List.mem_cons, Prod.mk.injEq]
    by_cases h : a = k
    · subst h
      simp only [if_true, Option.some.injEq, true_and]
      refine ⟨fun h => .inl h.symm, ?_⟩
      rintro (h | h)
      · exact h.symm
      · exact absurd (List.mem_map.2 ⟨_, h, rfl⟩) hl.1
    · rw [if_neg h, ih hl.2]
      exact ⟨.inr, fun h' => h'.resolve_left fun h'' => h h''.1.symm⟩

/-- `m` after one more accepted transaction: votes of an ended election do not change, and the end stays. -/
theorem votes_frozen_step {E : Env} {m : MemStore} {t : SignedTx} (h : t.validate E m.toStore = .ok ()) (e : Identifier)
    (hend : SlotFilled m.toStore e .votingEnd) :
    SlotFilled (m.set t).toStore e .votingEnd ∧
    ∀ id : Identifier, id.electionId = e.electionId → id.txType = .vote → (m.set t).getTransaction id = m.getTransaction id := by
  constructor
  · obtain ⟨x, hx⟩ := hend
    by_cases heq : singleId e .votingEnd = t.id
    · exact ⟨t, by show (m.set t).getTransaction _ = _; rw [MemStore.get_set, if_pos heq]⟩
    · exact ⟨x, by show (m.set t).getTransaction _ = _; rw [MemStore.get_set, if_neg heq]; exact hx⟩
  · intro id he hty
    rw [MemStore.get_set]
    split
    · rename_i heq
      exfalso
      obtain ⟨h1, _, h3⟩ := SignedTx.validate_ok.1 h
      rw [← heq, hty] at h1
      rcases t with s | s | s | s | s | s | s | s | s | s <;> simp only [SignedTx.transactionType, reduceCtorEq] at h1
      obtain ⟨hid, _, _, _, _, hne, _⟩ := VoteTx.validateTx_ok_store.1 h3
      have : s.tx.election.electionId = e.electionId := by
        have h2 : id = s.tx.id := heq
        rw [hid] at h2
        rw [← he, h2]; rfl
      apply hne
      obtain ⟨x, hx⟩ := hend
      exact ⟨x, by simpa [singleId, this] using hx⟩
    · rfl

/-- **C17** Once the voting-end slot of an election is filled, no vote of that election is accepted, and along every further history of accepted
transactions (even one that overwrites ids) the stored votes of that election stay exactly the same. -/
theorem C17_no_votes_after_end (E : Env) (m : MemStore) (e : Identifier) (hend : SlotFilled m.toStore e .votingEnd) :
    (∀ v : Signed VoteTx, v.tx.election.electionId = e.electionId → (SignedTx.vote v).validate E m.toStore ≠ .ok ()) ∧
    (∀ m', ReplaySteps E m m' → ∀ id : Identifier, id.electionId = e.electionId → id.txType = .vote →
      m'.getTransaction id = m.getTransaction id) := by
  constructor
  · intro v he h
    obtain ⟨_, _, h3⟩ := SignedTx.validate_ok.1 h
    obtain ⟨_, _, _, _, _, hne, _⟩ := VoteTx.validateTx_ok_store.1 h3
    apply hne
    obtain ⟨x, hx⟩ := hend
    exact ⟨x, by simpa [singleId, he] using hx⟩
  · intro m' hsteps
    suffices SlotFilled m'.toStore e .votingEnd ∧ ∀ id : Identifier, id.electionId = e.electionId → id.txType = .vote →
      m'.getTransaction id = m.getTransaction id from this.2
    induction hsteps with
    | refl => exact ⟨hend, fun _ _ _ => rfl⟩
    | set _ hv ih =>
      obtain ⟨a, b⟩ := votes_frozen_step hv e ih.1
      exact ⟨a, fun id h1 h2 => by rw [b id h1 h2, ih.2 id h1 h2]⟩

/-- the votes are frozen while the count goes on -/
example : SlotFilled (MemStore.ofList (Toy.complete.take 11)).toStore Toy.eid .votingEnd ∧
    ReplaySteps Toy.env (MemStore.ofList (Toy.complete.take 11)) (MemStore.ofList Toy.complete) ∧
    (Toy.voteTx 33 "a").validate Toy.env (MemStore.ofList (Toy.complete.take 10)).toStore = .ok () := by
  refine ⟨⟨Toy.endTx, by rfl⟩, ?_, by decide +kernel⟩
  have hs : (runLedger Toy.env (MemStore.ofList (Toy.complete.take 11)) (Toy.complete.drop 11)).isSome = true := by decide +kernel
  obtain ⟨m', hm⟩ := Option.isSome_iff_exists.1 hs
  have heq := runLedger_eq hm
  have := (ledgerSteps_of_run hm).replaySteps
  rw [heq, MemStore.ofList, ← List.foldl_append, List.take_append_drop] at this
  exact this

/-- **C18** An accepted vote names a stored election whose encryption-key slot is filled, is signed by its anonymous key, and is filed under the id made
of that election, type 6 and the first 16 bytes of the anonymous key. -/
theorem C18_no_votes_before_key (E : Env) (v : VoteTx) (sig : Signature) (S : Store) (h : (SignedTx.vote ⟨v, sig⟩).validate E S = .ok ()) :
    (∃ e, ElectionAt S v.election e) ∧ SlotFilled S v.election .encryptionKey ∧ E.edVerify v.anonymousKey v.toCbor.encode sig = true ∧
    v.id.electionId = v.election.electionId ∧ v.id.txType = .vote ∧ v.id.uniqueInfo.val = v.anonymousKey.val.take 16 := by
  obtain ⟨_, h2, h3⟩ := SignedTx.validate_ok.1 h
  obtain ⟨hid, e, he, _, hk, _⟩ := VoteTx.validateTx_ok_store.1 h3
  refine ⟨⟨e, he⟩, hk, h2 _ rfl, ?_⟩
  rw [hid]
  exact ⟨rfl, rfl, rfl⟩

example : (Toy.voteTx 31 "a").validate Toy.env (MemStore.ofList Toy.setup).toStore = .ok () ∧
    (Toy.voteTx 31 "a").validate Toy.env (MemStore.ofList (Toy.setup.take 7)).toStore = .err .encryptionKeyTransactionDoesNotExist := by
  decide +kernel

theorem getBallot_some {e : ElectionTx} {id : Str} {b : Ballot} (h : e.getBallot id = some b) : b ∈ e.ballots ∧ b.id = id := by
  have h1 := List.mem_of_find?_eq_some h
  have h2 := List.find?_some h
  exact ⟨h1, by simpa using h2⟩

/-- **C19** An accepted vote names a ballot of its election and votes only in contests of that ballot. -/
theorem C19_votes_stay_on_ballot (E : Env) (v : VoteTx) (sig : Signature) (S : Store) (h : (SignedTx.vote ⟨v, sig⟩).validate E S = .ok ()) :
    ∃ e, ElectionAt S v.election e ∧ ∃ b ∈ e.ballots, b.id = v.ballotId ∧ ∀ ev ∈ v.encryptedVotes, ev.contestIndex ∈ b.contests := by
  obtain ⟨_, _, h3⟩ := SignedTx.validate_ok.1 h
  obtain ⟨_, e, he, _, _, _, _, b, hb, hc⟩ := VoteTx.validateTx_ok_store.1 h3
  obtain ⟨h1, h2⟩ := getBallot_some hb
  exact ⟨e, he, b, h1, h2, hc⟩

/-- a contest the ballot does not have -/
example : (SignedTx.vote ⟨Toy.vote (Toy.key 31) [] [⟨0, []⟩, ⟨5, []⟩], Toy.sig 31⟩).validate Toy.env (MemStore.ofList Toy.setup).toStore
    = .err .votedInWrongContest := by decide +kernel

/-! ## C20 -/

theorem authenticatedBy_of_ok {E : Env} {e : ElectionTx} {ballot : Str} {k : PublicKey} {a : Authentication}
    (h : ∃ au, e.getAuthenticator a.authenticator = some au ∧ au.verify E e.id ballot k a.signature = .ok ()) :
    AuthenticatedBy E e ballot k a := by
  obtain ⟨au, h1, h2⟩ := h
  obtain ⟨key, d, h3, h4, h5⟩ := Authenticator.verify_ok.1 h2
  have hm := List.mem_of_find?_eq_some h1
  have hi := List.find?_some h1
  refine ⟨au, hm, ?_, key, d, (IndexMap.get_eq_some _ _ _).1 h3, h4, h5⟩
  simp only [beq_iff_eq] at hi
  first | exact hi | exact hi.symm

/-- **C20 (partial)** Every authentication an accepted vote carries is a valid signature by an authenticator of the election for this election, ballot
and anonymous key.  Missing: that there are at least `authenticators_threshold` of them by distinct authenticators (false, see
`C20_authenticator_quorum_false`). -/
theorem C20_authenticator_quorum_partial (E : Env) (v : VoteTx) (sig : Signature) (S : Store) (h : (SignedTx.vote ⟨v, sig⟩).validate E S = .ok ()) :
    ∃ e, ElectionAt S v.election e ∧ ∀ a ∈ v.authentication, AuthenticatedBy E e v.ballotId v.anonymousKey a := by
  obtain ⟨_, _, h3⟩ := SignedTx.validate_ok.1 h
  obtain ⟨_, e, he, _, _, _, ha, _⟩ := VoteTx.validateTx_ok_store.1 h3
  exact ⟨e, he, fun a hm => authenticatedBy_of_ok (ha a hm)⟩

/-- **C20 is false of the code**: in an election that requires one authenticator, a vote without any authentication is accepted. -/
theorem C20_authenticator_quorum_false :
    ¬ ∀ (E : Env) (m : MemStore), Ledger E m → ∀ (v : VoteTx) (sig : Signature), (SignedTx.vote ⟨v, sig⟩).validate E m.toStore = .ok () →
      ∃ e, ElectionAt m.toStore v.election e ∧ ∃ as : List Authentication, (∀ a ∈ as, a ∈ v.authentication) ∧
        (as.map (·.authenticator)).Nodup ∧ e.authenticatorsThreshold.toNat ≤ as.length ∧
        ∀ a ∈ as, AuthenticatedBy E e v.ballotId v.anonymousKey a := by
  intro h
  obtain ⟨e, ⟨sg, he⟩, as, h1, _, h3, _⟩ := h Toy.env _ Toy.setup_ledger (Toy.vote (Toy.key 31) [] [⟨0, [Toy.ct "a"]⟩]) (Toy.sig 31) (by decide +kernel)
  have hget : (MemStore.ofList Toy.setup).toStore.getTransaction Toy.eid = some Toy.electionTx := by rfl
  have : some (SignedTx.election ⟨e, sg⟩) = some Toy.electionTx := by rw [← hget]; exact he.symm
  cases this
  cases as with
  | nil => exact absurd h3 (by decide +kernel)
  | cons a as => exact absurd (h1 a (by simp)) (by simp [Toy.vote])

/-- A forged authentication is refused, a genuine one accepted. -/
example : (Toy.voteTx 31 "a").validate Toy.env (MemStore.ofList Toy.setup).toStore = .ok () ∧
    (SignedTx.vote ⟨Toy.vote (Toy.key 31) [Toy.auth 21 (Toy.key 32)] [], Toy.sig 31⟩).validate Toy.env (MemStore.ofList Toy.setup).toStore
      = .err .authFailed := by decide +kernel

/-! ## C21 -/

/-- two keys equal in their first 10 bytes -/
def colliding1 : PublicKey := ⟨List.replicate 10 1 ++ List.replicate 22 2, by simp⟩
def colliding2 : PublicKey := ⟨List.replicate 10 1 ++ List.replicate 22 3, by simp⟩

/-- a vote by any key -/
def voteBy (k : PublicKey) (name : String) : SignedTx := .vote ⟨Toy.vote k [Toy.auth 21 k] [⟨0, [Toy.ct name]⟩], Toy.sigOf k⟩

/-- **C21 is false of the code**: two votes whose keys share the first 10 bytes are both accepted and stored (the collision check looks up a single id instead of a range). -/
theorem C21_no_prefix_collisions_false :
    ¬ ∀ (E : Env) (m : MemStore), Ledger E m → ∀ v w : Signed VoteTx, InStore m.toStore (.vote v) → InStore m.toStore (.vote w) →
      v.tx.election = w.tx.election → v.tx.anonymousKey.val.take 10 = w.tx.anonymousKey.val.take 10 → v = w := by
  intro h
  have hl : Ledger Toy.env (MemStore.ofList (Toy.setup ++ [voteBy colliding1 "a", voteBy colliding2 "b"])) := ledger_of_run (by decide +kernel)
  have := h _ _ hl ⟨Toy.vote colliding1 [Toy.auth 21 colliding1] [⟨0, [Toy.ct "a"]⟩], Toy.sigOf colliding1⟩
    ⟨Toy.vote colliding2 [Toy.auth 21 colliding2] [⟨0, [Toy.ct "b"]⟩], Toy.sigOf colliding2⟩ (by rfl) (by rfl) rfl (by decide +kernel)
  have := congrArg (fun s => s.tx.anonymousKey) this
  exact absurd this (by decide +kernel)

/-- **C21 (partial)** In an append-only history two stored votes of one election never share the first *16* bytes of the anonymous key; and no vote is
accepted whose first 10 key bytes, followed by six zero bytes, are the unique info of a stored vote.  Missing: the 10-byte claim in general. -/
theorem C21_no_prefix_collisions_partial (E : Env) (m : MemStore) (hm : Ledger E m) :
    (∀ v w : Signed VoteTx, InStore m.toStore (.vote v) → InStore m.toStore (.vote w) →
      v.tx.election.electionId = w.tx.election.electionId → v.tx.anonymousKey.val.take 16 = w.tx.anonymousKey.val.take 16 → v = w) ∧
    (∀ v : Signed VoteTx, (SignedTx.vote v).validate E m.toStore = .ok () → ∀ x, InStore m.toStore x →
      x.id.electionId = v.tx.election.electionId → x.id.txType = .vote →
      x.id.uniqueInfo.val ≠ v.tx.anonymousKey.val.take 10 ++ List.replicate 6 0) := by
  constructor
  · intro v w hv hw he hk
    have key : ∀ u : Signed VoteTx, InStore m.toStore (.vote u) → u.tx.id = VoteTx.buildId u.tx.election u.tx.anonymousKey := by
      intro u hu
      obtain ⟨m0, _, _, h1, _⟩ := hm.accepted hu
      exact (VoteTx.validateTx_ok_store.1 (SignedTx.validate_ok.1 h1).2.2).1
    have : (SignedTx.vote v).id = (SignedTx.vote w).id := by
      show v.tx.id = w.tx.id
      rw [key v hv, key w hw]
      simp only [VoteTx.buildId, Identifier.new, he, Identifier.mk.injEq, true_and, Option.getD_some]
      exact Subtype.ext hk
    unfold InStore at hv hw
    rw [this, hw] at hv
    exact (SignedTx.vote.inj (Option.some.inj hv)).symm
  · intro v hv x hx he hty hu
    have h3 := (SignedTx.validate_ok.1 hv).2.2
    obtain ⟨_, _, _, hc, _⟩ := (VoteTx.validateTx_ok hm.lawful).1 h3
    have : x.id = collisionId v.tx.election v.tx.anonymousKey := by
      rcases hxid : x.id with ⟨a, b, c⟩
      rw [hxid] at he hty hu
      simp only [collisionId, Identifier.mk.injEq]
      exact ⟨he, hty, Subtype.ext hu⟩
    unfold InStore at hx
    rw [this, hc] at hx
    cases hx

example : Ledger Toy.env (MemStore.ofList (Toy.setup ++ [voteBy colliding1 "a", voteBy colliding2 "b"])) := ledger_of_run (by decide +kernel)
/-- the one collision that is caught -/
example : (voteBy colliding1 "a").validate Toy.env
    (MemStore.ofList (Toy.setup ++ [voteBy ⟨List.replicate 10 1 ++ List.replicate 22 0, by simp⟩ "a"])).toStore = .err .voteAnonymousKeyCollision := by
  decide +kernel

/-! ## C22 -/

/-- **C22 is false of the code**: a vote with two encrypted votes for the same contest is accepted. -/
theorem C22_one_vote_per_contest_false :
    ¬ ∀ (E : Env) (m : MemStore), Ledger E m → ∀ (v : VoteTx) (sig : Signature), (SignedTx.vote ⟨v, sig⟩).validate E m.toStore = .ok () →
      (v.encryptedVotes.map (·.contestIndex)).Nodup := by
  intro h
  have := h Toy.env _ Toy.setup_ledger (Toy.vote (Toy.key 31) [Toy.auth 21 (Toy.key 31)] [⟨0, [Toy.ct "a"]⟩, ⟨0, [Toy.ct "b"]⟩]) (Toy.sig 31)
    (by decide +kernel)
  exact absurd this (by decide +kernel)

end CB
