import Verif.Spec.Voter
import Verif.Model.Voter
import Verif.Props.Authn
import Verif.Props.Client
import Verif.Props.Order
import Verif.Lemmas.Rest
import Verif.Props.E2eHonest
/-!
# C83: no voter is kept out
-/

namespace CB
open Spec

/-- **C83** An open election takes every voter's vote: whoever fills one of its ballots under a fresh key, has the key authenticated by any of the election's authenticators (or by
none, C20) and signs, has a vote that is accepted. -/
theorem C83_open_election_takes_votes (N : NodeEnv) (hs : SignCorrect N.toEnv) (hN : BlindSignatures N) (S : Store) (hS : Lawful S) (e : ElectionTx) (sk : SecretKey)
    (ho : OpenTo S e (N.edPublic sk)) (ballot : Str) (votes : List EncryptedVote) (hb : FillsBallot e ballot votes) (hids : (e.authenticators.map (·.id)).Nodup)
    (hd : ∀ key, (N.rsaDigest key (authMessage e.id ballot (N.edPublic sk))).isSome) (auths : List Authentication)
    (ha : ∀ a ∈ auths, ∃ au ∈ e.authenticators, ∃ secret r r', au.publicKeys.get ballot = some (N.rsaPublic secret) ∧
      exchange N au secret ⟨e.id, ballot, N.edPublic sk⟩ r r' = .ok a) :
    ∃ s : Signed VoteTx, (castVote N sk e.id ballot votes auths : VRes SignedTx) = .ok (.vote s) ∧ s.tx.election = e.id ∧ s.tx.anonymousKey = N.edPublic sk ∧
      s.tx.ballotId = ballot ∧ s.tx.encryptedVotes = votes ∧ s.tx.authentication = auths ∧ (SignedTx.vote s).validate N.toEnv S = .ok () := by
  let v : VoteTx := { VoteTx.new N sk e.id ballot votes with authentication := auths }
  refine ⟨⟨v, N.edSign sk (CBTransaction.asBytes v)⟩, ?_, rfl, rfl, rfl, rfl, rfl, ?_⟩
  · unfold castVote
    rw [Client.sign_eq (by intro k hk; cases hk; rfl)]
    rfl
  · refine SignedTx.validate_ok.2 ⟨rfl, ?_, ?_⟩
    · intro k hk
      cases hk
      exact hs _ _
    · refine C51_vote_stays_acceptable N hN v e S ho.election ?_ hids hd ha
      obtain ⟨b, hb1, hb2⟩ := hb
      refine (VoteTx.validateTx_ok hS).2 ⟨rfl, e, ho.election, ?_, ho.key, ho.running, by simp, b, ?_, hb2⟩
      · cases hg : S.getTransaction (collisionId v.election v.anonymousKey) with
        | none => rfl
        | some t =>
          have hi := hS.keyed _ _ hg
          refine absurd ?_ (ho.fresh t (by rw [InStore, hi]; exact hg) (by rw [hi]; rfl) (by rw [hi]; rfl))
          rw [hi]
          show (((N.edPublic sk).val.take 10 ++ List.replicate 6 0 : Bytes)).take 10 = _
          rw [List.take_append_of_le_length (by simp [(N.edPublic sk).property]), List.take_take]
          rfl
      · rw [ElectionTx.getBallot, ← hb1]
        simp [beq_eq_decide, v, VoteTx.new]

namespace Exonum

theorem openTo_deliverAll {E : Env} {s : Schema} {e : ElectionTx} {k : PublicKey} (ho : OpenTo (toStore s) e k) (l : List Envelope) (hl : ∀ x ∈ l, Labelled x)
    (hq : ∀ x ∈ l, ∀ t, SignedTx.fromBytes x.data = .ok t → LeavesOpen e k t) : OpenTo (toStore (deliverAll E s l)) e k := by
  have hnew : ∀ id t, getTransaction (deliverAll E s l) id = some t → getTransaction s id = some t ∨ (t.id = id ∧ LeavesOpen e k t) := by
    intro id t ht
    obtain ⟨x, hx, hd⟩ := getTransaction_eq_some.1 ht
    rcases (C35_exonum_append_only E s l).2.1 _ _ hx with h | ⟨h1, h2⟩
    · exact .inl (getTransaction_eq_some.2 ⟨x, h, hd⟩)
    · refine .inr ⟨?_, hq x h1 t hd⟩
      have := hl x h1 t hd
      rw [h2, Identifier.toString_inj] at this
      exact this.symm
  refine ⟨?_, ?_, ?_, ?_⟩
  · obtain ⟨sig, h⟩ := ho.election
    exact ⟨sig, getTransaction_keeps h⟩
  · obtain ⟨x, h⟩ := ho.key
    exact ⟨x, getTransaction_keeps h⟩
  · rintro ⟨x, h⟩
    rcases hnew _ _ h with h | ⟨h, h', _⟩
    · exact ho.running ⟨x, h⟩
    · exact h' h
  · intro t ht h1 h2
    rcases hnew _ _ ht with h | ⟨_, _, h⟩
    · exact ho.fresh t h h1 h2
    · exact h h1 h2

/-- **C83 (partial)** On the blockchain: from the moment when an election is open to a voter, whatever others submit and however long the vote takes to arrive, the vote is filed when
it arrives and stays so, and is read as it was cast.  Provided that the others' submissions are labelled with their ids (C36), do not fill the place of the election's end of voting,
and are no votes under keys that begin with the same ten bytes. -/
theorem C83_cast_votes_are_filed_partial (N : NodeEnv) (hs : SignCorrect N.toEnv) (hN : BlindSignatures N) (before between after : List Envelope)
    (hl : ∀ x ∈ before ++ between, Labelled x) (e : ElectionTx) (sk : SecretKey) (ho : OpenTo (toStore (deliverAll N.toEnv OMap.empty before)) e (N.edPublic sk))
    (hq : ∀ x ∈ between, ∀ t, SignedTx.fromBytes x.data = .ok t → LeavesOpen e (N.edPublic sk) t)
    (ballot : Str) (votes : List EncryptedVote) (hb : FillsBallot e ballot votes) (hids : (e.authenticators.map (·.id)).Nodup)
    (hd : ∀ key, (N.rsaDigest key (authMessage e.id ballot (N.edPublic sk))).isSome) (auths : List Authentication)
    (ha : ∀ a ∈ auths, ∃ au ∈ e.authenticators, ∃ secret r r', au.publicKeys.get ballot = some (N.rsaPublic secret) ∧
      exchange N au secret ⟨e.id, ballot, N.edPublic sk⟩ r r' = .ok a) :
    ∃ s : Signed VoteTx, (castVote N sk e.id ballot votes auths : VRes SignedTx) = .ok (.vote s) ∧ s.tx.encryptedVotes = votes ∧
      (RustData (.vote s) → getTransaction (deliverAll N.toEnv OMap.empty (before ++ between ++ Envelope.ofTx (.vote s) :: after)) s.tx.id = some (.vote s)) := by
  have hw' := wf_deliverAll (E := N.toEnv) hl
  have ho' := openTo_deliverAll (E := N.toEnv) ho between (fun x hx => hl x (List.mem_append_right _ hx)) hq
  rw [← deliverAll_append] at ho'
  obtain ⟨s, h1, h2, h3, h4, h5, h6, h7⟩ := C83_open_election_takes_votes N hs hN _ (lawful hw') e sk ho' ballot votes hb hids hd auths ha
  refine ⟨s, h1, h5, fun hr => ?_⟩
  rw [show before ++ between ++ Envelope.ofTx (.vote s) :: after = (before ++ between ++ [Envelope.ofTx (.vote s)]) ++ after by simp, deliverAll_append _ _ _ after]
  refine getTransaction_keeps ?_
  rw [deliverAll_snoc, deliver_iff hr rfl hw']
  refine .inr ⟨?_, rfl, rfl, h7⟩
  cases hg : getTransaction (deliverAll N.toEnv OMap.empty (before ++ between)) s.tx.id with
  | none => rfl
  | some t =>
    have hi := (lawful hw').keyed _ _ hg
    have hid : s.tx.id = VoteTx.buildId s.tx.election s.tx.anonymousKey := ((VoteTx.validateTx_ok (lawful hw')).1 (SignedTx.validate_ok.1 h7).2.2).1
    rw [h2, h3] at hid
    refine absurd ?_ (ho'.fresh t (by rw [InStore, hi]; exact hg) (by rw [hi, hid]; rfl) (by rw [hi, hid]; rfl))
    rw [hi, hid]
    show ((N.edPublic sk).val.take 16).take 10 = _
    rw [List.take_take]
    rfl

/-! ## The sample election -/

theorem setup_labelled : ∀ x ∈ Toy.setup.map Envelope.ofTx, Labelled x := by
  intro x hx
  obtain ⟨t, ht, rfl⟩ := List.mem_map.1 hx
  refine (C37_envelope_roundtrip t (toy_rustData t ?_)).2.2.1
  rw [Toy.complete]
  exact List.mem_append_left _ ht

theorem open_of {s : Schema} (hall : ∀ id, getTransaction s id = (MemStore.ofList Toy.setup).getTransaction id) (k : PublicKey)
    (hv : ∀ t, getTransaction s t.id = some t → t.id.txType ≠ .vote) : OpenTo (toStore s) (Toy.election) k := by
  have h1 : (MemStore.ofList Toy.setup).getTransaction Toy.eid = some (.election ⟨Toy.election, Toy.sig 1⟩) := by rfl
  have h2 : (MemStore.ofList Toy.setup).getTransaction (singleId Toy.eid .encryptionKey) = some Toy.encTx := by rfl
  have h3 : (MemStore.ofList Toy.setup).getTransaction (singleId Toy.eid .votingEnd) = none := by rfl
  refine ⟨⟨Toy.sig 1, (hall _).trans h1⟩, ⟨Toy.encTx, (hall _).trans h2⟩, ?_, fun t ht _ h => absurd h (hv t ht)⟩
  rintro ⟨x, hx⟩
  have := h3.symm.trans ((hall _).symm.trans hx)
  cases this

/-- when it is set up, it is open to everybody -/
theorem setup_open (k : PublicKey) : OpenTo (toStore (deliverAll Toy.env OMap.empty (Toy.setup.map Envelope.ofTx))) (Toy.election) k := by
  refine open_of (fun id => E2e.delivered (fun t ht => toy_rustData t (by rw [Toy.complete]; exact List.mem_append_left _ ht))
      (List.map_inj_left.1 (show Toy.setup.map forget = Toy.setup.map _root_.id from rfl)) (by decide +kernel) id) k ?_
  intro t ht h2
  obtain ⟨x, hx, hd⟩ := getTransaction_eq_some.1 ht
  rcases (C35_exonum_append_only Toy.env OMap.empty _).2.1 _ _ hx with h | ⟨h, _⟩
  · cases h
  · obtain ⟨u, hu, rfl⟩ := List.mem_map.1 h
    have hr : RustData u := toy_rustData u (by rw [Toy.complete]; exact List.mem_append_left _ hu)
    have := (C37_envelope_roundtrip u hr).1
    rw [show Envelope.toTx _ = _ from hd] at this
    cases this
    have hall : (Toy.setup.all fun u => decide ((forget u).id.txType ≠ .vote)) = true := by decide +kernel
    exact absurd h2 (of_decide_eq_true (List.all_eq_true.1 hall u hu))

def strangersActs : List Envelope := [foreignElection, foreignEnd].map Envelope.ofTx

theorem strangers_rustData : ∀ t ∈ [foreignElection, foreignEnd], RustData t := by
  have h : ([foreignElection, foreignEnd].all fun t => fitsCheck 127 t.toCbor) = true := by decide +kernel
  exact fun t ht => fits_of_check _ _ (List.all_eq_true.1 h t ht)

def theVote : Signed VoteTx := ⟨Toy.vote (Toy.key 31) [Toy.auth 21 (Toy.key 31)] [⟨0, [Toy.ct "a"]⟩], Toy.sig 31⟩

/-- **C83 is false of the code**: a voter can be kept out by somebody who is neither the election's authority nor one of its trustees, and who has not got the voter's key.  Such a
stranger announces an election of their own and ends its voting under the first election's id (C16). -/
theorem C83_strangers_cannot_keep_voters_out_false : ¬ ∀ (E : Env) (before between : List Envelope) (e : ElectionTx) (v : Signed VoteTx),
    (∀ x ∈ before ++ between, Labelled x) → OpenTo (toStore (deliverAll E OMap.empty before)) e v.tx.anonymousKey → v.tx.election = e.id → RustData (.vote v) →
    (SignedTx.vote v).validate E (toStore (deliverAll E OMap.empty before)) = .ok () →
    (∀ x ∈ between, ∀ t k, SignedTx.fromBytes x.data = .ok t → signerOf t = some k →
      k ≠ e.authorityPublic ∧ k ≠ v.tx.anonymousKey ∧ (∀ tr ∈ e.trustees, k ≠ tr.publicKey)) →
    ∃ t, getTransaction (deliverAll E OMap.empty (before ++ between ++ [Envelope.ofTx (.vote v)])) v.tx.id = some t := by
  intro h
  have := h Toy.env (Toy.setup.map Envelope.ofTx) strangersActs (Toy.election) theVote ?_ (setup_open _) rfl (toy_rustData (Toy.voteTx 31 "a") (by simp [Toy.complete]))
    (by decide +kernel) ?_
  · obtain ⟨t, ht⟩ := this
    have hn : (getTransaction (deliverAll Toy.env OMap.empty (Toy.setup.map Envelope.ofTx ++ strangersActs ++ [Envelope.ofTx (.vote theVote)])) theVote.tx.id).isSome = false := by
      decide +kernel
    rw [ht] at hn
    cases hn
  · intro x hx
    rcases List.mem_append.1 hx with hx | hx
    · exact setup_labelled x hx
    · obtain ⟨t, ht, rfl⟩ := List.mem_map.1 hx
      exact (C37_envelope_roundtrip t (strangers_rustData t ht)).2.2.1
  · intro x hx t k ht hk
    obtain ⟨u, hu, rfl⟩ := List.mem_map.1 hx
    have := (C37_envelope_roundtrip u (strangers_rustData u hu)).1
    rw [show Envelope.toTx _ = _ from ht] at this
    cases this
    have hk' : k = Toy.key 2 := by
      simp only [List.mem_cons, List.not_mem_nil, or_false] at hu
      rcases hu with rfl | rfl <;> · cases hk; rfl
    subst hk'
    decide +kernel

def mislabelled : Envelope := { Envelope.ofTx foreignElection with id := (singleId Toy.eid .votingEnd).toString }

/-- … nor does it help that others' transactions are those of other elections and carry ids of other elections: a submission may be labelled with another id (C36), and any acceptable
transaction labelled as the end of voting ends it. -/
theorem C83_other_elections_cannot_keep_voters_out_false : ¬ ∀ (E : Env) (before between : List Envelope) (e : ElectionTx) (v : Signed VoteTx),
    (∀ x ∈ before, Labelled x) → OpenTo (toStore (deliverAll E OMap.empty before)) e v.tx.anonymousKey → v.tx.election = e.id → RustData (.vote v) →
    (SignedTx.vote v).validate E (toStore (deliverAll E OMap.empty before)) = .ok () →
    (∀ x ∈ between, ∀ t, SignedTx.fromBytes x.data = .ok t → t.id.electionId ≠ e.id.electionId ∧ (electionOf t).electionId ≠ e.id.electionId) →
    ∃ t, getTransaction (deliverAll E OMap.empty (before ++ between ++ [Envelope.ofTx (.vote v)])) v.tx.id = some t := by
  intro h
  have := h Toy.env (Toy.setup.map Envelope.ofTx) [mislabelled] (Toy.election) theVote setup_labelled (setup_open _) rfl
    (toy_rustData (Toy.voteTx 31 "a") (by simp [Toy.complete])) (by decide +kernel) ?_
  · obtain ⟨t, ht⟩ := this
    have hn : (getTransaction (deliverAll Toy.env OMap.empty (Toy.setup.map Envelope.ofTx ++ [mislabelled] ++ [Envelope.ofTx (.vote theVote)])) theVote.tx.id).isSome = false := by
      decide +kernel
    rw [ht] at hn
    cases hn
  · intro x hx t ht
    rw [List.mem_singleton] at hx
    subst hx
    have := (C37_envelope_roundtrip foreignElection (strangers_rustData _ (by simp))).1
    have hu : t = forget foreignElection := Res.ok.inj ((show (Envelope.ofTx foreignElection).toTx = .ok t from ht).symm.trans this)
    subst hu
    decide +kernel

/-- In the sample election a voter's vote is filed, although another vote and a stranger's election arrive before it, and the end of voting after. -/
example : ∃ s : Signed VoteTx, (castVote Toy.node (Toy.key 31) Toy.eid (str "b1") [⟨0, [Toy.ct "a"]⟩] [Toy.auth 21 (Toy.key 31)] : VRes SignedTx) = .ok (.vote s) ∧
    s.tx.encryptedVotes = [⟨0, [Toy.ct "a"]⟩] ∧
    (RustData (.vote s) → getTransaction (deliverAll Toy.env OMap.empty (Toy.setup.map Envelope.ofTx ++ [Toy.voteTx 32 "b", foreignElection].map Envelope.ofTx ++
      Envelope.ofTx (.vote s) :: [Envelope.ofTx Toy.endTx])) s.tx.id = some (.vote s)) := by
  have hr : ∀ t ∈ [Toy.voteTx 32 "b", foreignElection], RustData t := by
    have h : ([Toy.voteTx 32 "b", foreignElection].all fun t => fitsCheck 127 t.toCbor) = true := by decide +kernel
    exact fun t ht => fits_of_check _ _ (List.all_eq_true.1 h t ht)
  refine C83_cast_votes_are_filed_partial Toy.node (fun sk msg => by simp [Toy.node, Toy.env]) Toy.blind_signatures _ _ _ ?_ (Toy.election) (Toy.key 31) (setup_open _) ?_ _ _
    ⟨⟨str "b1", [0, 1], .empty⟩, by rfl, by decide +kernel⟩ (by decide +kernel) (fun _ => rfl) _ ?_
  · intro x hx
    rcases List.mem_append.1 hx with hx | hx
    · exact setup_labelled x hx
    · obtain ⟨t, ht, rfl⟩ := List.mem_map.1 hx
      exact (C37_envelope_roundtrip t (hr t ht)).2.2.1
  · intro x hx t ht
    obtain ⟨u, hu, rfl⟩ := List.mem_map.1 hx
    have := (C37_envelope_roundtrip u (hr u hu)).1
    rw [show Envelope.toTx _ = _ from ht] at this
    cases this
    simp only [List.mem_cons, List.not_mem_nil, or_false] at hu
    rcases hu with rfl | rfl <;> exact ⟨by decide +kernel, by decide +kernel⟩
  · intro a ha
    refine ⟨Toy.authenticator 21, by simp [Toy.election], ⟨[21]⟩, [1], [2], by decide +kernel, ?_⟩
    have : a = Toy.auth 21 (Toy.key 31) := by simpa using ha
    subst this
    decide +kernel

end Exonum

end CB
