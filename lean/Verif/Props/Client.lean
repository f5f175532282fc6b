import Verif.Model.Client
import Verif.Lemmas.Server
import Verif.Lemmas.Ledger
import Verif.Props.Identifiers
import Verif.Props.Setup
import Verif.Examples.ToyNode
/-!
# C63: what the command line client produces is accepted, and when not
-/

namespace CB.Spec

/-- What a user types to name an election: hexadecimal text whose first fifteen bytes are the election's id (an election id, or the whole id of any of the
election's transactions). -/
def Names (text : Str) (election : BArr 15) : Prop := ∃ bytes, HexOf text bytes ∧ bytes.take 15 = election.val

end CB.Spec

namespace CB.Client
open Spec

theorem newFromStrId_names {text : Str} {el : BArr 15} (h : Names text el) (ty : TxType) :
    Identifier.newFromStrId text ty none = some ⟨el, ty, zero16⟩ := by
  obtain ⟨bytes, h1, h2⟩ := h
  have hl : 15 ≤ bytes.length := by
    have := el.property
    rw [← h2, List.length_take] at this
    omega
  unfold Identifier.newFromStrId
  rw [(hexDecode_iff _ _).2 h1]
  simp only [show ¬ bytes.length < 15 by omega, dite_false]
  have : (⟨bytes.take 15, by simp; omega⟩ : BArr 15) = el := Subtype.ext h2
  simp [Identifier.new, this, BArr.fill, zero16]

theorem sign_eq {ε T : Type} [CBTransaction T] {N : NodeEnv} {sk : SecretKey} {tx : T} (h : ∀ k, CBTransaction.pub tx = some k → k = N.edPublic sk) :
    (sign N sk tx : Res ε (Signed T)) = .ok ⟨tx, N.edSign sk (CBTransaction.asBytes tx)⟩ := by
  have h1 := Server.sign_eq h
  have h2 : Signed.sign N.toEnv sk tx = .ok ⟨tx, N.edSign sk (CBTransaction.asBytes tx)⟩ := by
    unfold Server.sign at h1
    cases h3 : Signed.sign N.toEnv sk tx <;> rw [h3] at h1 <;> simp_all [Res.mapErr]
  simp [sign, h2]

/-- **C63** (elections) `election generate` always succeeds, for every key and random id; its election belongs to the key that signs it, and every store accepts it. -/
theorem C63_election_generate (N : NodeEnv) (hN : SignCorrect N.toEnv) (sk : SecretKey) (el : BArr 15) :
    ∃ s : Signed ElectionTx, (electionGenerate N sk el : VRes SignedTx) = .ok (.election s) ∧ s.tx.id = ⟨el, .election, zero16⟩ ∧
      s.tx.authorityPublic = N.edPublic sk ∧ IsTrustee s.tx 1 (N.edPublic sk) ∧ s.tx.trustees.length = 1 ∧
      ∀ S, (SignedTx.election s).validate N.toEnv S = .ok () := by
  refine ⟨⟨election N sk el, N.edSign sk (CBTransaction.asBytes (election N sk el))⟩, ?_, rfl, rfl, ⟨_, List.mem_singleton_self _, rfl, rfl⟩, rfl, fun S => ?_⟩
  · unfold electionGenerate
    rw [sign_eq (by intro k hk; cases hk; rfl)]
    rfl
  · refine SignedTx.validate_ok.2 ⟨rfl, ?_, ElectionTx.validateTx_ok.2 ⟨rfl, Nat.le_refl 1, Nat.zero_le _⟩⟩
    intro k hk
    cases hk
    exact hN _ _

/-- **C63** (end of voting) `voting_end generate` for a text that names an election succeeds; the transaction lands in that election's voting-end slot, and a store
accepts it exactly if it holds the election and the signing key is the election's authority. -/
theorem C63_voting_end_generate (N : NodeEnv) (hN : SignCorrect N.toEnv) (sk : SecretKey) (text : Str) (el : BArr 15) (ht : Names text el) :
    ∃ s : Signed VotingEndTx, (votingEndGenerate N sk text : VRes SignedTx) = .ok (.votingEnd s) ∧ s.tx.id = ⟨el, .votingEnd, zero16⟩ ∧
      s.tx.election = ⟨el, .election, zero16⟩ ∧
      ∀ S, (SignedTx.votingEnd s).validate N.toEnv S = .ok () ↔ ∃ e, ElectionAt S ⟨el, .election, zero16⟩ e ∧ e.authorityPublic = N.edPublic sk := by
  refine ⟨⟨VotingEndTx.new ⟨el, .election, zero16⟩ (N.edPublic sk), N.edSign sk (CBTransaction.asBytes (VotingEndTx.new ⟨el, .election, zero16⟩ (N.edPublic sk)))⟩,
    ?_, rfl, rfl, fun S => ?_⟩
  · unfold votingEndGenerate
    rw [newFromStrId_names ht]
    simp only [Res.unwrap, Res.ok_bind]
    rw [sign_eq (by intro k hk; cases hk; rfl)]
    rfl
  · rw [SignedTx.validate_ok]
    constructor
    · rintro ⟨-, -, h3⟩
      obtain ⟨e, he, h⟩ := (VotingEndTx.validateTx_ok (t := VotingEndTx.new ⟨el, .election, zero16⟩ (N.edPublic sk))).1 h3
      exact ⟨e, he, h.symm⟩
    · rintro ⟨e, he, h⟩
      refine ⟨rfl, ?_, VotingEndTx.validateTx_ok.2 ⟨e, he, h.symm⟩⟩
      intro k hk
      cases hk
      exact hN _ _

/-- **C63 (partial)** (votes) If the encryption key filed for the election the user named is that election's own, `vote generate` succeeds; the vote is the user's, for
that election, carries the user's choice encrypted to that key, and a store accepts it exactly if it holds the election, with ballot `BALLOT1` whose contests
include 0, an encryption key, no end of voting, and nothing in the one slot that is tested for collisions.  Missing: the hypothesis `hown`, see
`C63_vote_names_election_false`. -/
theorem C63_vote_generate_partial (N : NodeEnv) (hN : SignCorrect N.toEnv) (sk : SecretKey) (rng : Rng) (lookup : Identifier → Option SignedTx)
    (text choice : Str) (el : BArr 15) (ht : Names text el) (key : Signed EncryptionKeyTx)
    (hkey : lookup ⟨el, .encryptionKey, zero16⟩ = some (.encryptionKey key)) (hown : key.tx.election = ⟨el, .election, zero16⟩) :
    ∃ s : Signed VoteTx, voteGenerate N sk rng lookup text choice = .ok (.vote s) ∧ s.tx.election = ⟨el, .election, zero16⟩ ∧
      s.tx.anonymousKey = N.edPublic sk ∧
      s.tx.encryptedVotes = [⟨0, [N.encrypt key.tx.encryptionKey (Selection.encode ⟨true, 0, choice⟩) (rng.bytes [0])]⟩] ∧
      ∀ S, Lawful S → ((SignedTx.vote s).validate N.toEnv S = .ok () ↔
        (∃ e, ElectionAt S ⟨el, .election, zero16⟩ e ∧ ∃ b, e.ballots.find? (fun b => b.id = str "BALLOT1") = some b ∧ 0 ∈ b.contests) ∧
        SlotFilled S ⟨el, .election, zero16⟩ .encryptionKey ∧ ¬ SlotFilled S ⟨el, .election, zero16⟩ .votingEnd ∧
        S.getTransaction (collisionId ⟨el, .election, zero16⟩ (N.edPublic sk)) = none) := by
  refine ⟨⟨vote N sk rng key.tx choice, N.edSign sk (CBTransaction.asBytes (vote N sk rng key.tx choice))⟩, ?_, hown, rfl, rfl, fun S hS => ?_⟩
  · unfold voteGenerate
    rw [newFromStrId_names ht]
    simp only [Res.unwrap, Res.bind_def, Res.ok_bind, hkey, SignedTx.intoEncryptionKey]
    rw [sign_eq (by intro k hk; cases hk; rfl)]
    rfl
  · rw [SignedTx.validate_ok]
    have hv : (SignedTx.vote ⟨vote N sk rng key.tx choice, N.edSign sk (CBTransaction.asBytes (vote N sk rng key.tx choice))⟩).validateInner N.toEnv S =
        (vote N sk rng key.tx choice).validateTx N.toEnv S := rfl
    have hb : ∀ (e : ElectionTx), e.ballots.find? (fun b => b.id = str "BALLOT1") = e.getBallot (str "BALLOT1") := fun e => by
      simp [ElectionTx.getBallot, beq_eq_decide]
    simp only [hb]
    rw [hv, VoteTx.validateTx_ok hS]
    simp only [vote, hown]
    constructor
    · rintro ⟨-, -, -, e, he, h1, h2, h3, -, b, h4, h5⟩
      exact ⟨⟨e, he, b, h4, h5 _ (List.mem_singleton_self _)⟩, h2, h3, h1⟩
    · rintro ⟨⟨e, he, b, h4, h5⟩, h2, h3, h1⟩
      refine ⟨rfl, ?_, trivial, e, he, h1, h2, h3, by simp, b, h4, by simpa using h5⟩
      intro k hk
      cases hk
      exact hN _ _

/-! ## A vote for an election the user did not name -/

/-- an election without trustees, by a stranger -/
def strangersElection : SignedTx :=
  .election ⟨{ (Toy.election) with
               id := Toy.eid2, authorityPublic := Toy.key 2, trustees := [], trusteesThreshold := 0
               ballots := [⟨str "BALLOT1", [0], .empty⟩] }, Toy.sig 2⟩

/-- the stranger's own encryption key, … -/
def strangersOwnKey : SignedTx := .encryptionKey ⟨EncryptionKeyTx.new Toy.eid2 (Toy.key 2) ⟨[66]⟩, Toy.sig 2⟩

/-- … and the same key filed under the other election -/
def strangersKey : SignedTx := .encryptionKey ⟨⟨Identifier.new Toy.eid .encryptionKey none, Toy.eid2, Toy.key 2, ⟨[66]⟩⟩, Toy.sig 2⟩

/-- the ledger of `C63_vote_names_election_false` -/
def hijacked : List SignedTx := [Toy.electionTx, strangersElection, strangersOwnKey, strangersKey]

/-- **C63 is false of the code**: on a ledger of accepted transactions, a user who asks for a vote in one election gets (and can post, and it is accepted) a vote in
another election, encrypted to a key that a stranger chose.  (The stranger needs no key of the first election: an election without trustees may be given any
encryption key, and the key may be filed in the first election's slot.) -/
theorem C63_vote_names_election_false :
    ¬ ∀ (N : NodeEnv) (m : MemStore), SignCorrect N.toEnv → Ledger N.toEnv m → ∀ sk rng text choice el, Names text el →
      (∃ e, ElectionAt m.toStore ⟨el, .election, zero16⟩ e) →
      ∀ s : Signed VoteTx, voteGenerate N sk rng m.getTransaction text choice = .ok (.vote s) → (SignedTx.vote s).validate N.toEnv m.toStore = .ok () →
        s.tx.election = ⟨el, .election, zero16⟩ := by
  intro h
  have hl : Ledger Toy.node.toEnv (MemStore.ofList hijacked) := ledger_of_run (by decide +kernel)
  have hs : SignCorrect Toy.node.toEnv := fun sk msg => by simp [Toy.node, Toy.env]
  have hk : (MemStore.ofList hijacked).getTransaction ⟨Toy.eid.electionId, .encryptionKey, zero16⟩ = some strangersKey := by rfl
  have hn : Names (hexEncode Toy.eid.electionId.val) Toy.eid.electionId :=
    ⟨_, (hexDecode_iff _ _).1 (hexDecode_hexEncode _), by decide +kernel⟩
  have hg : ∃ s : Signed VoteTx, voteGenerate Toy.node (Toy.key 31) Toy.rng (MemStore.ofList hijacked).getTransaction (hexEncode Toy.eid.electionId.val) (str "a") =
      .ok (.vote s) ∧ s.tx = vote Toy.node (Toy.key 31) Toy.rng ⟨Identifier.new Toy.eid .encryptionKey none, Toy.eid2, Toy.key 2, ⟨[66]⟩⟩ (str "a") ∧
      s.sig = Toy.sig 31 := by
    refine ⟨⟨_, Toy.sig 31⟩, ?_, rfl, rfl⟩
    unfold voteGenerate
    rw [newFromStrId_names hn]
    simp only [Res.unwrap, Res.bind_def, Res.ok_bind, hk, strangersKey, SignedTx.intoEncryptionKey]
    rw [sign_eq (by intro k hk; cases hk; rfl)]
    rfl
  obtain ⟨s, h1, h2, h3⟩ := hg
  obtain ⟨tx, sig⟩ := s
  dsimp only at h2 h3
  subst h2 h3
  have := h Toy.node _ hs hl (Toy.key 31) Toy.rng _ (str "a") Toy.eid.electionId hn ⟨Toy.election, _, rfl⟩ _ h1 (by decide +kernel)
  exact absurd this (by decide +kernel)

/-! ## The hypotheses can be met -/

/-- The command line's own election, set up by one node, with a vote from the command line accepted. -/
example : ∃ l, ∃ s, voteGenerate Toy.node (Toy.key 31) Toy.rng (MemStore.ofList l).getTransaction (hexEncode Toy.eid.electionId.val) (str "a") = .ok s ∧
    (runLedger Toy.node.toEnv .empty (l ++ [s])).isSome = true :=
  ⟨[.election ⟨election Toy.node (Toy.key 1) Toy.eid.electionId, Toy.sig 1⟩,
    .keyGenPublicKey ⟨KeyGenPublicKeyTx.new Toy.eid 1 (Toy.key 1) ⟨[5]⟩ ⟨[1]⟩, Toy.sig 1⟩,
    .encryptionKey ⟨EncryptionKeyTx.new Toy.eid (Toy.key 1) ⟨[5]⟩, Toy.sig 1⟩], _, rfl, by decide +kernel⟩

end CB.Client
