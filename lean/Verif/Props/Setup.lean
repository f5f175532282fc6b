import Verif.Props.Signing
import Verif.Lemmas.Pigeon
/-!
# C12–C16: elections and key generation
-/

namespace CB
open Spec

theorem wellFormed_id {e : ElectionTx} : e.id = ⟨e.id.electionId, .election, zero16⟩ ↔ e.id.txType = .election ∧ ∀ b ∈ e.id.uniqueInfo.val, b = 0 := by
  rcases e.id with ⟨a, b, c⟩
  simp only [Identifier.mk.injEq, true_and]
  refine and_congr_right fun _ => ?_
  rw [Subtype.ext_iff]
  show c.val = List.replicate 16 0 ↔ _
  rw [List.eq_replicate_iff]
  exact ⟨fun h => h.2, fun h => ⟨c.property, h⟩⟩

/-- **C12 (partial)** An accepted election is signed by its authority and well-formed (any size); and conversely, a signed well-formed election
with fewer than 256 authenticators is accepted.  Missing: completeness for 256 or more authenticators, where the code's `len() as u8` wraps
(`C12_election_acceptance_false`). -/
theorem C12_election_acceptance_partial (E : Env) (e : ElectionTx) (sig : Signature) (S : Store) :
    ((SignedTx.election ⟨e, sig⟩).validate E S = .ok () →
      E.edVerify e.authorityPublic e.toCbor.encode sig = true ∧ WellFormedElection e) ∧
    (E.edVerify e.authorityPublic e.toCbor.encode sig = true → WellFormedElection e → e.authenticators.length < 256 →
      (SignedTx.election ⟨e, sig⟩).validate E S = .ok ()) := by
  have hsig : SignatureValid E (.election ⟨e, sig⟩) ↔ E.edVerify e.authorityPublic e.toCbor.encode sig = true := by
    simp [SignatureValid, signerOf, signedBytes, signatureOf]
  constructor
  · intro h
    obtain ⟨_, h2, h3⟩ := SignedTx.validate_ok.1 h
    obtain ⟨a, b, c⟩ := ElectionTx.validateTx_ok.1 h3
    obtain ⟨a1, a2⟩ := wellFormed_id.1 a
    exact ⟨hsig.1 h2, ⟨a1, a2, b, Nat.le_trans c (Nat.mod_le _ _)⟩⟩
  · intro h1 h2 h3
    refine SignedTx.validate_ok.2 ⟨h2.type, hsig.2 h1, ElectionTx.validateTx_ok.2 ⟨wellFormed_id.2 ⟨h2.type, h2.zeros⟩, h2.trustees, ?_⟩⟩
    rw [Nat.mod_eq_of_lt h3]
    exact h2.authenticators

/-- **C12 completeness is false of the code**: a signed well-formed election with 256 authenticators, one of which suffices, is refused. -/
theorem C12_election_acceptance_false :
    ¬ ∀ (E : Env) (e : ElectionTx) (sig : Signature) (S : Store),
      E.edVerify e.authorityPublic e.toCbor.encode sig = true → WellFormedElection e → (SignedTx.election ⟨e, sig⟩).validate E S = .ok () := by
  intro h
  have := h Toy.env { Toy.election with authenticators := List.replicate 256 (Toy.authenticator 21) } (Toy.sig 1) MemStore.empty.toStore
    (by decide +kernel) ⟨rfl, by decide +kernel, by decide +kernel, by decide +kernel⟩
  exact absurd this (by decide +kernel)

example : WellFormedElection Toy.election := ⟨rfl, by decide +kernel, by decide +kernel, by decide +kernel⟩
example : (SignedTx.election ⟨Toy.election, Toy.sig 1⟩).validate Toy.env MemStore.empty.toStore = .ok () := by decide +kernel
/-- a threshold above the number of trustees is refused -/
example : (SignedTx.election ⟨{ Toy.election with trusteesThreshold := 3 }, Toy.sig 1⟩).validate Toy.env MemStore.empty.toStore
    = .err .invalidTrusteeThreshold := by decide +kernel

/-! ## C13 -/

theorem MixTx.validateTx_trustee {E : Env} {t : MixTx} {S : Store} (h : t.validateTx E S = .ok ()) :
    ∃ e, ElectionAt S t.electionId e ∧ IsTrustee e t.trusteeIndex t.trusteePublicKey := by
  simp only [validateTx, Res.bind_def, Res.bind_eq_ok, Res.exists_unit, Res.failIf_eq_ok, Store.getElection_ok, 
    Bool.not_eq_false', trusteeExists_iff] at h
  obtain ⟨_, s, hs, _, htr, _⟩ := h
  exact ⟨s.tx, ⟨s.sig, hs⟩, htr⟩

/-- **C13** An accepted trustee step is signed by a key that the election it names lists as a trustee under exactly the index the step claims. -/
theorem C13_trustee_steps_by_trustees (E : Env) (t : SignedTx) (S : Store) (h : t.validate E S = .ok ()) (i : UInt8) (k : PublicKey)
    (ht : trusteeOf t = some (i, k)) :
    (∃ e, ElectionAt S (electionOf t) e ∧ ∃ tr ∈ e.trustees, tr.index = i ∧ tr.publicKey = k) ∧
    E.edVerify k (signedBytes t) (signatureOf t) = true := by
  obtain ⟨_, hsig, hin⟩ := SignedTx.validate_ok.1 h
  cases t <;> simp only [trusteeOf, Option.some.injEq, Prod.mk.injEq, reduceCtorEq] at ht <;> obtain ⟨rfl, rfl⟩ := ht
  · exact ⟨KeyGenCommitmentTx.validateTx_ok.1 hin, hsig _ rfl⟩
  · obtain ⟨e, h1, h2, _⟩ := KeyGenShareTx.validateTx_ok.1 hin
    exact ⟨⟨e, h1, h2⟩, hsig _ rfl⟩
  · exact ⟨KeyGenPublicKeyTx.validateTx_ok.1 hin, hsig _ rfl⟩
  · exact ⟨MixTx.validateTx_trustee hin, hsig _ rfl⟩
  · obtain ⟨e, h1, h2, _⟩ := PartialDecryptionTx.validateTx_ok.1 hin
    exact ⟨⟨e, h1, h2⟩, hsig _ rfl⟩

example : (Toy.commitTx 2 12).validate Toy.env (MemStore.ofList [Toy.electionTx]).toStore = .ok () ∧
    trusteeOf (Toy.commitTx 2 12) = some (2, Toy.key 12) := by decide +kernel
/-- trustee 1's key does not pass as trustee 2 -/
example : (Toy.commitTx 2 11).validate Toy.env (MemStore.ofList [Toy.electionTx]).toStore = .err (.trusteeDoesNotExist 2) := by decide +kernel

/-! ## C14 -/

theorem IndexMap.get_isSome {κ ν : Type} [DecidableEq κ] (m : IndexMap κ ν) (k : κ) : (m.get k).isSome = true ↔ k ∈ m.entries.map Prod.fst := by
  obtain ⟨l, hl⟩ := m
  simp only [IndexMap.get]
  clear hl
  induction l with
  | nil => simp [IndexMap.lookup]
  | cons e es ih =>
    obtain ⟨a, b⟩ := e
    simp only [IndexMap.lookup, List.map_cons, List.mem_cons]
    by_cases h : a = k
    · simp [h]
    · rw [if_neg h, ih]
      exact ⟨.inr, fun h' => h'.resolve_left fun h'' => h h''.symm⟩

/-- **C14** An accepted key-share transaction has one entry per trustee and a share for each trustee index; when the election's trustee
indexes are distinct, the indexes it has shares for are exactly the trustee indexes. -/
theorem C14_shares_cover_trustees (E : Env) (t : KeyGenShareTx) (sig : Signature) (S : Store)
    (h : (SignedTx.keyGenShare ⟨t, sig⟩).validate E S = .ok ()) :
    ∃ e, ElectionAt S t.election e ∧ t.shares.entries.length = e.trustees.length ∧
      (∀ tr ∈ e.trustees, ∃ share, (tr.index, share) ∈ t.shares.entries) ∧
      ((e.trustees.map (·.index)).Nodup → (t.shares.entries.map Prod.fst).Perm (e.trustees.map (·.index))) := by
  obtain ⟨_, _, hin⟩ := SignedTx.validate_ok.1 h
  obtain ⟨e, h1, h2, h3, h4⟩ := KeyGenShareTx.validateTx_ok.1 hin
  have hmem : ∀ tr ∈ e.trustees, tr.index ∈ t.shares.entries.map Prod.fst := fun tr htr => (IndexMap.get_isSome _ _).1 (h4 tr htr)
  refine ⟨e, h1, h3, fun tr htr => ?_, fun hn => ?_⟩
  · obtain ⟨⟨i, s⟩, hm, rfl⟩ := List.mem_map.1 (hmem tr htr)
    exact ⟨s, hm⟩
  · refine (perm_of_nodup_subset hn ?_ ?_).symm
    · intro i hi
      obtain ⟨tr, htr, rfl⟩ := List.mem_map.1 hi
      exact hmem tr htr
    · simp [h3]

example : (Toy.shareTx 1 11).validate Toy.env (MemStore.ofList [Toy.electionTx]).toStore = .ok () := by decide +kernel
example : (Toy.election.trustees.map (·.index)).Nodup := by decide +kernel

/-! ## C15 -/

/-- **C15** An encryption-key transaction (with its type in its id) is accepted exactly when it is signed by the authority of the election it names and the
public-key transactions stored for that election are as many as the trustees, include one by each trustee, and all publish exactly this key.  With
distinct trustees there is exactly one per trustee. -/
theorem C15_encryption_key_unanimous (E : Env) (t : EncryptionKeyTx) (sig : Signature) (S : Store) (hS : Lawful S) :
    ((SignedTx.encryptionKey ⟨t, sig⟩).validate E S = .ok () ↔
      t.id.txType = .encryptionKey ∧ E.edVerify t.authorityPublicKey t.toCbor.encode sig = true ∧
      ∃ e, ElectionAt S t.election e ∧ t.authorityPublicKey = e.authorityPublic ∧
      ∃ pks : List (Signed KeyGenPublicKeyTx),
        (∀ x, (InStore S x ∧ x.id.electionId = t.election.electionId ∧ x.id.txType = .keyGenPublicKey) ↔ ∃ p ∈ pks, x = .keyGenPublicKey p) ∧
        (pks.map (·.tx.id)).Nodup ∧ pks.length = e.trustees.length ∧
        (∀ tr ∈ e.trustees, ∃ p ∈ pks, p.tx.trusteeIndex = tr.index ∧ p.tx.trusteePublicKey = tr.publicKey) ∧
        (∀ p ∈ pks, p.tx.publicKey = t.encryptionKey)) ∧
    (∀ (e : ElectionTx) (pks : List (Signed KeyGenPublicKeyTx)), pks.length = e.trustees.length →
      (e.trustees.map fun tr => (tr.index, tr.publicKey)).Nodup →
      (∀ tr ∈ e.trustees, ∃ p ∈ pks, p.tx.trusteeIndex = tr.index ∧ p.tx.trusteePublicKey = tr.publicKey) →
      (pks.map fun p => (p.tx.trusteeIndex, p.tx.trusteePublicKey)).Perm (e.trustees.map fun tr => (tr.index, tr.publicKey))) := by
  refine ⟨?_, ?_⟩
  · rw [SignedTx.validate_ok]
    show t.id.txType = .encryptionKey ∧ _ ∧ t.validateTx S = .ok () ↔ _
    rw [EncryptionKeyTx.validateTx_ok]
    have hsig : SignatureValid E (.encryptionKey ⟨t, sig⟩) ↔ E.edVerify t.authorityPublicKey t.toCbor.encode sig = true := by
      simp [SignatureValid, signerOf, signedBytes, signatureOf]
    rw [hsig]
    refine and_congr_right fun _ => and_congr_right fun _ => exists_congr fun e => and_congr_right fun _ => and_congr_right fun _ => ?_
    obtain ⟨l, h1, h2, h3⟩ := hS.getMultiple t.election .keyGenPublicKey
    rw [h1]
    constructor
    · rintro ⟨pks, hl, a, b, c⟩
      cases hl
      refine ⟨pks, fun x => by rw [← h2]; simp [eq_comm], ?_, a, b, c⟩
      have := idLt_nodup h3
      rw [List.map_map] at this
      exact this
    · rintro ⟨pks, hx, hn, a, b, c⟩
      -- the scan is a permutation of `pks`, in ascending order
      have hmem : ∀ x, x ∈ l ↔ x ∈ pks.map SignedTx.keyGenPublicKey := fun x => by rw [h2, hx]; simp [eq_comm]
      have : ∃ pks' : List (Signed KeyGenPublicKeyTx), l = pks'.map SignedTx.keyGenPublicKey := by
        clear h1 h2 h3
        suffices ∀ l : List SignedTx, (∀ x ∈ l, x ∈ pks.map SignedTx.keyGenPublicKey) → ∃ pks' : List (Signed KeyGenPublicKeyTx), l = pks'.map SignedTx.keyGenPublicKey from
          this l fun x hx => (hmem x).1 hx
        intro l
        induction l with
        | nil => intro _; exact ⟨[], rfl⟩
        | cons y ys ih =>
          intro hl
          obtain ⟨ps, rfl⟩ := ih fun x hx => hl x (by simp [hx])
          obtain ⟨p, _, rfl⟩ := List.mem_map.1 (hl y (by simp))
          exact ⟨p :: ps, rfl⟩
      obtain ⟨pks', rfl⟩ := this
      have hmem' : ∀ p, p ∈ pks' ↔ p ∈ pks := fun p => by
        have := hmem (.keyGenPublicKey p)
        simpa using this
      have hn' : pks'.Nodup := by
        have := idLt_nodup h3
        rw [List.map_map] at this
        exact List.Pairwise.of_map _ (fun a b h h' => h (by rw [h'])) this
      have hnp : pks.Nodup := List.Pairwise.of_map _ (fun a b h h' => h (by rw [h'])) hn
      have hperm : pks'.Perm pks := List.perm_ext_iff_of_nodup hn' hnp |>.2 hmem'
      exact ⟨pks', rfl, by rw [hperm.length_eq, a], fun tr htr => by
          obtain ⟨p, hp, h⟩ := b tr htr
          exact ⟨p, (hmem' p).2 hp, h⟩, fun p hp => c p ((hmem' p).1 hp)⟩
  · intro e pks hlen hn hall
    refine (perm_of_nodup_subset hn ?_ ?_).symm
    · intro x hx
      obtain ⟨tr, htr, rfl⟩ := List.mem_map.1 hx
      obtain ⟨p, hp, h1, h2⟩ := hall tr htr
      exact List.mem_map.2 ⟨p, hp, by rw [h1, h2]⟩
    · simp [hlen]

example : Lawful (MemStore.ofList Toy.complete).toStore := Toy.complete_ledger.lawful
example : Toy.encTx.validate Toy.env (MemStore.ofList (Toy.setup.take 7)).toStore = .ok () := by decide +kernel
/-- one public key missing -/
example : Toy.encTx.validate Toy.env (MemStore.ofList (Toy.setup.take 6)).toStore = .err .wrongNumberOfPublicKeyTransactions := by decide +kernel

/-! ## C16 -/

/-- The second election of the counterexample, with its own authority. -/
def foreignElection : SignedTx :=
  .election ⟨{ Toy.election with id := Toy.eid2, authorityPublic := Toy.key 2, trustees := [Toy.trustee 1 13], trusteesThreshold := 1 }, Toy.sig 2⟩

/-- A voting-end of the first election, signed by the authority of the second, which it names as its election. -/
def foreignEnd : SignedTx :=
  .votingEnd ⟨⟨Identifier.new Toy.eid .votingEnd none, Toy.eid2, Toy.key 2⟩, Toy.sig 2⟩

/-- An encryption key for the first election, published by the second election's authority. -/
def foreignKey : SignedTx :=
  .encryptionKey ⟨⟨Identifier.new Toy.eid .encryptionKey none, Toy.eid2, Toy.key 2, ⟨[66]⟩⟩, Toy.sig 2⟩

/-- the stranger's own keygen step -/
def foreignOwnPk : SignedTx :=
  .keyGenPublicKey ⟨⟨KeyGenPublicKeyTx.buildId Toy.eid2 1, Toy.eid2, 1, Toy.key 13, ⟨[66]⟩, ⟨[]⟩⟩, Toy.sig 13⟩

/-- A keygen slot of the first election filled by a trustee of the second. -/
def foreignPk : SignedTx :=
  .keyGenPublicKey ⟨⟨KeyGenPublicKeyTx.buildId Toy.eid 2, Toy.eid2, 1, Toy.key 13, ⟨[66]⟩, ⟨[]⟩⟩, Toy.sig 13⟩

/-- **C16 is false of the code**: whoever runs some election can end the voting, publish the encryption key and fill trustee slots of any other election; an
append-only history of accepted transactions is exhibited in which an election's voting-end slot is filled by a stranger. -/
theorem C16_elections_own_their_steps_false :
    ¬ ∀ (E : Env) (m : MemStore), Ledger E m → ∀ t, InStore m.toStore t → t.id.electionId = (electionOf t).electionId := by
  intro h
  have hl : Ledger Toy.env (MemStore.ofList [Toy.electionTx, foreignElection, foreignEnd, foreignPk, foreignOwnPk, foreignKey]) := ledger_of_run (by decide +kernel)
  have hin : InStore (MemStore.ofList [Toy.electionTx, foreignElection, foreignEnd, foreignPk, foreignOwnPk, foreignKey]).toStore foreignEnd := by rfl
  exact absurd (h _ _ hl _ hin) (by decide +kernel)

/-- … and the stranger's acts take effect: a valid vote is refused because "voting has ended". -/
example : (Toy.voteTx 31 "a").validate Toy.env (MemStore.ofList (Toy.setup ++ [foreignElection, foreignEnd])).toStore = .err .votingHasEnded ∧
    (Toy.voteTx 31 "a").validate Toy.env (MemStore.ofList (Toy.setup ++ [foreignElection])).toStore = .ok () := by
  decide +kernel

/-- **C16 (partial)** Election, vote, mix, partial-decryption and decryption transactions are filed in the id space of the election they name.  The other
transactions (commitment, share, public key, encryption key, voting end) are accepted against the election they *name*: its authority, resp. one of its
trustees, signed them.  Missing: that the id space they are filed in is that election's (false, see above). -/
theorem C16_elections_own_their_steps_partial (E : Env) (t : SignedTx) (S : Store) (h : t.validate E S = .ok ()) :
    (kindOf t ∈ [.election, .vote, .mix, .partialDecryption, .decryption] → t.id.electionId = (electionOf t).electionId) ∧
    (kindOf t ∈ [.encryptionKey, .votingEnd] → ∃ e, ElectionAt S (electionOf t) e ∧ signerOf t = some e.authorityPublic) ∧
    (kindOf t ∈ [.keyGenCommitment, .keyGenShare, .keyGenPublicKey] →
      ∃ e, ElectionAt S (electionOf t) e ∧ ∃ tr ∈ e.trustees, signerOf t = some tr.publicKey) := by
  obtain ⟨_, hsig, hin⟩ := SignedTx.validate_ok.1 h
  cases t with
  | election s => exact ⟨fun _ => rfl, by simp [kindOf], by simp [kindOf]⟩
  | keyGenCommitment s =>
    refine ⟨by simp [kindOf], by simp [kindOf], fun _ => ?_⟩
    obtain ⟨e, h1, tr, h2, _, h3⟩ := KeyGenCommitmentTx.validateTx_ok.1 hin
    exact ⟨e, h1, tr, h2, by simp [signerOf, h3]⟩
  | keyGenShare s =>
    refine ⟨by simp [kindOf], by simp [kindOf], fun _ => ?_⟩
    obtain ⟨e, h1, ⟨tr, h2, _, h3⟩, _⟩ := KeyGenShareTx.validateTx_ok.1 hin
    exact ⟨e, h1, tr, h2, by simp [signerOf, h3]⟩
  | keyGenPublicKey s =>
    refine ⟨by simp [kindOf], by simp [kindOf], fun _ => ?_⟩
    obtain ⟨e, h1, tr, h2, _, h3⟩ := KeyGenPublicKeyTx.validateTx_ok.1 hin
    exact ⟨e, h1, tr, h2, by simp [signerOf, h3]⟩
  | encryptionKey s =>
    refine ⟨by simp [kindOf], fun _ => ?_, by simp [kindOf]⟩
    obtain ⟨e, h1, h2, _⟩ := EncryptionKeyTx.validateTx_ok.1 hin
    exact ⟨e, h1, by simp [signerOf, h2]⟩
  | vote s =>
    refine ⟨fun _ => ?_, by simp [kindOf], by simp [kindOf]⟩
    obtain ⟨h1, _⟩ := VoteTx.validateTx_ok_store.1 hin
    show s.tx.id.electionId = _
    rw [h1]; rfl
  | votingEnd s =>
    refine ⟨by simp [kindOf], fun _ => ?_, by simp [kindOf]⟩
    obtain ⟨e, h1, h2⟩ := VotingEndTx.validateTx_ok.1 hin
    exact ⟨e, h1, by simp [signerOf, h2]⟩
  | mix s =>
    refine ⟨fun _ => ?_, by simp [kindOf], by simp [kindOf]⟩
    have hin : s.tx.validateTx E S = .ok () := hin
    simp only [MixTx.validateTx, Res.bind_def, Res.bind_eq_ok, Res.exists_unit, Res.failIf_eq_ok, bne_eq_false_iff_eq] at hin
    show s.tx.id.electionId = _
    rw [← hin.1]; rfl
  | partialDecryption s =>
    refine ⟨fun _ => ?_, by simp [kindOf], by simp [kindOf]⟩
    obtain ⟨e, _, _, h1, _⟩ := PartialDecryptionTx.validateTx_ok.1 hin
    show s.tx.id.electionId = _
    rw [h1]; rfl
  | decryption s =>
    refine ⟨fun _ => ?_, by simp [kindOf], by simp [kindOf]⟩
    have hin : s.tx.validateTx E S = .ok () := hin
    simp only [DecryptionTx.validateTx, Res.bind_def, Res.bind_eq_ok, Res.exists_unit, Res.failIf_eq_ok, bne_eq_false_iff_eq] at hin
    show s.tx.id.electionId = _
    rw [← hin.1]; rfl

example : Toy.endTx.validate Toy.env (MemStore.ofList Toy.setup).toStore = .ok () ∧ kindOf Toy.endTx = .votingEnd := by decide +kernel

end CB
