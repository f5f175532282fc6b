import Verif.Model.Validate
import Verif.Lemmas.MemStore
import Verif.Spec.Rules
/-!
# Exact acceptance conditions of the ten `validate_tx` functions
-/

namespace CB
open Spec

theorem Store.getElection_ok {S : Store} {id : Identifier} {s : Signed ElectionTx} :
    S.getElection id = .ok s ↔ S.getTransaction id = some (.election s) := by
  unfold Store.getElection
  split <;> simp_all

theorem Store.getKeygenPublicKey_ok {S : Store} {id : Identifier} {s : Signed KeyGenPublicKeyTx} :
    S.getKeygenPublicKey id = .ok s ↔ S.getTransaction id = some (.keyGenPublicKey s) := by
  unfold Store.getKeygenPublicKey
  split <;> simp_all

theorem Store.getVote_ok {S : Store} {id : Identifier} {s : Signed VoteTx} :
    S.getVote id = .ok s ↔ S.getTransaction id = some (.vote s) := by
  unfold Store.getVote
  split <;> simp_all

theorem Store.getMix_ok {S : Store} {id : Identifier} {s : Signed MixTx} :
    S.getMix id = .ok s ↔ S.getTransaction id = some (.mix s) := by
  unfold Store.getMix
  split <;> simp_all

theorem Store.getPartialDecryption_ok {S : Store} {id : Identifier} {s : Signed PartialDecryptionTx} :
    S.getPartialDecryption id = .ok s ↔ S.getTransaction id = some (.partialDecryption s) := by
  unfold Store.getPartialDecryption
  split <;> simp_all

theorem SignedTx.intoKeyGenPublicKey_ok {t : SignedTx} {s : Signed KeyGenPublicKeyTx} :
    t.intoKeyGenPublicKey = .ok s ↔ t = .keyGenPublicKey s := by cases t <;> simp [SignedTx.intoKeyGenPublicKey]
theorem SignedTx.intoEncryptionKey_ok {t : SignedTx} {s : Signed EncryptionKeyTx} :
    t.intoEncryptionKey = .ok s ↔ t = .encryptionKey s := by cases t <;> simp [SignedTx.intoEncryptionKey]
theorem SignedTx.intoMix_ok {t : SignedTx} {s : Signed MixTx} :
    t.intoMix = .ok s ↔ t = .mix s := by cases t <;> simp [SignedTx.intoMix]
theorem SignedTx.intoVote_ok {t : SignedTx} {s : Signed VoteTx} :
    t.intoVote = .ok s ↔ t = .vote s := by cases t <;> simp [SignedTx.intoVote]

theorem trusteeExists_iff {e : ElectionTx} {i : UInt8} {k : PublicKey} :
    trusteeExists e.trustees i k = true ↔ IsTrustee e i k := by
  simp [trusteeExists, IsTrustee, Subtype.ext_iff]

/-- a match on one stored election, in the form the spec uses -/
theorem exists_election {S : Store} {id : Identifier} {P : ElectionTx → Prop} :
    (∃ s : Signed ElectionTx, S.getTransaction id = some (.election s) ∧ P s.tx) ↔ ∃ e, ElectionAt S id e ∧ P e := by
  constructor
  · rintro ⟨⟨e, sig⟩, h, p⟩; exact ⟨e, ⟨sig, h⟩, p⟩
  · rintro ⟨e, ⟨sig, h⟩, p⟩; exact ⟨⟨e, sig⟩, h, p⟩

/-! ## Signature and type -/

theorem Signed.verifySignature_ok {T : Type} [CBTransaction T] {E : Env} {s : Signed T} :
    s.verifySignature E = .ok () ↔
      ∀ k, CBTransaction.pub s.tx = some k → E.edVerify k (CBTransaction.asBytes s.tx) s.sig = true := by
  unfold Signed.verifySignature
  split
  · rename_i k hk
    by_cases h : E.edVerify k (CBTransaction.asBytes s.tx) s.sig = true <;> simp [h, hk]
  · rename_i hk; simp [hk]

/-- `validate_tx` of the variant at hand. -/
def SignedTx.validateInner (E : Env) (t : SignedTx) (store : Store) : VRes Unit :=
  match t with
  | .election s => CBTransaction.validateTx E s.tx store
  | .keyGenCommitment s => CBTransaction.validateTx E s.tx store
  | .keyGenShare s => CBTransaction.validateTx E s.tx store
  | .keyGenPublicKey s => CBTransaction.validateTx E s.tx store
  | .encryptionKey s => CBTransaction.validateTx E s.tx store
  | .vote s => CBTransaction.validateTx E s.tx store
  | .votingEnd s => CBTransaction.validateTx E s.tx store
  | .mix s => CBTransaction.validateTx E s.tx store
  | .partialDecryption s => CBTransaction.validateTx E s.tx store
  | .decryption s => CBTransaction.validateTx E s.tx store

theorem SignedTx.verifySignature_ok {E : Env} {t : SignedTx} : t.verifySignature E = .ok () ↔ SignatureValid E t := by
  cases t <;> simp only [SignedTx.verifySignature, Signed.verifySignature_ok] <;> rfl

theorem SignedTx.validate_eq (E : Env) (t : SignedTx) (S : Store) :
    t.validate E S = (Res.failIf (t.id.txType != t.transactionType) .mismatchedTransactionType).bind
      fun _ => (t.verifySignature E).bind fun _ => t.validateInner E S := by
  cases t <;> rfl

theorem SignedTx.validate_ok {E : Env} {t : SignedTx} {S : Store} :
    t.validate E S = .ok () ↔ t.id.txType = t.transactionType ∧ SignatureValid E t ∧ t.validateInner E S = .ok () := by
  rw [validate_eq]
  simp [SignedTx.verifySignature_ok]

/-! ## Election -/

theorem ElectionTx.validateTx_ok {t : ElectionTx} :
    t.validateTx = .ok () ↔ t.id = ⟨t.id.electionId, .election, zero16⟩ ∧ t.trusteesThreshold.toNat ≤ t.trustees.length ∧
      t.authenticatorsThreshold.toNat ≤ t.authenticators.length % 256 := by
  simp only [validateTx, Res.bind_def, Res.bind_eq_ok, Res.exists_unit, Res.failIf_eq_ok, bne_eq_false_iff_eq, decide_eq_false_iff_not]
  rw [eq_comm]
  simp only [buildId, BArr.fill, zero16, GT.gt, Nat.not_lt, UInt8.lt_iff_toNat_lt, UInt8.toNat_ofNat']

/-! ## Key generation -/

theorem KeyGenCommitmentTx.validateTx_ok {t : KeyGenCommitmentTx} {S : Store} :
    t.validateTx S = .ok () ↔ ∃ e, ElectionAt S t.election e ∧ IsTrustee e t.trusteeIndex t.trusteePublicKey := by
  simp only [validateTx, Res.bind_def, Res.bind_eq_ok, Res.failIf_eq_ok, Store.getElection_ok, Bool.not_eq_false', trusteeExists_iff]
  exact exists_election (P := fun e => IsTrustee e _ _)

theorem KeyGenPublicKeyTx.validateTx_ok {t : KeyGenPublicKeyTx} {S : Store} :
    t.validateTx S = .ok () ↔ ∃ e, ElectionAt S t.election e ∧ IsTrustee e t.trusteeIndex t.trusteePublicKey := by
  simp only [validateTx, Res.bind_def, Res.bind_eq_ok, Res.failIf_eq_ok, Store.getElection_ok, Bool.not_eq_false', trusteeExists_iff]
  exact exists_election (P := fun e => IsTrustee e _ _)

theorem KeyGenShareTx.validateTx_ok {t : KeyGenShareTx} {S : Store} :
    t.validateTx S = .ok () ↔ ∃ e, ElectionAt S t.election e ∧ IsTrustee e t.trusteeIndex t.trusteePublicKey ∧
      t.shares.entries.length = e.trustees.length ∧ ∀ tr ∈ e.trustees, (t.shares.get tr.index).isSome := by
  simp only [validateTx, Res.bind_def, Res.bind_eq_ok, Res.failIf_eq_ok, Store.getElection_ok, Bool.not_eq_false', trusteeExists_iff,
    Res.exists_unit, Res.forEach_eq_ok, bne_eq_false_iff_eq, IndexMap.len, IndexMap.containsKey]
  exact exists_election (P := fun e => IsTrustee e t.trusteeIndex t.trusteePublicKey ∧ t.shares.entries.length = e.trustees.length ∧
    ∀ tr ∈ e.trustees, (t.shares.get tr.index).isSome = true)

theorem VotingEndTx.validateTx_ok {t : VotingEndTx} {S : Store} :
    t.validateTx S = .ok () ↔ ∃ e, ElectionAt S t.election e ∧ t.authorityPublicKey = e.authorityPublic := by
  simp only [validateTx, Res.bind_def, Res.bind_eq_ok, Res.failIf_eq_ok, Store.getElection_ok, bne_eq_false_iff_eq]
  exact exists_election (P := fun e => _ = e.authorityPublic)

/-- Scans of a lawful store. -/
theorem Spec.Lawful.getMultiple {S : Store} (h : Lawful S) (e : Identifier) (ty : TxType) :
    ∃ l, S.getMultiple e ty = .ok l ∧
      (∀ t, t ∈ l ↔ InStore S t ∧ t.id.electionId = e.electionId ∧ t.id.txType = ty) ∧ l.Pairwise IdLt := by
  obtain ⟨l, h1, h2, h3⟩ := h.range_ok _ _ (Identifier.start_le_end e.electionId ty)
  refine ⟨l, ?_, fun t => ?_, h3⟩
  · simp only [Store.getMultiple, Identifier.start_none, Identifier.end_none]
    exact h1
  · rw [h2, Identifier.between_iff]; rfl

theorem EncryptionKeyTx.validateTx_ok {t : EncryptionKeyTx} {S : Store} :
    t.validateTx S = .ok () ↔ ∃ e, ElectionAt S t.election e ∧ t.authorityPublicKey = e.authorityPublic ∧
      ∃ pks : List (Signed KeyGenPublicKeyTx), S.getMultiple t.election .keyGenPublicKey = .ok (pks.map .keyGenPublicKey) ∧
        pks.length = e.trustees.length ∧
        (∀ tr ∈ e.trustees, ∃ p ∈ pks, p.tx.trusteeIndex = tr.index ∧ p.tx.trusteePublicKey = tr.publicKey) ∧
        (∀ p ∈ pks, p.tx.publicKey = t.encryptionKey) := by
  simp only [validateTx, Res.bind_def, Res.bind_eq_ok, Res.failIf_eq_ok, Store.getElection_ok,
    Res.exists_unit, Res.forEach_eq_ok, bne_eq_false_iff_eq, Res.mapM'_eq_ok]
  constructor
  · rintro ⟨s, hs, ha, raw, hraw, pks, hpks, hl, h1, h2⟩
    have : raw = pks.map .keyGenPublicKey := by
      clear hraw hl h1 h2
      induction raw generalizing pks with
      | nil => cases pks <;> simp_all
      | cons r rs ih =>
        cases pks with
        | nil => simp at hpks
        | cons p ps =>
          simp only [List.map_cons, List.cons.injEq, SignedTx.intoKeyGenPublicKey_ok] at hpks
          rw [List.map_cons, hpks.1, ih ps hpks.2]
    subst this
    exact ⟨s.tx, ⟨s.sig, hs⟩, ha, pks, hraw, hl, by simpa [Subtype.ext_iff] using h1, h2⟩
  · rintro ⟨e, ⟨sig, hs⟩, ha, pks, hraw, hl, h1, h2⟩
    refine ⟨⟨e, sig⟩, hs, ha, _, hraw, pks, ?_, hl, by simpa [Subtype.ext_iff] using h1, h2⟩
    simp [List.map_map, Function.comp_def, SignedTx.intoKeyGenPublicKey]

/-! ## Vote -/

theorem Authenticator.verify_ok {E : Env} {a : Authenticator} {el : Identifier} {b : Str} {k : PublicKey} {sig : Bytes} :
    a.verify E el b k sig = .ok () ↔ ∃ key digest, a.publicKeys.get b = some key ∧
      E.rsaDigest key (AuthPackage.pack ⟨el, b, k⟩) = some digest ∧ E.rsaVerify key digest sig = true := by
  simp only [verify, Res.bind_def, Res.bind_eq_ok, Res.ofOption_eq_ok, AuthPackage.digest, Res.unwrap_eq_ok]
  constructor
  · rintro ⟨key, h1, d, h2, h3⟩
    refine ⟨key, d, h1, h2, ?_⟩
    by_cases h : E.rsaVerify key d sig = true
    · exact h
    · simp [h] at h3
  · rintro ⟨key, d, h1, h2, h3⟩
    exact ⟨key, h1, d, h2, by simp [h3]⟩

/-- The id (prefix of 10 key bytes, then zeros) that vote.rs:106-113 looks up. -/
def collisionId (election : Identifier) (k : PublicKey) : Identifier :=
  ⟨election.electionId, .vote, ⟨k.val.take 10 ++ List.replicate 6 0, by have := k.property; simp; omega⟩⟩

theorem start_collision {ε : Type} (e : Identifier) (k : PublicKey) :
    (Identifier.start e .vote (some (k.val.take 10)) : Res ε Identifier) = .ok (collisionId e k) := by
  have hk := k.property
  have : (k.val.take 10).length = 10 := by simp; omega
  unfold Identifier.start Identifier.maskInto
  simp only [Option.getD_some]
  rw [dif_pos (by omega)]
  simp only [Res.ok_bind, collisionId]
  congr 2
  apply Subtype.ext
  simp only [setSlice, List.take_zero, List.nil_append, this, List.drop_replicate, Nat.zero_add]

theorem VoteTx.validateTx_ok_store {E : Env} {v : VoteTx} {S : Store} :
    v.validateTx E S = .ok () ↔
      v.id = VoteTx.buildId v.election v.anonymousKey ∧ ∃ e, ElectionAt S v.election e ∧
      S.range (collisionId v.election v.anonymousKey) (collisionId v.election v.anonymousKey) = .ok [] ∧
      SlotFilled S v.election .encryptionKey ∧ ¬ SlotFilled S v.election .votingEnd ∧
      (∀ a ∈ v.authentication, ∃ au, e.getAuthenticator a.authenticator = some au ∧
        au.verify E e.id v.ballotId v.anonymousKey a.signature = .ok ()) ∧
      ∃ b, e.getBallot v.ballotId = some b ∧ ∀ ev ∈ v.encryptedVotes, ev.contestIndex ∈ b.contests := by
  simp only [validateTx, Res.bind_def, Res.bind_eq_ok, Res.exists_unit, Res.failIf_eq_ok, Store.getElection_ok, bne_eq_false_iff_eq,
    start_collision, Res.ok_bind, Res.forEach_eq_ok, Res.ofOption_eq_ok, Res.mapErr_eq_ok, decide_eq_false_iff_not, Bool.not_eq_false',
    List.contains_iff_mem]
  rw [eq_comm]
  have hk : (S.getTransaction (Identifier.new v.election .encryptionKey none)).isNone = false ↔ SlotFilled S v.election .encryptionKey := by
    show (S.getTransaction (singleId v.election .encryptionKey)).isNone = false ↔ _
    simp only [SlotFilled]
    cases S.getTransaction (singleId v.election .encryptionKey) <;> simp
  have hv : (S.getTransaction (Identifier.new v.election .votingEnd none)).isSome = false ↔ ¬ SlotFilled S v.election .votingEnd := by
    show (S.getTransaction (singleId v.election .votingEnd)).isSome = false ↔ _
    simp only [SlotFilled]
    cases S.getTransaction (singleId v.election .votingEnd) <;> simp
  rw [hk, hv]
  refine and_congr_right fun _ => ?_
  constructor
  · rintro ⟨s, hs, l, hl, hl0, h1, h2, h3, b, hb, h4⟩
    have : l = [] := by cases l <;> simp_all
    subst this
    exact ⟨s.tx, ⟨s.sig, hs⟩, hl, h1, h2, h3, b, hb, h4⟩
  · rintro ⟨e, ⟨sig, hs⟩, hl, h1, h2, h3, b, hb, h4⟩
    exact ⟨⟨e, sig⟩, hs, [], hl, by simp, h1, h2, h3, b, hb, h4⟩

theorem idLe_antisymm {a b : Identifier} (h1 : IdLe a b) (h2 : IdLe b a) : a = b := by
  rcases h1 with h1 | h1
  · rcases h2 with h2 | h2
    · rw [Identifier.cmp_eq_cmpBytes] at h1 h2
      have := cmpBytes_lt_trans h1 h2
      rw [cmpBytes_refl] at this; cases this
    · exact h2.symm
  · exact h1

theorem Spec.Lawful.range_self {S : Store} (h : Lawful S) (a : Identifier) : S.range a a = .ok [] ↔ S.getTransaction a = none := by
  obtain ⟨l, h1, h2, _⟩ := h.range_ok a a (.inr rfl)
  rw [h1]
  constructor
  · intro hl
    cases hl
    cases hg : S.getTransaction a with
    | none => rfl
    | some t =>
      have := h.keyed a t hg
      subst this
      exact absurd ((h2 t).2 ⟨hg, .inr rfl, .inr rfl⟩) (by simp)
  · intro hn
    cases l with
    | nil => rfl
    | cons t ts =>
      obtain ⟨g, g1, g2⟩ := (h2 t).1 (by simp)
      rw [idLe_antisymm g2 g1, hn] at g
      cases g

theorem VoteTx.validateTx_ok {E : Env} {v : VoteTx} {S : Store} (h : Lawful S) :
    v.validateTx E S = .ok () ↔
      v.id = VoteTx.buildId v.election v.anonymousKey ∧ ∃ e, ElectionAt S v.election e ∧
      S.getTransaction (collisionId v.election v.anonymousKey) = none ∧
      SlotFilled S v.election .encryptionKey ∧ ¬ SlotFilled S v.election .votingEnd ∧
      (∀ a ∈ v.authentication, ∃ au, e.getAuthenticator a.authenticator = some au ∧
        au.verify E e.id v.ballotId v.anonymousKey a.signature = .ok ()) ∧
      ∃ b, e.getBallot v.ballotId = some b ∧ ∀ ev ∈ v.encryptedVotes, ev.contestIndex ∈ b.contests := by
  rw [validateTx_ok_store]
  simp only [h.range_self]

end CB
