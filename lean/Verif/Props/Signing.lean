import Verif.Lemmas.Ledger
import Verif.Examples.Toy
/-!
# C09–C11: types and signatures of accepted transactions
-/

namespace CB
open Spec

theorem kindOf_eq (t : SignedTx) : kindOf t = t.transactionType := by cases t <;> rfl

/-- **C09** The type in the id of an accepted transaction is its own kind.  In a store filled with accepted transactions every type scan
succeeds, yields only transactions of that kind, and converting them never panics. -/
theorem C09_no_type_confusion (E : Env) :
    (∀ (t : SignedTx) (S : Store), t.validate E S = .ok () → t.id.txType = kindOf t) ∧
    (∀ m, Replay E m → ∀ (e : Identifier) (ty : TxType), ∃ l, m.toStore.getMultiple e ty = .ok l ∧
      ∀ t ∈ l, kindOf t = ty ∧ Converts t ty) := by
  constructor
  · intro t S h
    rw [kindOf_eq]
    exact (SignedTx.validate_ok.1 h).1
  · intro m hm e ty
    obtain ⟨l, h1, h2, _⟩ := hm.lawful.getMultiple e ty
    refine ⟨l, h1, fun t ht => ?_⟩
    obtain ⟨hs, _, hty⟩ := (h2 t).1 ht
    have := hm.typed hs
    rw [hty] at this
    subst this
    refine ⟨kindOf_eq t, ?_⟩
    cases t <;> exact ⟨_, rfl⟩

example : Replay Toy.env (MemStore.ofList Toy.complete) := Toy.complete_ledger.replay
example : ∃ l, (MemStore.ofList Toy.complete).toStore.getMultiple Toy.eid .vote = .ok l ∧ l.length = 2 :=
  ⟨[Toy.voteTx 31 "a", Toy.voteTx 32 "b"], by rfl, rfl⟩

/-- **C10** An accepted transaction is signed, by exactly the key it names, over exactly its own serialization.  A decryption names no key and its
signature field is irrelevant. -/
theorem C10_accepted_means_signed (E : Env) (t : SignedTx) (S : Store) (h : t.validate E S = .ok ()) :
    (∀ key, signerOf t = some key → E.edVerify key (signedBytes t) (signatureOf t) = true) ∧
    (signerOf t = none ↔ kindOf t = .decryption) ∧
    (∀ d sig sig', t = .decryption ⟨d, sig⟩ → (SignedTx.decryption ⟨d, sig'⟩).validate E S = .ok ()) := by
  obtain ⟨h1, h2, h3⟩ := SignedTx.validate_ok.1 h
  refine ⟨h2, by cases t <;> simp [signerOf, kindOf], ?_⟩
  rintro d sig sig' rfl
  exact SignedTx.validate_ok.2 ⟨h1, by simp [SignatureValid, signerOf], h3⟩

example : (Toy.electionTx).validate Toy.env MemStore.empty.toStore = .ok () ∧ signerOf Toy.electionTx = some (Toy.key 1) := by decide +kernel
/-- the same election with a signature by another key is refused -/
example : (SignedTx.election ⟨Toy.election, Toy.sig 2⟩).validate Toy.env MemStore.empty.toStore = .err .signatureError := by decide +kernel

/-- **C11** `Signed::sign` succeeds exactly when the secret key belongs to the key the transaction names (or it names none); it leaves the transaction
alone and, signatures being correct, its result verifies. -/
theorem C11_sign_then_verify {T : Type} [CBTransaction T] (E : Env) (hE : SignCorrect E) (sk : SecretKey) (tx : T) :
    ((∃ s, Signed.sign E sk tx = .ok s) ↔ ∀ key, CBTransaction.pub tx = some key → E.edPublic sk = key) ∧
    (∀ s, Signed.sign E sk tx = .ok s → s.tx = tx ∧ s.verifySignature E = .ok ()) ∧
    (∀ e, Signed.sign E sk tx ≠ .panic e) := by
  unfold Signed.sign
  cases hp : CBTransaction.pub tx with
  | none =>
    refine ⟨by simp, ?_, by simp⟩
    simp only
    rintro s hs
    cases hs
    exact ⟨rfl, Signed.verifySignature_ok.2 (by simp [hp])⟩
  | some k =>
    simp only
    by_cases hk : E.edPublic sk = k
    · subst hk
      refine ⟨by simp, ?_, by simp⟩
      simp only [ne_eq, not_true_eq_false, if_false, Res.ok.injEq]
      rintro s rfl
      refine ⟨rfl, Signed.verifySignature_ok.2 ?_⟩
      intro k hk
      simp only [hp, Option.some.injEq] at hk
      subst hk
      exact hE _ _
    · refine ⟨by simp [hk], ?_, by simp [hk]⟩
      simp [hk]

theorem toy_signCorrect (c : Bool) : SignCorrect (Toy.env c) := by
  intro sk msg
  simp [Toy.env]

example : (Signed.sign Toy.env (Toy.key 1) Toy.election).bind (fun s => s.verifySignature Toy.env |>.mapErr fun _ => .mismatchedPublicKeys) = .ok () ∧
    (∃ e, Signed.sign Toy.env (Toy.key 2) Toy.election = .err e) := by
  refine ⟨by decide +kernel, .mismatchedPublicKeys, ?_⟩
  have : (Toy.env).edPublic (Toy.key 2) ≠ Toy.key 1 := by decide +kernel
  simp only [Signed.sign]
  exact if_pos this

end CB
