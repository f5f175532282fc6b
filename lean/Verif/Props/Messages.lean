import Verif.Spec.Messages
import Verif.Lemmas.Messages
import Verif.Props.Errors
import Verif.Props.E2e
import Verif.Props.Exonum
/-!
# C111: what is printed about a refusal says which transaction is at fault and why
-/

namespace CB
open Spec

theorem sep_space (s : Str) : ∀ b, ((32 : UInt8) :: s).head? = some b → Json.isDigit b = false := by intro b h; cases h; decide
theorem sep_comma (s : Str) : ∀ b, ((44 : UInt8) :: s).head? = some b → Json.isDigit b = false := by intro b h; cases h; decide
theorem sep_nil : ∀ b, ([] : Str).head? = some b → Json.isDigit b = false := by intro b h; cases h

theorem share_text : str " share is missing)" = 32 :: str "share is missing)" := by decide +kernel
theorem found_text : str " cannot be found)" = 32 :: str "cannot be found)" := by decide +kernel
theorem comma_text : str ", found " = 44 :: str " found " := by decide +kernel
theorem index_text : str "cryptoballot validation: trustee with index " = str "cryptoballot validation: trustee " ++ (119 :: str "ith index ") := by decide +kernel
theorem mismatch_text : str "cryptoballot validation: trustee public key mismatch for trustee " =
    str "cryptoballot validation: trustee " ++ (112 :: str "ublic key mismatch for trustee ") := by decide +kernel
theorem vote_text : str "cryptoballot: vote decryption failed: decrypted vote mismatch" =
    str "cryptoballot: vote decryption failed: " ++ str "decrypted vote mismatch" := by decide +kernel

/-- **C111** Different reasons for refusing a transaction have different texts, down to the numbers and ids in them. -/
theorem C111_texts_differ (T : Texts) (hT : Distinct T) (e e' : ValErr) (h : e.text T = e'.text T) : e = e' := by
  have hpair : ∀ e e' : ValErr, (e.ctorIdx, e'.ctorIdx) ∈ alike → e.text T ≠ e'.text T := by
    intro e e' hm ht
    simp only [alike, List.mem_cons, Prod.mk.injEq, List.not_mem_nil, or_false] at hm
    cases e <;> try (exfalso; revert hm; simp [ValErr.ctorIdx]; done)
    all_goals
      cases e' <;> try (exfalso; revert hm; simp [ValErr.ctorIdx]; done)
    all_goals clear hm; simp only [ValErr.text] at ht
    · rw [mismatch_text, List.append_assoc, List.append_cancel_left_eq] at ht
      exact decimal_ne_letter (by decide) ht
    · rw [index_text, List.append_assoc, List.append_cancel_left_eq] at ht
      exact decimal_ne_letter (by decide) ht
    · rename_i i j
      rw [List.append_cancel_left_eq, share_text, found_text] at ht
      have := (decimal_inj (sep_space _) (sep_space _) ht).2
      revert this
      decide +kernel
    · rw [mismatch_text, List.append_assoc, List.append_cancel_left_eq] at ht
      exact decimal_ne_letter (by decide) ht
    · rw [index_text, List.append_assoc, List.append_cancel_left_eq] at ht
      exact decimal_ne_letter (by decide) ht
    · rw [vote_text, List.append_cancel_left_eq] at ht
      exact hT.2 _ ht
  rcases kinds_of_text T h with hk | hk | hk
  · cases e <;> cases e' <;> first
      | exact absurd hk (Nat.ne_of_beq_eq_false rfl)
      | rfl
      | skip
    all_goals clear hk; simp only [ValErr.text, List.append_cancel_left_eq] at h
    · rename_i i j
      rw [decimal_byte_inj (i := i) (j := j) (r := []) (by rw [h])]
    · rw [decimal_byte_inj h]
    · rw [decimal_byte_inj h]
    · rw [decimal_byte_inj h]
    · rw [decimal_byte_inj h]
    · rw [decimal_byte_inj h]
    · rw [hT.1 _ _ h]
    · rw [comma_text] at h
      obtain ⟨h1, h2⟩ := decimal_inj (sep_comma _) (sep_comma _) h
      rename_i n f n' f'
      have h2 : decimal f ++ [] = decimal f' ++ [] := by
        rw [List.append_nil, List.append_nil]
        exact List.append_cancel_left (List.cons.inj h2).2
      obtain ⟨h3, _⟩ := decimal_inj sep_nil sep_nil h2
      rw [h1, h3]
    · obtain ⟨h1, h2⟩ := notFound_inj rfl h
      rw [h1, h2]
  · exact absurd h (hpair _ _ hk)
  · exact absurd h.symm (hpair _ _ hk)

/-- The texts of the libraries do differ, for example when they are numbered. -/
example : Distinct ⟨fun e => List.replicate e.code 33, str "signature", str "decoding", str "parsing"⟩ := by
  refine ⟨fun ⟨a⟩ ⟨b⟩ h => ?_, fun e h => ?_⟩
  · have := congrArg List.length h
    simp only [List.length_replicate] at this
    rw [this]
  · have h1 : (100 : UInt8) ∈ List.replicate e.code 33 := by
      have h : List.replicate e.code 33 = str "decrypted vote mismatch" := h
      rw [h]; decide +kernel
    exact absurd (List.eq_of_mem_replicate h1) (by decide)
example : (ValErr.notEnoughShares 3 2).text ⟨fun _ => [], [], [], []⟩ = str "cryptoballot: not enough secret shares: need 3, found 2" := by decide +kernel
example : (ValErr.trusteeShareMissing 12).text ⟨fun _ => [], [], [], []⟩ = str "cryptoballot validation: trustee 12 share is missing)" := by
  decide +kernel

/-! ## The end-to-end command -/

theorem replay_err {E : Env} {txs : List SignedTx} {m : MemStore} {x : E2e.Exit} (h : E2e.replay E m txs = .err x) :
    ∃ before t after e, txs = before ++ t :: after ∧ x = .invalid t.id e ∧ t.validate E (before.foldl MemStore.set m).toStore = .err e ∧
      E2e.replay E m before = .ok (before.foldl MemStore.set m) := by
  induction txs generalizing m with
  | nil => cases h
  | cons y ys ih =>
    rw [E2e.replay, Res.bind_eq_err] at h
    rcases h with h | ⟨_, hy, h⟩
    · rw [Res.mapErr_eq_err] at h
      obtain ⟨e, h, rfl⟩ := h
      exact ⟨[], y, ys, e, rfl, rfl, h, rfl⟩
    · obtain ⟨b, t, a, e, rfl, rfl, h1, h2⟩ := ih h
      refine ⟨y :: b, t, a, e, rfl, rfl, h1, ?_⟩
      rw [E2e.replay, hy]
      exact h2

theorem verify_err {E : Env} {txs : List SignedTx} {x : E2e.Exit} (h : E2e.verify E txs = .err x) :
    x = .noTransactions ∨ x = .notAnElection ∨ ∃ before t after e, txs = before ++ t :: after ∧ x = .invalid t.id e ∧
      Replay E (MemStore.ofList before) ∧ (∀ b u a, before = b ++ u :: a → u.validate E (MemStore.ofList b).toStore = .ok ()) ∧
      t.validate E (MemStore.ofList before).toStore = .err e := by
  cases txs with
  | nil => cases h; exact .inl rfl
  | cons y ys =>
    rw [E2e.verify, Res.bind_eq_err] at h
    rcases h with h | ⟨_, hy, h⟩
    · rw [Res.failIf_eq_err] at h
      exact .inr (.inl h.2.symm)
    · obtain ⟨b, t, a, e, hb, hx, h1, h2⟩ := replay_err h
      refine .inr (.inr ⟨b, t, a, e, hb, hx, ?_, (E2e.replay_ok.1 h2).2, h1⟩)
      cases b with
      | nil => exact .empty
      | cons z zs =>
        rw [List.cons_append] at hb
        cases hb
        refine E2e.replay_of_verify (txs := y :: zs) ?_
        rw [E2e.verify, hy]
        exact h2

theorem failed_text : str "Failed to validate transaction " = 70 :: str "ailed to validate transaction " := by decide +kernel

/-- **C111** What the end-to-end command prints when it fails says which transaction is at fault and why: whatever answers of nodes two people got, if the
command prints the same to both, then it stopped at the same check, and if a transaction was refused, both answers have a transaction of the same id that is
refused for the same reason against the transactions before it, all of which are acceptable. -/
theorem C111_verifier_is_told (E : Env) (T : Texts) (hT : Distinct T) (txs txs' : List SignedTx) (message : Str)
    (h : Prints E T txs message) (h' : Prints E T txs' message) :
    (txs = [] ∧ txs' = []) ∨ (∃ x xs y ys, txs = x :: xs ∧ txs' = y :: ys ∧ kindOf x ≠ .election ∧ kindOf y ≠ .election) ∨
    ∃ e b t a b' t' a', txs = b ++ t :: a ∧ txs' = b' ++ t' :: a' ∧ t.id = t'.id ∧
      Replay E (MemStore.ofList b) ∧ Replay E (MemStore.ofList b') ∧
      t.validate E (MemStore.ofList b).toStore = .err e ∧ t'.validate E (MemStore.ofList b').toStore = .err e ∧
      (Fault E (MemStore.ofList b).toStore t e ∨ Misleading (MemStore.ofList b).toStore t e) := by
  obtain ⟨x, hx, hm⟩ := h
  obtain ⟨y, hy, hm'⟩ := h'
  have hnone : ∀ {l}, E2e.verify E l = .err .noTransactions → l = [] := by
    intro l h
    cases l with
    | nil => rfl
    | cons z zs =>
      rw [E2e.verify, Res.bind_eq_err] at h
      rcases h with h | ⟨_, _, h⟩
      · rw [Res.failIf_eq_err] at h; cases h.2
      · obtain ⟨_, _, _, _, _, hx, _⟩ := replay_err h
        cases hx
  have hnot : ∀ {l}, E2e.verify E l = .err .notAnElection → ∃ x xs, l = x :: xs ∧ kindOf x ≠ .election := by
    intro l h
    cases l with
    | nil => cases h
    | cons z zs =>
      rw [E2e.verify, Res.bind_eq_err] at h
      rcases h with h | ⟨_, _, h⟩
      · rw [Res.failIf_eq_err] at h
        exact ⟨z, zs, rfl, by rw [kindOf_eq]; simpa using h.1⟩
      · obtain ⟨_, _, _, _, _, hx, _⟩ := replay_err h
        cases hx
  have hfail : ∀ (id : Identifier) (e : ValErr) (c : UInt8) (s : Str), c ≠ 70 → (E2e.Exit.invalid id e).message T ≠ c :: s := by
    intro id e c s hc h
    simp only [E2e.Exit.message, failed_text, List.cons_append, List.cons.injEq] at h
    exact hc h.1.symm
  have h1 : (E2e.Exit.noTransactions).message T = 78 :: str "o Transactions present" := by
    show str "No Transactions present" = _
    decide +kernel
  have h2 : (E2e.Exit.notAnElection).message T = 70 :: str "rist transaction must be an election transaction" := by
    show str "Frist transaction must be an election transaction" = _
    decide +kernel
  have h3 : ∀ (id : Identifier) (e : ValErr), (E2e.Exit.invalid id e).message T ≠ 70 :: str "rist transaction must be an election transaction" := by
    intro id e h
    simp only [E2e.Exit.message, failed_text, List.cons_append, List.cons.injEq, true_and] at h
    have ha : str "ailed to validate transaction " = 97 :: str "iled to validate transaction " := by decide +kernel
    have hr : str "rist transaction must be an election transaction" = 114 :: str "ist transaction must be an election transaction" := by decide +kernel
    rw [ha, hr, List.cons_append] at h
    cases h
  have h12 : (78 :: str "o Transactions present" : Str) ≠ 70 :: str "rist transaction must be an election transaction" := by decide +kernel
  rw [← hm] at hm'
  rcases verify_err hx with rfl | rfl | ⟨b, t, a, e, hb, rfl, hr, _, hv⟩
  · rcases verify_err hy with rfl | rfl | ⟨b', t', a', e', hb', rfl, hr', _, hv'⟩
    · exact .inl ⟨hnone hx, hnone hy⟩
    · rw [h1, h2] at hm'; exact absurd hm'.symm h12
    · rw [h1] at hm'; exact absurd hm' (hfail _ _ _ _ (by decide))
  · rcases verify_err hy with rfl | rfl | ⟨b', t', a', e', hb', rfl, hr', _, hv'⟩
    · rw [h1, h2] at hm'; exact absurd hm' h12
    · obtain ⟨x, xs, hl, hk⟩ := hnot hx
      obtain ⟨y, ys, hl', hk'⟩ := hnot hy
      exact .inr (.inl ⟨x, xs, y, ys, hl, hl', hk, hk'⟩)
    · rw [h2] at hm'; exact absurd hm' (h3 _ _)
  · rcases verify_err hy with rfl | rfl | ⟨b', t', a', e', hb', rfl, hr', _, hv'⟩
    · rw [h1] at hm'; exact absurd hm'.symm (hfail _ _ _ _ (by decide))
    · rw [h2] at hm'; exact absurd hm'.symm (h3 _ _)
    · simp only [E2e.Exit.message, List.append_cancel_left_eq] at hm'
      obtain ⟨hid, hrest⟩ := List.append_inj hm' (by rw [Identifier.toString_length, Identifier.toString_length])
      rw [List.append_cancel_left_eq] at hrest
      have he := C111_texts_differ T hT _ _ hrest
      subst he
      exact .inr (.inr ⟨_, b, t, a, b', t', a', hb, hb', (Identifier.toString_injective hid).symm, hr, hr', hv, hv',
        C110_reasons_are_true_partial E _ hr t _ hv⟩)

/-- An answer of a node on which the command fails: the election and a vote that comes too early. -/
example (T : Texts) : Prints Toy.env T [Toy.electionTx, Toy.voteTx 33 "a"]
    (str "Failed to validate transaction " ++ ((Toy.voteTx 33 "a").id.toString ++ (str ": " ++ str "cryptoballot: encryption_key transaction not does yet exist"))) :=
  ⟨.invalid (Toy.voteTx 33 "a").id .encryptionKeyTransactionDoesNotExist, rfl, rfl⟩

/-! ## Sawtooth -/

theorem no_space_in_name (t : TxType) : (32 : UInt8) ∉ t.name := by cases t <;> decide +kernel

theorem append_space_inj {a b r s : Str} (ha : (32 : UInt8) ∉ a) (hb : (32 : UInt8) ∉ b) (h : a ++ 32 :: r = b ++ 32 :: s) : a = b ∧ r = s := by
  induction a generalizing b with
  | nil =>
    cases b with
    | nil => cases h; exact ⟨rfl, rfl⟩
    | cons c b => cases h; exact absurd (List.mem_cons_self) hb
  | cons x a ih =>
    cases b with
    | nil => cases h; exact absurd (List.mem_cons_self) ha
    | cons c b =>
      simp only [List.cons_append, List.cons.injEq] at h
      obtain ⟨h1, h2⟩ := ih (fun hm => ha (List.mem_cons_of_mem _ hm)) (fun hm => hb (List.mem_cons_of_mem _ hm)) h.2
      rw [h.1, h1, h2]
      exact ⟨rfl, rfl⟩

/-- **C111** The Sawtooth processor's answer says which transaction it refused, of which type, and why. -/
theorem C111_sender_is_told (E : Env) (T : Texts) (hT : Distinct T) (pre : Str) (s s' : Sawtooth.State) (t t' : SignedTx) (message : Str)
    (h : Answers E T pre s t message) (h' : Answers E T pre s' t' message) :
    t.id = t'.id ∧ kindOf t = kindOf t' ∧
      ∃ x, Sawtooth.validateTransaction E pre s t = .err x ∧ Sawtooth.validateTransaction E pre s' t' = .err x := by
  obtain ⟨x, hx, hm⟩ := h
  obtain ⟨y, hy, hm'⟩ := h'
  rw [← hm] at hm'
  have hparse : ∀ {s : Sawtooth.State} {t : SignedTx}, Sawtooth.validateTransaction E pre s t ≠ .err .cannotParse := by
    intro s t h
    cases t <;>
      (simp only [Sawtooth.validateTransaction, Res.bind_eq_err, Res.failIf_eq_err, Res.mapErr_eq_err, reduceCtorEq, and_false, false_or] at h; simp at h)
  have hsp : str " " = [32] := by decide +kernel
  have key : ∀ {p q : Str}, str "error validating " ++ (t'.transactionType.name ++ (str " " ++ (t'.id.toString ++ (str ": " ++ q)))) =
      str "error validating " ++ (t.transactionType.name ++ (str " " ++ (t.id.toString ++ (str ": " ++ p)))) →
      t.id = t'.id ∧ kindOf t = kindOf t' ∧ q = p := by
    intro p q h
    rw [List.append_cancel_left_eq, hsp] at h
    obtain ⟨h1, h2⟩ := append_space_inj (no_space_in_name _) (no_space_in_name _) h
    obtain ⟨h3, h4⟩ := List.append_inj (s₁ := t'.id.toString) (s₂ := t.id.toString) h2 (by rw [Identifier.toString_length, Identifier.toString_length])
    rw [List.append_cancel_left_eq] at h4
    exact ⟨(Identifier.toString_injective h3).symm, by rw [kindOf_eq, kindOf_eq]; exact (name_injective h1).symm, h4⟩
  have hd : ∀ (e : ValErr) (r : Str), str "state error: transaction " ++ r ≠ str "validation error: " ++ e.text T := by
    intro e r h
    have h1 : str "state error: transaction " = 115 :: str "tate error: transaction " := by decide +kernel
    have h2 : str "validation error: " = 118 :: str "alidation error: " := by decide +kernel
    rw [h1, h2] at h
    cases h
  cases x with
  | cannotParse => exact absurd hx hparse
  | alreadyExists =>
    cases y with
    | cannotParse => exact absurd hy hparse
    | alreadyExists =>
      obtain ⟨h1, h2, _⟩ := key hm'
      exact ⟨h1, h2, _, hx, hy⟩
    | validation e =>
      obtain ⟨_, _, h⟩ := key hm'
      exact absurd h.symm (hd _ _)
  | validation e =>
    cases y with
    | cannotParse => exact absurd hy hparse
    | alreadyExists =>
      obtain ⟨_, _, h⟩ := key hm'
      exact absurd h (hd _ _)
    | validation e' =>
      obtain ⟨h1, h2, h⟩ := key hm'
      rw [List.append_cancel_left_eq] at h
      cases C111_texts_differ T hT _ _ h
      exact ⟨h1, h2, _, hx, hy⟩

example (T : Texts) : Answers Toy.env T (str "cb") .empty (Toy.voteTx 33 "a")
    ((Sawtooth.Error.validation (.transactionNotFound Toy.eid .election)).message T (Toy.voteTx 33 "a")) := ⟨_, by decide +kernel, rfl⟩

/-! ## Exonum -/

/-- **C111 is false of the code**: whoever submits a transaction to the Exonum ledger is not told why it is refused; the answer is the same for a vote before
the encryption key, a vote for an election that does not exist, and everything else. -/
theorem C111_exonum_tells_why_false :
    ¬ ∀ (E : Env) (s s' : Exonum.Schema) (t t' : SignedTx) (e e' : ValErr) (x : Exonum.Error),
      t.validate E (Exonum.toStore s) = .err e → t'.validate E (Exonum.toStore s') = .err e' →
      Exonum.verifyAndStore E s (Exonum.Envelope.ofTx t) = .err x → Exonum.verifyAndStore E s' (Exonum.Envelope.ofTx t') = .err x → e = e' := by
  intro h
  have hd : SignedTx.fromBytes (Exonum.Envelope.ofTx (Toy.voteTx 31 "a")).data = .ok (Toy.voteTx 31 "a") :=
    (Exonum.C37_envelope_roundtrip (Toy.voteTx 31 "a") (toy_rustData _ (List.mem_of_getElem? (i := 8) rfl))).1
  have h1 : (Toy.voteTx 31 "a").validate Toy.env (Exonum.toStore OMap.empty) = .err (.transactionNotFound Toy.eid .election) := by decide +kernel
  have h2 : (Toy.voteTx 31 "a").validate Toy.env (Exonum.toStore (Exonum.deliverAll Toy.env OMap.empty [Exonum.Envelope.ofTx Toy.electionTx])) =
      .err .encryptionKeyTransactionDoesNotExist := by decide +kernel
  have hg : (Exonum.deliverAll Toy.env OMap.empty [Exonum.Envelope.ofTx Toy.electionTx]).get (Exonum.Envelope.ofTx (Toy.voteTx 31 "a")).id = none := by
    decide +kernel
  have h3 : Exonum.verifyAndStore Toy.env OMap.empty (Exonum.Envelope.ofTx (Toy.voteTx 31 "a")) = .err .verificationFailed := by
    rw [Exonum.verifyAndStore, if_neg (by decide +kernel), hd]
    simp only [Res.mapErr, Res.bind, h1]
  have h4 : Exonum.verifyAndStore Toy.env (Exonum.deliverAll Toy.env OMap.empty [Exonum.Envelope.ofTx Toy.electionTx])
      (Exonum.Envelope.ofTx (Toy.voteTx 31 "a")) = .err .verificationFailed := by
    rw [Exonum.verifyAndStore, if_neg (by rw [hg]; decide), hd]
    simp only [Res.mapErr, Res.bind, h2]
  cases h Toy.env _ _ _ _ _ _ _ h1 h2 h3 h4

end CB
