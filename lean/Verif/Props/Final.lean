import Verif.Lemmas.Final
/-!
# C112: which refusals are final
-/

namespace CB
open Spec

/-- **C112** A transaction that is refused for any reason but the nine of `Passing` is never accepted later, whatever is accepted in between: there is no
point in sending it again. -/
theorem C112_refusals_are_final (E : Env) (m m' : MemStore) (hm : Replay E m) (hm' : Replay E m') (hx : Extends m m') (t : SignedTx) (e : ValErr)
    (h : t.validate E m.toStore = .err e) (hp : ¬ Passing e) : t.validate E m'.toStore ≠ .ok () := by
  intro hok
  have hk : Keeps m.toStore m'.toStore := hx
  have hty := (SignedTx.validate_ok.1 hok).1
  have hsig := (SignedTx.validate_ok.1 hok).2.1
  have hin := (SignedTx.validate_ok.1 hok).2.2
  have hval := C110_reasons_are_true_partial E m hm t e h
  rw [SignedTx.validate_eq] at h
  simp only [Res.bind_eq_err, Res.failIf_eq_err, bne_iff_ne] at h
  rcases h with ⟨h, _⟩ | ⟨_, _, h | ⟨_, _, h⟩⟩
  · exact h hty
  · rw [SignedTx.verifySignature_ok.2 hsig] at h
    cases h
  · have fin : kindOf t ≠ .vote → kindOf t ≠ .mix → (∀ i, e ≠ .missingKeyGenPublicKeyTransaction i) → Fault E m.toStore t e → False := by
      intro h1 h2 h3 hf
      refine C110_faults_refuse_partial E m' hm' t e (fault_stays hk hf hp h1 h2 h3) ?_ (fun h => absurd h h2) (fun h => absurd h h1) hok
      rintro rfl
      cases hf
      exact h1 rfl
    cases t with
    | election s =>
      have h : s.tx.validateTx = .err e := h
      rw [show s.tx.validateTx = .ok () from hin] at h
      cases h
    | vote s => exact final_vote hm hm' hk h hp hin
    | mix s => exact final_mix hm hm' hk h hp hin
    | encryptionKey s =>
      by_cases h3 : ∃ i, e = .missingKeyGenPublicKeyTransaction i
      · obtain ⟨i, rfl⟩ := h3
        exact final_encryptionKey hm hm' hk h hin
      · exact fin (by simp [kindOf]) (by simp [kindOf]) (fun i hi => h3 ⟨i, hi⟩) (fault_encryptionKey hm h)
    | keyGenCommitment s => exact fin (by simp [kindOf]) (by simp [kindOf]) (by rintro i rfl; cases fault_commitment (E := E) h) (fault_commitment h)
    | keyGenPublicKey s => exact fin (by simp [kindOf]) (by simp [kindOf]) (by rintro i rfl; cases fault_publicKey (E := E) h) (fault_publicKey h)
    | votingEnd s => exact fin (by simp [kindOf]) (by simp [kindOf]) (by rintro i rfl; cases fault_votingEnd (E := E) h) (fault_votingEnd h)
    | keyGenShare s =>
      rcases hval with hf | hf
      · exact fin (by simp [kindOf]) (by simp [kindOf]) (by rintro i rfl; cases hf) hf
      · cases hf with
        | shareOfOther he htr hno =>
          exact C110_faults_refuse_partial E m' hm' _ _ (.shareMissing (electionAt_keeps hk he) htr hno) (by simp) (by simp [kindOf]) (by simp [kindOf]) hok
        | longMix hi => cases hi
    | partialDecryption s =>
      rcases hval with hf | hf
      · exact fin (by simp [kindOf]) (by simp [kindOf]) (by rintro i rfl; cases hf) hf
      · cases hf with
        | longMix hi hg _ =>
          obtain ⟨el, he, _, _, _, cts, hc, _⟩ := PartialDecryptionTx.validateTx_ok.1 hin
          have h : s.tx.validateTx E m.toStore = .err .invalidUpstreamIndex := h
          simp only [PartialDecryptionTx.validateTx, Res.bind_def, Res.bind_eq_err, Res.failIf_eq_err, Store.getElection_err, Store.getElection_ok,
            Res.ofOption_eq_err, Res.ofOption_eq_ok, reduceCtorEq, and_false, false_or] at h
          obtain ⟨s', hs, _, _, _, _, _, _, h | ⟨_, _, h⟩⟩ := h
          · cases he.eq (electionAt_keeps hk (electionAt_of hs))
            rw [upstream_err_keeps hk h hp] at hc
            cases hc
          · rcases h with h | ⟨_, _, _, _, h⟩
            · unfold Store.getKeygenPublicKey at h
              split at h <;> cases h
            · obtain ⟨_, _, h⟩ := h
              cases verifyShares_err h
    | decryption s =>
      rcases hval with hf | hf
      · exact fin (by simp [kindOf]) (by simp [kindOf]) (by rintro i rfl; cases hf) hf
      · cases hf with
        | longMix hi hg _ =>
          obtain ⟨_, el, he, cts, hc, _⟩ := DecryptionTx.validateTx_ok.1 hin
          have h : s.tx.validateTx E m.toStore = .err .invalidUpstreamIndex := h
          obtain ⟨l, hl, _⟩ := hm.lawful.getMultiple s.tx.electionId .keyGenPublicKey
          simp only [DecryptionTx.validateTx, Res.bind_def, Res.bind_eq_err, Res.failIf_eq_err, Store.getElection_err, Store.getElection_ok,
            hl, Res.ok_bind, reduceCtorEq, and_false, false_or, or_false, exists_const] at h
          obtain ⟨_, _, s', hs, h | ⟨cts', hc', h⟩⟩ := h
          · cases he.eq (electionAt_keeps hk (electionAt_of hs))
            rw [upstream_err_keeps hk h hp] at hc
            cases hc
          · rcases h with h | ⟨pks, _, h | ⟨ps, _, _, _, h⟩⟩
            · obtain ⟨x, _, h⟩ := Res.mapM'_eq_err h
              exact SignedTx.intoKeyGenPublicKey_err.1 h
            · obtain ⟨i, _, h⟩ := Res.mapM'_eq_err h
              simp only [Res.bind_eq_err, Res.ofOption_eq_err, reduceCtorEq, and_false, false_or] at h
              obtain ⟨_, _, h⟩ := h
              unfold Store.getPartialDecryption at h
              split at h <;> cases h
            · obtain ⟨_, _, _, _, _, ⟨_, _, h⟩ | ⟨_, _, _, h⟩⟩ := decryptVoteFrom_err h <;> cases h

/-- **C112** So it is on the Exonum ledger, where nothing is ever replaced. -/
theorem C112_no_point_in_retrying (E : Env) (m m' : MemStore) (hm : Ledger E m) (hs : LedgerSteps E m m') (t : SignedTx) (e : ValErr)
    (h : t.validate E m.toStore = .err e) (hp : ¬ Passing e) : t.validate E m'.toStore ≠ .ok () := by
  have hm' : Ledger E m' := by
    induction hs with
    | refl => exact hm
    | append _ h1 h2 ih => exact .append ih h1 h2
  exact C112_refusals_are_final E m m' hm.replay hm'.replay hs.extends t e h hp

/-! ## The nine reasons do pass -/

theorem passesAway_of {E : Env} {l l' : List SignedTx} {t : SignedTx} {e : ValErr} (h : (runLedger E .empty l).isSome = true)
    (h' : (runLedger E (MemStore.ofList l) l').isSome = true) (h1 : t.validate E (MemStore.ofList l).toStore = .err e)
    (h2 : t.validate E (MemStore.ofList (l ++ l')).toStore = .ok ()) : PassesAway e := by
  obtain ⟨m', hm⟩ := Option.isSome_iff_exists.1 h'
  have hs := ledgerSteps_of_run hm
  rw [runLedger_eq hm] at hs
  refine ⟨E, MemStore.ofList l, MemStore.ofList (l ++ l'), t, ledger_of_run h, ?_, h1, h2⟩
  rw [show MemStore.ofList (l ++ l') = l'.foldl MemStore.set (MemStore.ofList l) from List.foldl_append]
  exact hs

/-- Nodes on which decryption fails unless one of the trustees has filed this proof of their public key. -/
def fussyEnv (otherwise : Except CryptoError Bytes) : Env :=
  { Toy.env with
    thresholdDecrypt := fun k c shares => if shares.any (fun s => s.2.1 == ⟨[9]⟩) then Toy.env.thresholdDecrypt k c shares else otherwise }

/-- A second public key of trustee 1, with this proof. -/
def secondKeyTx : SignedTx :=
  .keyGenPublicKey ⟨{ KeyGenPublicKeyTx.new Toy.eid 1 (Toy.key 11) ⟨[5]⟩ ⟨[9]⟩ with id := ⟨Toy.eid.electionId, .keyGenPublicKey, BArr.fill 16 9⟩ }, Toy.sig 11⟩

/-- **C112** The list of reasons that can pass cannot be shortened: each of the nine is given to a transaction that is accepted later.  (For failed
decryptions this takes a trustee who files a second public key, and cryptography that heeds its proof.) -/
theorem C112_passing_reasons_pass :
    PassesAway (.transactionNotFound Toy.eid .election) ∧ PassesAway .encryptionKeyTransactionDoesNotExist ∧ PassesAway .missingVotingEndTransaction ∧
    PassesAway .missingPrevMixTransaction ∧ PassesAway .wrongNumberOfPublicKeyTransactions ∧ PassesAway .mixWrongNumberOfVotes ∧
    PassesAway (.voteDecryptionFailed ⟨0⟩) ∧ PassesAway .voteDecodingError ∧ PassesAway .voteDecryptionMismatch := by
  refine ⟨?_, ?_, ?_, ?_, ?_, ?_, ?_, ?_, ?_⟩
  · exact passesAway_of (E := Toy.env) (l := []) (l' := Toy.setup) (t := Toy.voteTx 31 "a") (by decide +kernel) (by decide +kernel) (by decide +kernel)
      (by decide +kernel)
  · exact passesAway_of (E := Toy.env) (l := Toy.setup.take 7) (l' := [Toy.encTx]) (t := Toy.voteTx 31 "a") (by decide +kernel) (by decide +kernel)
      (by decide +kernel) (by decide +kernel)
  · exact passesAway_of (E := Toy.env) (l := Toy.setup ++ [Toy.voteTx 31 "a", Toy.voteTx 32 "b", Toy.mix1Tx, Toy.mix2Tx]) (l' := [Toy.endTx])
      (t := Toy.partialTx 0 "a" 1 11) (by decide +kernel) (by decide +kernel) (by decide +kernel) (by decide +kernel)
  · exact passesAway_of (E := Toy.env) (l := Toy.complete.take 11) (l' := [Toy.mix1Tx]) (t := Toy.mix2Tx) (by decide +kernel) (by decide +kernel)
      (by decide +kernel) (by decide +kernel)
  · exact passesAway_of (E := Toy.env) (l := Toy.setup.take 6) (l' := [Toy.pkTx 2 12]) (t := Toy.encTx) (by decide +kernel) (by decide +kernel)
      (by decide +kernel) (by decide +kernel)
  · exact passesAway_of (E := Toy.env) (l := Toy.complete.take 9) (l' := [Toy.voteTx 32 "b"]) (t := Toy.mix1Tx) (by decide +kernel) (by decide +kernel)
      (by decide +kernel) (by decide +kernel)
  · exact passesAway_of (E := fussyEnv (.error ⟨0⟩)) (l := Toy.complete.take 17) (l' := [secondKeyTx]) (t := Toy.decTx 0 "a") (by decide +kernel)
      (by decide +kernel) (by decide +kernel) (by decide +kernel)
  · exact passesAway_of (E := fussyEnv (.ok [255])) (l := Toy.complete.take 17) (l' := [secondKeyTx]) (t := Toy.decTx 0 "a") (by decide +kernel)
      (by decide +kernel) (by decide +kernel) (by decide +kernel)
  · exact passesAway_of (E := fussyEnv (.ok (Selection.encode (Toy.sel "z")))) (l := Toy.complete.take 17) (l' := [secondKeyTx]) (t := Toy.decTx 0 "a")
      (by decide +kernel) (by decide +kernel) (by decide +kernel) (by decide +kernel)

/-- A vote for another ballot is refused for good: the reason is none of the nine, and here the ledger grows after the refusal. -/
example : (runLedger Toy.env .empty (Toy.complete.take 8)).isSome = true ∧ (runLedger Toy.env (MemStore.ofList (Toy.complete.take 8)) [Toy.voteTx 32 "b"]).isSome = true ∧
    (SignedTx.vote ⟨{ Toy.vote (Toy.key 31) [] [] with ballotId := str "b2" }, Toy.sig 31⟩).validate Toy.env (MemStore.ofList (Toy.complete.take 8)).toStore =
      .err .ballotDoesNotExist ∧ ¬ Passing .ballotDoesNotExist :=
  ⟨by decide +kernel, by decide +kernel, by decide +kernel, fun h => h⟩

end CB
