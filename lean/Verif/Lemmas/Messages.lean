import Verif.Model.Messages
import Verif.Lemmas.Json
import Verif.Lemmas.Identifier
/-!
# Texts of errors
-/

namespace CB
open Json

/-- The constant text at the beginning of an error's text. -/
def ValErr.head : ValErr → Str
  | .identifierBadComposition => str "cryptoballot: invalid identifier - incorrectly composed"
  | .authorityPublicKeyMismatch => str "cryptoballot validation: election authority public key mismatch"
  | .trusteePublicKeyMismatch _ => str "cryptoballot validation: trustee public key mismatch for trustee "
  | .mismatchedEncryptionKey _ => str "cryptoballot validation: mismatched encryption_key for trustee "
  | .invalidTrusteeThreshold => str "cryptoballot validation: threshold is invalid for number of trustees"
  | .invalidAuthThreshold => str "cryptoballot validation: threshold is invalid for number of authenticators"
  | .ballotDoesNotExist => str "cryptoballot validation: ballot does not exist in election"
  | .authDoesNotExist => str "cryptoballot validation: authentication does not exist in election"
  | .trusteeDoesNotExist _ => str "cryptoballot validation: trustee with index "
  | .missingKeyGenPublicKeyTransaction _ => str "cryptoballot validation: missing keygen_public_key transaction for trustee "
  | .wrongNumberOfPublicKeyTransactions => str "cryptoballot validation: wrong number of keygen_public_key transactions)"
  | .trusteeShareMissing _ => str "cryptoballot validation: trustee "
  | .trusteeMissing _ => str "cryptoballot validation: trustee "
  | .wrongNumberOfShares => str "cryptoballot validation: wrong number of shares"
  | .authFailed => str "cryptoballot validation: authentication failed"
  | .encryptionKeyTransactionDoesNotExist => str "cryptoballot: encryption_key transaction not does yet exist"
  | .voteDecryptionFailed _ => str "cryptoballot: vote decryption failed: "
  | .voteDecryptionMismatch => str "cryptoballot: vote decryption failed: decrypted vote mismatch"
  | .authSignatureVerificationFailed => str "cryptoballot: auth signature verification failed"
  | .notEnoughShares _ _ => str "cryptoballot: not enough secret shares: need "
  | .transactionNotFound _ _ => str "cryptoballot: transaction not found: "
  | .missingVotingEndTransaction => str "cryptoballot: Missing voting_end transaction"
  | .signatureError => str "cryptoballot validation: signature error: "
  | .shareDecryptionError => str "cryptoballot validation: share decryption error"
  | .partialDecryptionProofFailed => str "cryptoballot: partial decryption proof failed to verify"
  | .mismatchedTransactionType => str "cryptoballot: mismatched transaction type and id type"
  | .votingHasEnded => str "cryptoballot: voting has ended"
  | .shuffleVerificationFailed => str "cryptoballot: shuffle verification failed"
  | .noMixnetConfig => str "cryptoballot: no mixnet configured for election"
  | .outOfOrderMix => str "cryptoballot: out of order mix"
  | .missingPrevMixTransaction => str "cryptoballot: missing previous mix transaction"
  | .invalidPrevMixTransaction => str "cryptoballot: invalid previous mix transaction"
  | .mixVoteIdsNotSorted => str "cryptoballot: mix vote_ids are not sorted ascending"
  | .mixWrongNumberOfVotes => str "cryptoballot: wrong number of votes in mix"
  | .mixVotesNotAccountedFor => str "cryptoballot: not all votes accounted for in mix"
  | .invalidUpstreamID => str "cryptoballot: invalid upstream transaction ID"
  | .invalidUpstreamIndex => str "cryptoballot: invalid upstream index"
  | .invalidUpstreamContestIndex => str "cryptoballot: invalid upstream contest index"
  | .votedInWrongContest => str "cryptoballot: voted in wrong contest"
  | .voteAnonymousKeyCollision => str "cryptoballot: vote anonymous_key collides with existing vote"
  | .voteDecodingError => str "cryptoballot: could not decode vote selection: "

theorem ValErr.text_eq (T : Texts) (e : ValErr) : ∃ rest, e.text T = e.head ++ rest := by
  cases e <;> first | exact ⟨_, rfl⟩ | exact ⟨[], by simp [text, head]⟩

/-- The constant texts in the order of the errors. -/
def heads : List Str :=
  [str "cryptoballot: invalid identifier - incorrectly composed",
   str "cryptoballot validation: election authority public key mismatch",
   str "cryptoballot validation: trustee public key mismatch for trustee ",
   str "cryptoballot validation: mismatched encryption_key for trustee ",
   str "cryptoballot validation: threshold is invalid for number of trustees",
   str "cryptoballot validation: threshold is invalid for number of authenticators",
   str "cryptoballot validation: ballot does not exist in election",
   str "cryptoballot validation: authentication does not exist in election",
   str "cryptoballot validation: trustee with index ",
   str "cryptoballot validation: missing keygen_public_key transaction for trustee ",
   str "cryptoballot validation: wrong number of keygen_public_key transactions)",
   str "cryptoballot validation: trustee ",
   str "cryptoballot validation: trustee ",
   str "cryptoballot validation: wrong number of shares",
   str "cryptoballot validation: authentication failed",
   str "cryptoballot: encryption_key transaction not does yet exist",
   str "cryptoballot: vote decryption failed: ",
   str "cryptoballot: vote decryption failed: decrypted vote mismatch",
   str "cryptoballot: auth signature verification failed",
   str "cryptoballot: not enough secret shares: need ",
   str "cryptoballot: transaction not found: ",
   str "cryptoballot: Missing voting_end transaction",
   str "cryptoballot validation: signature error: ",
   str "cryptoballot validation: share decryption error",
   str "cryptoballot: partial decryption proof failed to verify",
   str "cryptoballot: mismatched transaction type and id type",
   str "cryptoballot: voting has ended",
   str "cryptoballot: shuffle verification failed",
   str "cryptoballot: no mixnet configured for election",
   str "cryptoballot: out of order mix",
   str "cryptoballot: missing previous mix transaction",
   str "cryptoballot: invalid previous mix transaction",
   str "cryptoballot: mix vote_ids are not sorted ascending",
   str "cryptoballot: wrong number of votes in mix",
   str "cryptoballot: not all votes accounted for in mix",
   str "cryptoballot: invalid upstream transaction ID",
   str "cryptoballot: invalid upstream index",
   str "cryptoballot: invalid upstream contest index",
   str "cryptoballot: voted in wrong contest",
   str "cryptoballot: vote anonymous_key collides with existing vote",
   str "cryptoballot: could not decode vote selection: "]

theorem head_mem (e : ValErr) : heads[e.ctorIdx]? = some e.head := by cases e <;> rfl

/-- Texts that begin alike: trusteeShareMissing/trusteePublicKeyMismatch, trusteeShareMissing/trusteeDoesNotExist, trusteeMissing/trusteePublicKeyMismatch, trusteeMissing/trusteeDoesNotExist, trusteeShareMissing/trusteeMissing, voteDecryptionFailed/voteDecryptionMismatch. -/
def alike : List (Nat × Nat) := [(11, 2), (11, 8), (12, 2), (12, 8), (11, 12), (16, 17)]

theorem heads_table : (heads.zipIdx.all fun x => heads.zipIdx.all fun y =>
    (x.2 == y.2) || alike.contains (x.2, y.2) || alike.contains (y.2, x.2) || !(x.1.isPrefixOf y.1)) = true := by decide +kernel

theorem prefix_or {α : Type} {a b x y : List α} (h : a ++ x = b ++ y) : a <+: b ∨ b <+: a := by
  rcases Nat.le_total a.length b.length with hl | hl
  · exact .inl (List.prefix_of_prefix_length_le ⟨x, h⟩ ⟨y, rfl⟩ hl)
  · exact .inr (List.prefix_of_prefix_length_le ⟨y, rfl⟩ ⟨x, h⟩ hl)

theorem kinds_of_text (T : Texts) {e e' : ValErr} (h : e.text T = e'.text T) :
    e.ctorIdx = e'.ctorIdx ∨ (e.ctorIdx, e'.ctorIdx) ∈ alike ∨ (e'.ctorIdx, e.ctorIdx) ∈ alike := by
  obtain ⟨r, hr⟩ := e.text_eq T
  obtain ⟨r', hr'⟩ := e'.text_eq T
  rw [hr, hr'] at h
  have key : ∀ e e' : ValErr, e.head <+: e'.head → e.ctorIdx = e'.ctorIdx ∨ (e.ctorIdx, e'.ctorIdx) ∈ alike ∨ (e'.ctorIdx, e.ctorIdx) ∈ alike := by
    intro e e' hp
    have h1 : (e.head, e.ctorIdx) ∈ heads.zipIdx := List.mk_mem_zipIdx_iff_getElem?.2 (head_mem e)
    have h2 : (e'.head, e'.ctorIdx) ∈ heads.zipIdx := List.mk_mem_zipIdx_iff_getElem?.2 (head_mem e')
    have := List.all_eq_true.1 (List.all_eq_true.1 heads_table _ h1) _ h2
    simp only [Bool.or_eq_true, beq_iff_eq, List.contains_iff_mem, Bool.not_eq_true', List.isPrefixOf_iff_prefix, ← Bool.not_eq_true] at this
    rcases this with ((h | h) | h) | h
    · exact .inl h
    · exact .inr (.inl h)
    · exact .inr (.inr h)
    · exact absurd hp h
  rcases prefix_or h with h | h
  · exact key _ _ h
  · rcases key _ _ h with h | h | h
    · exact .inl h.symm
    · exact .inr (.inr h)
    · exact .inr (.inl h)

theorem decimal_spec (n : Nat) : (∀ b ∈ decimal n, isDigit b = true) ∧ decimal n ≠ [] ∧ ofDigits (decimal n) = n := by
  have hn : n < 10 ^ (n + 1) := Nat.lt_of_lt_of_le (Nat.lt_pow_self (by decide)) (Nat.pow_le_pow_right (by decide) (Nat.le_succ n))
  obtain ⟨ds, h1, h2, h3, h4, _⟩ := digitsFrom_spec (n + 1) n hn (Nat.succ_pos n)
  have e : decimal n = ds := by rw [decimal, h1, List.append_nil]
  rw [e]
  refine ⟨h2, h3, ?_⟩
  rw [ofDigits, h4]
  simp

theorem takeWhile_decimal (n : Nat) {r : Str} (hr : ∀ b, r.head? = some b → isDigit b = false) :
    (decimal n ++ r).takeWhile isDigit = decimal n ∧ (decimal n ++ r).dropWhile isDigit = r := by
  rw [List.takeWhile_append_of_pos (decimal_spec n).1, List.dropWhile_append_of_pos (decimal_spec n).1]
  cases r with
  | nil => simp
  | cons b r => simp [hr b rfl]

theorem decimal_inj {n m : Nat} {r s : Str} (hr : ∀ b, r.head? = some b → isDigit b = false) (hs : ∀ b, s.head? = some b → isDigit b = false)
    (h : decimal n ++ r = decimal m ++ s) : n = m ∧ r = s := by
  obtain ⟨h1, h2⟩ := takeWhile_decimal n hr
  obtain ⟨h3, h4⟩ := takeWhile_decimal m hs
  rw [h, h3] at h1
  rw [h, h4] at h2
  refine ⟨?_, h2.symm⟩
  rw [← (decimal_spec n).2.2, ← h1, (decimal_spec m).2.2]

theorem decimal_byte_inj {i j : UInt8} {r : Str} (h : decimal i.toNat ++ r = decimal j.toNat ++ r) : i = j := by
  have := List.append_cancel_right h
  refine UInt8.toNat_inj.1 ?_
  rw [← (decimal_spec i.toNat).2.2, this, (decimal_spec j.toNat).2.2]

theorem decimal_ne_letter {i : UInt8} {r s : Str} {c : UInt8} (hc : isDigit c = false) : decimal i.toNat ++ r ≠ c :: s := by
  intro h
  obtain ⟨h1, h2, _⟩ := decimal_spec i.toNat
  cases hd : decimal i.toNat with
  | nil => exact h2 hd
  | cons b bs =>
    rw [hd] at h
    cases h
    rw [h1 c (by rw [hd]; exact List.mem_cons_self)] at hc
    cases hc

theorem name_injective {a b : TxType} (h : a.name = b.name) : a = b := by
  revert h
  cases a <;> cases b <;> decide +kernel

theorem notFound_inj {a b : TxType} {i j : Identifier} {x y : Str} (hx : x = y)
    (h : a.name ++ (x ++ (i.toString ++ str " not found")) = b.name ++ (y ++ (j.toString ++ str " not found"))) : a = b ∧ i = j := by
  subst hx
  have hl : (x ++ (i.toString ++ str " not found")).length = (x ++ (j.toString ++ str " not found")).length := by
    simp [Identifier.toString_length]
  obtain ⟨h1, h2⟩ := List.append_inj' h hl
  exact ⟨name_injective h1, Identifier.toString_injective (List.append_cancel_right (List.append_cancel_left h2))⟩

end CB
