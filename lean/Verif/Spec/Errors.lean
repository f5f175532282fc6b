import Verif.Spec.Rules
import Verif.Model.Selection
/-!
# Specification vocabulary: what the reasons for refusing a transaction say

`Fault E S t e` says that the sentence of error.rs:64-202 for the reason `e` is true of the transaction `t` and the store `S`.
-/

namespace CB.Spec

/-- The 16 bytes that name an item of a contest (and a trustee, or 0) in ids: the contest, the kind of the upstream, ten bytes of a vote's key or eight
bytes of a mix's id with the position in the mix, and the trustee. -/
def itemBytes (upstream : Identifier) (position : UInt16) (contest : UInt32) (trustee : UInt8) : Bytes :=
  be32 contest ++ [upstream.txType.toU8] ++
    match upstream.txType with
    | .vote => upstream.uniqueInfo.val.take 10 ++ [trustee]
    | .mix => (upstream.uniqueInfo.val.drop 4).take 8 ++ [UInt8.ofNat (position.toNat / 256), UInt8.ofNat position.toNat] ++ [trustee]
    | _ => List.replicate 11 0

/-- The last 16 bytes an id must have, where the code checks them. -/
def idBytes : SignedTx → Option Bytes
  | .election _ => some (List.replicate 16 0)
  | .vote s => some (s.tx.anonymousKey.val.take 16)
  | .mix s => some (be32 s.tx.contestIndex ++ be32 s.tx.batch ++ [s.tx.mixIndex, s.tx.trusteeIndex] ++ List.replicate 6 0)
  | .partialDecryption s => some (itemBytes s.tx.upstreamId s.tx.upstreamIndex s.tx.contestIndex s.tx.trusteeIndex)
  | .decryption s => some (itemBytes s.tx.upstreamId s.tx.upstreamIndex s.tx.contestIndex 0)
  | _ => none

/-- The item a partial decryption or a decryption is about: upstream id, position, contest. -/
def itemOf : SignedTx → Option (Identifier × UInt16 × UInt32)
  | .partialDecryption s => some (s.tx.upstreamId, s.tx.upstreamIndex, s.tx.contestIndex)
  | .decryption s => some (s.tx.upstreamId, s.tx.upstreamIndex, s.tx.contestIndex)
  | _ => none

/-- The key of the election authority that a transaction names. -/
def authorityOf : SignedTx → Option PublicKey
  | .encryptionKey s => some s.tx.authorityPublicKey
  | .votingEnd s => some s.tx.authorityPublicKey
  | _ => none

/-- A trustee's public key from the key generation of this election is stored. -/
def KeyStored (S : Store) (election : Identifier) (p : Signed KeyGenPublicKeyTx) : Prop :=
  InStore S (.keyGenPublicKey p) ∧ p.tx.id.electionId = election.electionId

/-- The authenticator has a key for the ballot and the signature is valid for the voter's package under it. -/
def Vouches (E : Env) (au : Authenticator) (election : Identifier) (ballot : Str) (key : PublicKey) (sig : Bytes) : Prop :=
  ∃ rsa digest, (ballot, rsa) ∈ au.publicKeys.entries ∧ E.rsaDigest rsa (authMessage election ballot key) = some digest ∧
    E.rsaVerify rsa digest sig = true

/-- What a mix must shuffle: the votes for its contest, or the outputs of the mix it names. -/
inductive ToShuffle (S : Store) (t : MixTx) : List (List Ciphertext) → Prop
  | votes {votes : List (Signed VoteTx)} : t.prevMixId = none → AllVotes S t.electionId votes → ToShuffle S t (contestVotes t.contestIndex votes)
  | mix {p : Identifier} {m : Signed MixTx} : t.prevMixId = some p → S.getTransaction p = some (.mix m) → ToShuffle S t m.tx.mixedCiphertexts

/-- Selection number `j` of `out` is the decoding of what threshold decryption of ciphertext number `j` returns, for all of them. -/
def DecryptsTo (E : Env) (S : Store) (t : DecryptionTx) (e : ElectionTx) (cts : List Ciphertext) (out : List Selection) : Prop :=
  out.length = cts.length ∧ ∀ (j : Nat) (c : Ciphertext) (s : Selection), cts[j]? = some c → out[j]? = some s →
    ∃ shares raw, Shares S t j e.trustees shares ∧ E.thresholdDecrypt e.trusteesThreshold.toNat c shares = .ok raw ∧
      Selection.decode raw = some s

/-- The reason is true of the transaction. -/
inductive Fault (E : Env) (S : Store) : SignedTx → ValErr → Prop
  -- any transaction
  | type {t} : t.id.txType ≠ kindOf t → Fault E S t .mismatchedTransactionType
  | signature {t} : ¬ SignatureValid E t → Fault E S t .signatureError
  | id {t bytes} : idBytes t = some bytes →
      ¬ (t.id.electionId = (electionOf t).electionId ∧ t.id.txType = kindOf t ∧ t.id.uniqueInfo.val = bytes) →
      Fault E S t .identifierBadComposition
  | noElection {t} : kindOf t ≠ .election → (∀ e, ¬ ElectionAt S (electionOf t) e) → Fault E S t (.transactionNotFound (electionOf t) .election)
  | notTrustee {t i k e} : trusteeOf t = some (i, k) → ElectionAt S (electionOf t) e → ¬ IsTrustee e i k →
      Fault E S t (.trusteeDoesNotExist i)
  | notAuthority {t k e} : authorityOf t = some k → ElectionAt S (electionOf t) e → k ≠ e.authorityPublic →
      Fault E S t .authorityPublicKeyMismatch
  -- elections
  | trusteeThreshold {e} : e.tx.trustees.length < e.tx.trusteesThreshold.toNat → Fault E S (.election e) .invalidTrusteeThreshold
  | authThreshold {e} : e.tx.authenticators.length < e.tx.authenticatorsThreshold.toNat → Fault E S (.election e) .invalidAuthThreshold
  -- key generation
  | shareCount {t e} : ElectionAt S t.tx.election e → t.tx.shares.entries.length ≠ e.trustees.length →
      Fault E S (.keyGenShare t) .wrongNumberOfShares
  | shareMissing {t e tr} : ElectionAt S t.tx.election e → tr ∈ e.trustees → (∀ s, (tr.index, s) ∉ t.tx.shares.entries) →
      Fault E S (.keyGenShare t) (.trusteeShareMissing tr.index)
  | keyCount {t e} {pks : List (Signed KeyGenPublicKeyTx)} : ElectionAt S t.tx.election e → (∀ p, p ∈ pks ↔ KeyStored S t.tx.election p) → pks.Nodup →
      pks.length ≠ e.trustees.length → Fault E S (.encryptionKey t) .wrongNumberOfPublicKeyTransactions
  | keyMissing {t e tr} : ElectionAt S t.tx.election e → tr ∈ e.trustees →
      (∀ p, KeyStored S t.tx.election p → ¬ (p.tx.trusteeIndex = tr.index ∧ p.tx.trusteePublicKey = tr.publicKey)) →
      Fault E S (.encryptionKey t) (.missingKeyGenPublicKeyTransaction tr.index)
  | keyDiffers {t p} : KeyStored S t.tx.election p → p.tx.publicKey ≠ t.tx.encryptionKey →
      Fault E S (.encryptionKey t) (.mismatchedEncryptionKey p.tx.trusteeIndex)
  -- votes
  | collision {t x} : InStore S x → x.id.electionId = t.tx.election.electionId → x.id.txType = .vote →
      x.id.uniqueInfo.val.take 10 = t.tx.anonymousKey.val.take 10 → Fault E S (.vote t) .voteAnonymousKeyCollision
  | noKey {t} : ¬ SlotFilled S t.tx.election .encryptionKey → Fault E S (.vote t) .encryptionKeyTransactionDoesNotExist
  | ended {t} : SlotFilled S t.tx.election .votingEnd → Fault E S (.vote t) .votingHasEnded
  | authUnknown {t e a} : ElectionAt S t.tx.election e → a ∈ t.tx.authentication → (∀ au ∈ e.authenticators, au.id ≠ a.authenticator) →
      Fault E S (.vote t) .authDoesNotExist
  | authFailed {t e a au} : ElectionAt S t.tx.election e → a ∈ t.tx.authentication → au ∈ e.authenticators → au.id = a.authenticator →
      ¬ Vouches E au e.id t.tx.ballotId t.tx.anonymousKey a.signature → Fault E S (.vote t) .authFailed
  | noBallot {t e} : ElectionAt S t.tx.election e → (∀ b ∈ e.ballots, b.id ≠ t.tx.ballotId) → Fault E S (.vote t) .ballotDoesNotExist
  | wrongContest {t e b ev} : ElectionAt S t.tx.election e → b ∈ e.ballots → b.id = t.tx.ballotId → ev ∈ t.tx.encryptedVotes →
      ev.contestIndex ∉ b.contests → Fault E S (.vote t) .votedInWrongContest
  -- mixes
  | noMixnet {t e} : ElectionAt S t.tx.electionId e → e.mixConfig = none → Fault E S (.mix t) .noMixnetConfig
  | order {t} : ¬ (t.tx.trusteeIndex.toNat = t.tx.mixIndex.toNat + 1 ∧ (t.tx.prevMixId = none → t.tx.mixIndex = 0)) →
      Fault E S (.mix t) .outOfOrderMix
  | outputs {t} : t.tx.mixedCiphertexts.length ≠ t.tx.voteIds.length → Fault E S (.mix t) .mixWrongNumberOfVotes
  | voteCount {t} {votes : List SignedTx} : t.tx.prevMixId = none →
      (∀ x, x ∈ votes ↔ InStore S x ∧ x.id.electionId = t.tx.electionId.electionId ∧ x.id.txType = .vote) → votes.Nodup →
      votes.length ≠ t.tx.voteIds.length → Fault E S (.mix t) .mixWrongNumberOfVotes
  | unsorted {t} : t.tx.prevMixId = none → ¬ t.tx.voteIds.Pairwise IdLe → Fault E S (.mix t) .mixVoteIdsNotSorted
  | leftOut {t x} : t.tx.prevMixId = none → InStore S x → x.id.electionId = t.tx.electionId.electionId → x.id.txType = .vote → x.id ∉ t.tx.voteIds →
      Fault E S (.mix t) .mixVotesNotAccountedFor
  | noPrev {t p} : t.tx.prevMixId = some p → S.getTransaction p = none → Fault E S (.mix t) .missingPrevMixTransaction
  | badPrev {t p m} : t.tx.prevMixId = some p → S.getTransaction p = some (.mix m) →
      ¬ (t.tx.mixIndex.toNat = m.tx.mixIndex.toNat + 1 ∧ t.tx.electionId = m.tx.electionId ∧ t.tx.contestIndex = m.tx.contestIndex ∧
        t.tx.batch = m.tx.batch ∧ t.tx.voteIds = m.tx.voteIds) → Fault E S (.mix t) .invalidPrevMixTransaction
  | mixNoKey {t} : ¬ SlotFilled S t.tx.electionId .encryptionKey → Fault E S (.mix t) .encryptionKeyTransactionDoesNotExist
  | shuffle {t inputs key} : ToShuffle S t.tx inputs → S.getTransaction (singleId t.tx.electionId .encryptionKey) = some (.encryptionKey key) →
      E.shuffleVerify (shuffleSeed t.tx) inputs.length t.tx.proof inputs t.tx.mixedCiphertexts key.tx.encryptionKey = false →
      Fault E S (.mix t) .shuffleVerificationFailed
  -- partial decryptions and decryptions
  | upstreamKind {t up i c e} : itemOf t = some (up, i, c) → ElectionAt S (electionOf t) e → ¬ (up.txType = .vote ∧ e.mixConfig = none) →
      ¬ (up.txType = .mix ∧ e.mixConfig ≠ none) → Fault E S t .invalidUpstreamID
  | upstreamMissing {t up i c ty} : itemOf t = some (up, i, c) → up.txType = ty → (∀ x, S.getTransaction up = some x → kindOf x ≠ ty) →
      Fault E S t (.transactionNotFound up ty)
  | votePosition {t up i c} : itemOf t = some (up, i, c) → up.txType = .vote → i ≠ 0 → Fault E S t .invalidUpstreamIndex
  | mixPosition {t up i c m} : itemOf t = some (up, i, c) → S.getTransaction up = some (.mix m) → m.tx.mixedCiphertexts.length ≤ i.toNat →
      Fault E S t .invalidUpstreamIndex
  | voteContest {t up i c v} : itemOf t = some (up, i, c) → S.getTransaction up = some (.vote v) →
      (∀ ev ∈ v.tx.encryptedVotes, ev.contestIndex ≠ c) → Fault E S t .invalidUpstreamContestIndex
  | mixContest {t up i c m} : itemOf t = some (up, i, c) → S.getTransaction up = some (.mix m) → m.tx.contestIndex ≠ c →
      Fault E S t .invalidUpstreamContestIndex
  | notEnded {t} : ¬ SlotFilled S t.tx.electionId .votingEnd → Fault E S (.partialDecryption t) .missingVotingEndTransaction
  | noTrusteeKey {t id} : id.electionId = t.tx.electionId.electionId → id.txType = .keyGenPublicKey →
      id.uniqueInfo.val = t.tx.trusteeIndex :: List.replicate 15 0 → (∀ p, S.getTransaction id ≠ some (.keyGenPublicKey p)) →
      Fault E S (.partialDecryption t) (.transactionNotFound id .keyGenPublicKey)
  | trusteeKey {t p} : KeyStored S t.tx.electionId p → p.tx.id.uniqueInfo.val = t.tx.trusteeIndex :: List.replicate 15 0 →
      ¬ (p.tx.trusteeIndex = t.tx.trusteeIndex ∧ p.tx.trusteePublicKey = t.tx.trusteePublicKey) →
      Fault E S (.partialDecryption t) (.trusteePublicKeyMismatch t.tx.trusteeIndex)
  | proof {t e cts p} : ElectionAt S t.tx.electionId e → ItemAt S t.tx.upstreamId t.tx.upstreamIndex t.tx.contestIndex e.mixConfig cts →
      KeyStored S t.tx.electionId p → p.tx.id.uniqueInfo.val = t.tx.trusteeIndex :: List.replicate 15 0 →
      ¬ (t.tx.partialDecryption.length = cts.length ∧ ∀ (j : Nat) s c, t.tx.partialDecryption[j]? = some s → cts[j]? = some c →
        E.shareVerify s p.tx.publicKeyProof c = true) → Fault E S (.partialDecryption t) .partialDecryptionProofFailed
  | unknownTrustee {t e i} : ElectionAt S t.tx.electionId e → i ∈ t.tx.trustees → (∀ tr ∈ e.trustees, tr.index ≠ i) →
      Fault E S (.decryption t) (.trusteeDoesNotExist i)
  | noPartial {t i id} : i ∈ t.tx.trustees → id.electionId = t.tx.electionId.electionId → id.txType = .partialDecryption →
      id.uniqueInfo.val = itemBytes t.tx.upstreamId t.tx.upstreamIndex t.tx.contestIndex i → (∀ p, ¬ PartialFor S t.tx i p) →
      Fault E S (.decryption t) (.transactionNotFound id .partialDecryption)
  | tooFew {t e} : ElectionAt S t.tx.electionId e → t.tx.trustees.length < e.trusteesThreshold.toNat →
      Fault E S (.decryption t) (.notEnoughShares e.trusteesThreshold.toNat t.tx.trustees.length)
  | undecryptable {t e cts} {j : Nat} {c shares err} : ElectionAt S t.tx.electionId e →
      ItemAt S t.tx.upstreamId t.tx.upstreamIndex t.tx.contestIndex e.mixConfig cts → cts[j]? = some c → Shares S t.tx j e.trustees shares →
      E.thresholdDecrypt e.trusteesThreshold.toNat c shares = .error err → Fault E S (.decryption t) (.voteDecryptionFailed err)
  | undecodable {t e cts} {j : Nat} {c shares raw} : ElectionAt S t.tx.electionId e →
      ItemAt S t.tx.upstreamId t.tx.upstreamIndex t.tx.contestIndex e.mixConfig cts → cts[j]? = some c → Shares S t.tx j e.trustees shares →
      E.thresholdDecrypt e.trusteesThreshold.toNat c shares = .ok raw → Selection.decode raw = none →
      Fault E S (.decryption t) .voteDecodingError
  | otherVote {t e cts out} : ElectionAt S t.tx.electionId e →
      ItemAt S t.tx.upstreamId t.tx.upstreamIndex t.tx.contestIndex e.mixConfig cts → DecryptsTo E S t.tx e cts out →
      out ≠ t.tx.decryptedVote → Fault E S (.decryption t) .voteDecryptionMismatch

/-- The four refusals whose reason can be untrue, and what is true instead. -/
inductive Misleading (S : Store) : SignedTx → ValErr → Prop
  /-- "threshold is invalid for number of authenticators": there are 256 authenticators or more -/
  | manyAuthenticators {e} : 256 ≤ e.tx.authenticators.length → Misleading S (.election e) .invalidAuthThreshold
  /-- "trustee {0} share is missing": a trustee has no share, but the number is that of the sender -/
  | shareOfOther {t e tr} : ElectionAt S t.tx.election e → tr ∈ e.trustees → (∀ s, (tr.index, s) ∉ t.tx.shares.entries) →
      Misleading S (.keyGenShare t) (.trusteeShareMissing t.tx.trusteeIndex)
  /-- "mix vote_ids are not sorted ascending": an id is listed twice -/
  | listedTwice {t} : t.tx.prevMixId = none → ¬ t.tx.voteIds.Nodup → Misleading S (.mix t) .mixVoteIdsNotSorted
  /-- "invalid upstream index": the mix has 65536 items or more -/
  | longMix {t up i c m} : itemOf t = some (up, i, c) → S.getTransaction up = some (.mix m) → 65536 ≤ m.tx.mixedCiphertexts.length →
      Misleading S t .invalidUpstreamIndex

end CB.Spec
