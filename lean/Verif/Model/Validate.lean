import Verif.Model.Store
import Verif.Model.Selection
/-!
# Signing and validation of the ten transaction types
-/

namespace CB

/-- The trait `CryptoBallotTransaction`, transaction.rs:203-223.  `toCbor` stands for the `Serialize` supertrait. -/
class CBTransaction (T : Type) where
  id : T → Identifier
  pub : T → Option PublicKey
  electionId : T → Identifier
  txType : TxType
  toCbor : T → Cbor
  validateTx : Env → T → Store → VRes Unit

/-- `CryptoBallotTransaction::as_bytes`, transaction.rs:220-222: the bytes that are signed. -/
def CBTransaction.asBytes {T : Type} [CBTransaction T] (t : T) : Bytes := (CBTransaction.toCbor t).encode

/-- `Error::MismatchedPublicKeys` (error.rs:14-15), the only error of `Signed::sign`. -/
inductive SignErr
  | mismatchedPublicKeys
  deriving DecidableEq, Repr

namespace Signed
variable {T : Type} [CBTransaction T]

/-- `Signed::sign`, transaction.rs:252-269. -/
def sign (E : Env) (secret : SecretKey) (tx : T) : Res SignErr (Signed T) :=
  let publicKey := E.edPublic secret
  let mk : Signed T := ⟨tx, E.edSign secret (CBTransaction.asBytes tx)⟩
  match CBTransaction.pub tx with
  | some txPublic => if publicKey ≠ txPublic then .err .mismatchedPublicKeys else .ok mk
  | none => .ok mk

/-- `Signed::verify_signature`, transaction.rs:272-280. -/
def verifySignature (E : Env) (s : Signed T) : VRes Unit :=
  match CBTransaction.pub s.tx with
  | some txPublic => if E.edVerify txPublic (CBTransaction.asBytes s.tx) s.sig then .ok () else .err .signatureError
  | none => .ok ()

/-- `Signed::validate`, transaction.rs:293-298. -/
def validate (E : Env) (s : Signed T) (store : Store) : VRes Unit := do
  s.verifySignature E
  CBTransaction.validateTx E s.tx store

end Signed

/-! ## Election (election.rs) -/
namespace ElectionTx

/-- `build_id`, election.rs:73-79. -/
def buildId (e : BArr 15) : Identifier := { electionId := e, txType := .election, uniqueInfo := BArr.fill 16 0 }

/-- `get_authenticator`, election.rs:82-89. -/
def getAuthenticator (t : ElectionTx) (id : Uuid) : Option Authenticator := t.authenticators.find? fun a => id == a.id

/-- `get_trustee`, election.rs:92-99. -/
def getTrustee (t : ElectionTx) (i : UInt8) : Option Trustee := t.trustees.find? fun tr => i == tr.index

/-- `get_ballot`, election.rs:101-108. -/
def getBallot (t : ElectionTx) (id : Str) : Option Ballot := t.ballots.find? fun b => b.id == id

/-- `get_full_trustees`, election.rs:111-120. -/
def getFullTrustees (t : ElectionTx) : List Trustee :=
  t.trustees.map fun tr => { tr with threshold := t.trusteesThreshold, numTrustees := t.trustees.length }

/-- `validate_tx`, election.rs:145-175.  `authenticators.len() as u8` wraps modulo 256. -/
def validateTx (t : ElectionTx) : VRes Unit := do
  Res.failIf (buildId t.id.electionId != t.id) .identifierBadComposition
  Res.failIf (decide (t.trusteesThreshold.toNat > t.trustees.length)) .invalidTrusteeThreshold
  Res.failIf (decide (t.authenticatorsThreshold > UInt8.ofNat t.authenticators.length)) .invalidAuthThreshold

end ElectionTx

/-- election.rs:123-142. -/
instance : CBTransaction ElectionTx where
  id t := t.id
  pub t := some t.authorityPublic
  electionId t := t.id
  txType := .election
  toCbor := ElectionTx.toCbor
  validateTx _ t _ := t.validateTx

/-- The recurring loop "a trustee with this index and this key exists", e.g. keygen.rs:114-124. -/
def trusteeExists (trustees : List Trustee) (index : UInt8) (key : PublicKey) : Bool :=
  trustees.any fun tr => tr.index == index && tr.publicKey == key

/-- `[0; 16]` with `unique_info[0] = trustee_index`, keygen.rs:76-77, 150-151, 233-234. -/
def trusteeUnique (i : UInt8) : BArr 16 := ⟨i :: List.replicate 15 0, by simp⟩

/-! ## Key generation (keygen.rs) -/
namespace KeyGenCommitmentTx

/-- `build_id`, keygen.rs:75-83. -/
def buildId (election : Identifier) (i : UInt8) : Identifier :=
  Identifier.new election .keyGenCommitment (some (trusteeUnique i))

/-- `new`, keygen.rs:58-73. -/
def new (election : Identifier) (i : UInt8) (key : PublicKey) (x : X25519Pub) (c : KeygenCommitment) : KeyGenCommitmentTx :=
  { id := buildId election i, election, trusteeIndex := i, trusteePublicKey := key, x25519PublicKey := x, commitment := c }

/-- `validate_tx`, keygen.rs:111-129. -/
def validateTx (t : KeyGenCommitmentTx) (store : Store) : VRes Unit := do
  let election ← store.getElection t.election
  Res.failIf (!trusteeExists election.tx.trustees t.trusteeIndex t.trusteePublicKey) (.trusteeDoesNotExist t.trusteeIndex)

end KeyGenCommitmentTx

/-- keygen.rs:86-105. -/
instance : CBTransaction KeyGenCommitmentTx where
  id t := t.id
  pub t := some t.trusteePublicKey
  electionId t := t.election
  txType := .keyGenCommitment
  toCbor := KeyGenCommitmentTx.toCbor
  validateTx _ t s := t.validateTx s

namespace KeyGenShareTx

/-- `build_id`, keygen.rs:149-153. -/
def buildId (election : Identifier) (i : UInt8) : Identifier :=
  Identifier.new election .keyGenShare (some (trusteeUnique i))

/-- `new`, keygen.rs:134-147. -/
def new (election : Identifier) (i : UInt8) (key : PublicKey) (shares : IndexMap UInt8 EncryptedShare) : KeyGenShareTx :=
  { id := buildId election i, election, trusteeIndex := i, trusteePublicKey := key, shares }

/-- `validate_tx`, keygen.rs:182-210. -/
def validateTx (t : KeyGenShareTx) (store : Store) : VRes Unit := do
  let election ← store.getElection t.election
  Res.failIf (!trusteeExists election.tx.trustees t.trusteeIndex t.trusteePublicKey) (.trusteeDoesNotExist t.trusteeIndex)
  Res.failIf (t.shares.len != election.tx.trustees.length) .wrongNumberOfShares
  Res.forEach (fun tr => Res.failIf (!t.shares.containsKey tr.index) (.trusteeShareMissing t.trusteeIndex)) election.tx.trustees

end KeyGenShareTx

/-- keygen.rs:156-175. -/
instance : CBTransaction KeyGenShareTx where
  id t := t.id
  pub t := some t.trusteePublicKey
  electionId t := t.election
  txType := .keyGenShare
  toCbor := KeyGenShareTx.toCbor
  validateTx _ t s := t.validateTx s

namespace KeyGenPublicKeyTx

/-- `build_id`, keygen.rs:232-240. -/
def buildId (election : Identifier) (i : UInt8) : Identifier :=
  Identifier.new election .keyGenPublicKey (some (trusteeUnique i))

/-- `new`, keygen.rs:215-230. -/
def new (election : Identifier) (i : UInt8) (key : PublicKey) (pk : ElGamalKey) (proof : PubkeyProof) : KeyGenPublicKeyTx :=
  { id := buildId election i, election, trusteeIndex := i, trusteePublicKey := key, publicKey := pk, publicKeyProof := proof }

/-- `validate_tx`, keygen.rs:268-284. -/
def validateTx (t : KeyGenPublicKeyTx) (store : Store) : VRes Unit := do
  let election ← store.getElection t.election
  Res.failIf (!trusteeExists election.tx.trustees t.trusteeIndex t.trusteePublicKey) (.trusteeDoesNotExist t.trusteeIndex)

end KeyGenPublicKeyTx

/-- keygen.rs:243-262. -/
instance : CBTransaction KeyGenPublicKeyTx where
  id t := t.id
  pub t := some t.trusteePublicKey
  electionId t := t.election
  txType := .keyGenPublicKey
  toCbor := KeyGenPublicKeyTx.toCbor
  validateTx _ t s := t.validateTx s

namespace EncryptionKeyTx

/-- `build_id`, keygen.rs:302-304. -/
def buildId (election : Identifier) : Identifier := Identifier.new election .encryptionKey none

/-- `new`, keygen.rs:289-300. -/
def new (election : Identifier) (authority : PublicKey) (key : ElGamalKey) : EncryptionKeyTx :=
  { id := buildId election, election, authorityPublicKey := authority, encryptionKey := key }

/-- `validate_tx`, keygen.rs:332-378. -/
def validateTx (t : EncryptionKeyTx) (store : Store) : VRes Unit := do
  let election ← store.getElection t.election
  Res.failIf (t.authorityPublicKey != election.tx.authorityPublic) .authorityPublicKeyMismatch
  let raw ← store.getMultiple t.election .keyGenPublicKey
  let pkTxs ← Res.mapM' SignedTx.intoKeyGenPublicKey raw
  Res.failIf (pkTxs.length != election.tx.trustees.length) .wrongNumberOfPublicKeyTransactions
  Res.forEach (fun (tr : Trustee) =>
      Res.failIf (!pkTxs.any fun p => p.tx.trusteeIndex == tr.index && p.tx.trusteePublicKey == tr.publicKey)
        (.missingKeyGenPublicKeyTransaction tr.index))
    election.tx.trustees
  Res.forEach (fun (p : Signed KeyGenPublicKeyTx) =>
      Res.failIf (p.tx.publicKey != t.encryptionKey) (.mismatchedEncryptionKey p.tx.trusteeIndex))
    pkTxs

end EncryptionKeyTx

/-- keygen.rs:307-326. -/
instance : CBTransaction EncryptionKeyTx where
  id t := t.id
  pub t := some t.authorityPublicKey
  electionId t := t.election
  txType := .encryptionKey
  toCbor := EncryptionKeyTx.toCbor
  validateTx _ t s := t.validateTx s

/-! ## Voter authentication (authn.rs) -/

/-- `AuthPackage`, authn.rs:131-146. -/
structure AuthPackage where
  electionId : Identifier
  ballotId : Str
  anonymousKey : PublicKey

/-- `pack`, authn.rs:160-162. -/
def AuthPackage.pack (p : AuthPackage) : Bytes :=
  (Cbor.map [(str "election_id", .ident p.electionId), (str "ballot_id", .text p.ballotId),
    (str "anonymous_key", .bytes p.anonymousKey.val)]).encode

/-- `digest`, authn.rs:164-172 (`expect`s that hashing succeeds). -/
def AuthPackage.digest (E : Env) (p : AuthPackage) (key : RsaPublicKey) : VRes Bytes :=
  Res.unwrap (E.rsaDigest key p.pack) .expectFailed

/-- `Authenticator::verify`, authn.rs:101-123. -/
def Authenticator.verify (E : Env) (a : Authenticator) (election : Identifier) (ballotId : Str) (anonymousKey : PublicKey)
    (signature : Bytes) : VRes Unit := do
  let package : AuthPackage := ⟨election, ballotId, anonymousKey⟩
  let key ← Res.ofOption (a.publicKeys.get ballotId) .ballotDoesNotExist
  let digest ← package.digest E key
  if E.rsaVerify key digest signature then pure () else .err .authSignatureVerificationFailed

/-! ## Vote (vote.rs) -/
namespace VoteTx

/-- The first `n ≤ 32` bytes of a public key. (vote.rs:61-68.) -/
def keyPrefix16 (k : PublicKey) : BArr 16 := ⟨k.val.take 16, by have := k.property; simp; omega⟩

/-- `build_id`, vote.rs:61-68. -/
def buildId (election : Identifier) (key : PublicKey) : Identifier :=
  Identifier.new election .vote (some (keyPrefix16 key))

/-- `validate_tx`, vote.rs:93-154.  Line 107-108 builds the upper bound of the collision range with `start` too; so does the model. -/
def validateTx (E : Env) (t : VoteTx) (store : Store) : VRes Unit := do
  Res.failIf (buildId t.election t.anonymousKey != t.id) .identifierBadComposition
  let election ← store.getElection t.election
  let startCollision ← Identifier.start t.election .vote (some (t.anonymousKey.val.take 10))
  let endCollision ← Identifier.start t.election .vote (some (t.anonymousKey.val.take 10))
  let colliding ← store.range startCollision endCollision
  Res.failIf (decide (colliding.length > 0)) .voteAnonymousKeyCollision
  Res.failIf (store.getTransaction (Identifier.new t.election .encryptionKey none)).isNone .encryptionKeyTransactionDoesNotExist
  Res.failIf (store.getTransaction (Identifier.new t.election .votingEnd none)).isSome .votingHasEnded
  Res.forEach (fun (authn : Authentication) => do
      let authenticator ← Res.ofOption (election.tx.getAuthenticator authn.authenticator) .authDoesNotExist
      Res.mapErr (fun _ => ValErr.authFailed)
        (authenticator.verify E election.tx.id t.ballotId t.anonymousKey authn.signature))
    t.authentication
  let ballot ← Res.ofOption (election.tx.getBallot t.ballotId) .ballotDoesNotExist
  Res.forEach (fun (ev : EncryptedVote) => Res.failIf (!ballot.contests.contains ev.contestIndex) .votedInWrongContest)
    t.encryptedVotes

end VoteTx

/-- vote.rs:71-90. -/
instance : CBTransaction VoteTx where
  id t := t.id
  pub t := some t.anonymousKey
  electionId t := t.election
  txType := .vote
  toCbor := VoteTx.toCbor
  validateTx E t s := t.validateTx E s

/-! ## Voting end (voting_end.rs) -/
namespace VotingEndTx

/-- `new`, voting_end.rs:15-21. -/
def new (election : Identifier) (authority : PublicKey) : VotingEndTx :=
  { id := Identifier.new election .votingEnd none, election, authorityPublicKey := authority }

/-- `validate_tx`, voting_end.rs:49-58. -/
def validateTx (t : VotingEndTx) (store : Store) : VRes Unit := do
  let election ← store.getElection t.election
  Res.failIf (t.authorityPublicKey != election.tx.authorityPublic) .authorityPublicKeyMismatch

end VotingEndTx

/-- voting_end.rs:24-43. -/
instance : CBTransaction VotingEndTx where
  id t := t.id
  pub t := some t.authorityPublicKey
  electionId t := t.election
  txType := .votingEnd
  toCbor := VotingEndTx.toCbor
  validateTx _ t s := t.validateTx s

/-! ## Mix (mix.rs) -/

/-- `generate_pedersen_seed`, mix.rs:319-330. -/
def pedersenSeed (trusteeIndex mixIndex : UInt8) (contestIndex batch : UInt32) : Bytes :=
  [trusteeIndex, mixIndex] ++ u32be contestIndex ++ u32be batch

/-- `has_unique_elements`, mix.rs:332-339 (`seen` is the hash set). -/
def hasUniqueElements {α : Type} [DecidableEq α] : (seen : List α) → List α → Bool
  | _, [] => true
  | seen, x :: xs => !seen.contains x && hasUniqueElements (x :: seen) xs

/-- `<[Identifier]>::is_sorted()`, mix.rs:203 (std, by `partial_cmp`). -/
def isSortedIds : List Identifier → Bool
  | [] => true
  | [_] => true
  | a :: b :: rest =>
    (match Identifier.partialCmp a b with
      | some .gt => false
      | some _ => true
      | none => false) && isSortedIds (b :: rest)

/-- The loop of mix.rs:225-229: `vote_ids[i]` against the `i`-th stored vote (indexing panics when out of range). -/
def voteIdsMatch : List Identifier → List SignedTx → VRes Unit
  | _, [] => .ok ()
  | [], _ :: _ => .panic .sliceLen
  | i :: is, v :: vs => if i ≠ v.id then .err .mixVotesNotAccountedFor else voteIdsMatch is vs

namespace MixTx

/-- The 16 bytes of mix.rs:98-105. -/
def uniqueInfo (contestIndex batch : UInt32) (mixIndex trusteeIndex : UInt8) : BArr 16 :=
  ⟨u32be contestIndex ++ u32be batch ++ [mixIndex, trusteeIndex] ++ List.replicate 6 0, by simp [u32be]⟩

/-- `build_id`, mix.rs:91-111. -/
def buildId (election : Identifier) (contestIndex batch : UInt32) (mixIndex trusteeIndex : UInt8) : Identifier :=
  Identifier.new election .mix (some (uniqueInfo contestIndex batch mixIndex trusteeIndex))

/-- `new`, mix.rs:58-88. -/
def new (election : Identifier) (prevMixId : Option Identifier) (trustee : Trustee) (mixIndex : UInt8)
    (contestIndex batch : UInt32) (voteIds : List Identifier) (mixed : List (List Ciphertext)) (proof : ShuffleProof) : MixTx :=
  { id := buildId election contestIndex batch mixIndex trustee.index, electionId := election, prevMixId,
    trusteeIndex := trustee.index, trusteePublicKey := trustee.publicKey, mixIndex, contestIndex, batch, voteIds,
    mixedCiphertexts := mixed, proof }

/-- `verify_mix`, mix.rs:293-317. -/
def verifyMix (E : Env) (inputs outputs : List (List Ciphertext)) (key : ElGamalKey) (proof : ShuffleProof)
    (trusteeIndex mixIndex : UInt8) (contestIndex batch : UInt32) : VRes Unit :=
  Res.failIf (!E.shuffleVerify (pedersenSeed trusteeIndex mixIndex contestIndex batch) inputs.length proof inputs outputs key)
    .shuffleVerificationFailed

/-- mix.rs:179-195: the inputs when a previous mix is named. -/
def inputsFromPrev (E : Env) (t : MixTx) (store : Store) (prevId : Identifier) : VRes (List (List Ciphertext)) := do
  let raw ← Res.ofOption (store.getTransaction prevId) .missingPrevMixTransaction
  let prev ← raw.intoMix
  let next ← E.addU8 prev.tx.mixIndex 1
  Res.failIf (t.mixIndex != next || t.electionId != prev.tx.electionId || t.contestIndex != prev.tx.contestIndex
      || t.batch != prev.tx.batch || t.voteIds != prev.tx.voteIds)
    .invalidPrevMixTransaction
  pure prev.tx.mixedCiphertexts

/-- mix.rs:196-243: the inputs of a first mix. -/
def inputsFromVotes (t : MixTx) (store : Store) : VRes (List (List Ciphertext)) := do
  Res.failIf (t.mixIndex != 0) .outOfOrderMix
  Res.failIf (!isSortedIds t.voteIds) .mixVoteIdsNotSorted
  Res.failIf (!hasUniqueElements [] t.voteIds) .mixVoteIdsNotSorted
  let start ← Identifier.start t.electionId .vote none
  let stop ← Identifier.end t.electionId .vote none
  let votes ← store.range start stop
  Res.failIf (votes.length != t.voteIds.length) .mixWrongNumberOfVotes
  voteIdsMatch t.voteIds votes
  Res.flatMapM (fun v => do
      let vote ← SignedTx.intoVote v
      pure ((vote.tx.encryptedVotes.filter fun ev => ev.contestIndex == t.contestIndex).map (·.selections)))
    votes

/-- mix.rs:179-243: the ciphertexts this mix claims to shuffle. -/
def inputs (E : Env) (t : MixTx) (store : Store) : VRes (List (List Ciphertext)) :=
  match t.prevMixId with
  | some prevId => inputsFromPrev E t store prevId
  | none => inputsFromVotes t store

/-- `validate_tx`, mix.rs:136-264. -/
def validateTx (E : Env) (t : MixTx) (store : Store) : VRes Unit := do
  Res.failIf (buildId t.electionId t.contestIndex t.batch t.mixIndex t.trusteeIndex != t.id) .identifierBadComposition
  let election ← store.getElection t.electionId
  Res.failIf election.tx.mixConfig.isNone .noMixnetConfig
  Res.failIf (!trusteeExists election.tx.trustees t.trusteeIndex t.trusteePublicKey) (.trusteeDoesNotExist t.trusteeIndex)
  let expected ← E.subU8 t.trusteeIndex 1
  Res.failIf (t.mixIndex != expected) .outOfOrderMix
  Res.failIf (t.mixedCiphertexts.length != t.voteIds.length) .mixWrongNumberOfVotes
  let inputs ← t.inputs E store
  let keyRaw ← Res.ofOption (store.getTransaction (Identifier.new t.electionId .encryptionKey none))
    .encryptionKeyTransactionDoesNotExist
  let key ← keyRaw.intoEncryptionKey
  verifyMix E inputs t.mixedCiphertexts key.tx.encryptionKey t.proof t.trusteeIndex t.mixIndex t.contestIndex t.batch

end MixTx

/-- mix.rs:114-133. -/
instance : CBTransaction MixTx where
  id t := t.id
  pub t := some t.trusteePublicKey
  electionId t := t.electionId
  txType := .mix
  toCbor := MixTx.toCbor
  validateTx E t s := t.validateTx E s

/-! ## Decryption (decryption.rs) -/

/-- `build_unique_info`, decryption.rs:444-476. -/
def buildUniqueInfo (upstream : Identifier) (contestIndex : UInt32) (upstreamIndex : UInt16) (trusteeIndex : UInt8) : BArr 16 :=
  match upstream.txType with
  | .mix =>
    ⟨u32be contestIndex ++ [upstream.txType.toU8] ++ (upstream.uniqueInfo.val.drop 4).take 8 ++ u16be upstreamIndex ++ [trusteeIndex],
      by have := upstream.uniqueInfo.property; simp [u32be, u16be]; omega⟩
  | .vote =>
    ⟨u32be contestIndex ++ [upstream.txType.toU8] ++ upstream.uniqueInfo.val.take 10 ++ [trusteeIndex],
      by have := upstream.uniqueInfo.property; simp [u32be]; omega⟩
  | _ => ⟨u32be contestIndex ++ [upstream.txType.toU8] ++ List.replicate 11 0, by simp [u32be]⟩

/-- `encrypted_vote_from_upstream_tx`, decryption.rs:390-441.  `len() as u16` wraps; `swap_remove(i)` returns element `i`. -/
def encryptedVoteFromUpstream (store : Store) (upstreamId : Identifier) (upstreamIndex : UInt16) (contestIndex : UInt32)
    (mixConfig : Option MixConfig) : VRes (List Ciphertext) :=
  match upstreamId.txType with
  | .vote => do
    Res.failIf mixConfig.isSome .invalidUpstreamID
    Res.failIf (upstreamIndex != 0) .invalidUpstreamIndex
    let vote ← store.getVote upstreamId
    match vote.tx.encryptedVotes.find? fun ev => ev.contestIndex == contestIndex with
    | some ev => pure ev.selections
    | none => .err .invalidUpstreamContestIndex
  | .mix => do
    let mix ← store.getMix upstreamId
    Res.failIf (mix.tx.contestIndex != contestIndex) .invalidUpstreamContestIndex
    Res.failIf mixConfig.isNone .invalidUpstreamID
    Res.failIf (decide (upstreamIndex ≥ UInt16.ofNat mix.tx.mixedCiphertexts.length)) .invalidUpstreamIndex
    Res.unwrap mix.tx.mixedCiphertexts[upstreamIndex.toNat]? .sliceLen
  | _ => .err .invalidUpstreamID

namespace PartialDecryptionTx

/-- `build_id`, decryption.rs:63-78. -/
def buildId (election upstream : Identifier) (contestIndex : UInt32) (upstreamIndex : UInt16) (trusteeIndex : UInt8) : Identifier :=
  Identifier.new election .partialDecryption (some (buildUniqueInfo upstream contestIndex upstreamIndex trusteeIndex))

/-- `new`, decryption.rs:35-60. -/
def new (election upstream : Identifier) (upstreamIndex : UInt16) (trusteeIndex : UInt8) (contestIndex : UInt32)
    (key : PublicKey) (partials : List DecryptShare) : PartialDecryptionTx :=
  { id := buildId election upstream contestIndex upstreamIndex trusteeIndex, electionId := election, upstreamId := upstream,
    upstreamIndex, trusteeIndex, contestIndex, trusteePublicKey := key, partialDecryption := partials }

/-- The loop of decryption.rs:165-169: share `i` against ciphertext `i` (indexing panics when out of range). -/
def verifyShares (E : Env) (proof : PubkeyProof) : List DecryptShare → List Ciphertext → VRes Unit
  | [], _ => .ok ()
  | _ :: _, [] => .panic .sliceLen
  | s :: ss, c :: cs => if E.shareVerify s proof c then verifyShares E proof ss cs else .err .partialDecryptionProofFailed

/-- `validate_tx`, decryption.rs:103-172. -/
def validateTx (E : Env) (t : PartialDecryptionTx) (store : Store) : VRes Unit := do
  let election ← store.getElection t.electionId
  let trustee ← Res.ofOption
    (election.tx.getFullTrustees.find? fun tr => tr.index == t.trusteeIndex && tr.publicKey == t.trusteePublicKey)
    (.trusteeDoesNotExist t.trusteeIndex)
  Res.failIf (buildId t.electionId t.upstreamId t.contestIndex t.upstreamIndex trustee.index != t.id) .identifierBadComposition
  Res.failIf (store.getTransaction (Identifier.new t.electionId .votingEnd none)).isNone .missingVotingEndTransaction
  let encryptedVote ← encryptedVoteFromUpstream store t.upstreamId t.upstreamIndex t.contestIndex election.tx.mixConfig
  let publicKey ← store.getKeygenPublicKey (KeyGenPublicKeyTx.buildId t.electionId t.trusteeIndex)
  Res.failIf (t.trusteeIndex != publicKey.tx.trusteeIndex || t.trusteePublicKey != publicKey.tx.trusteePublicKey)
    (.trusteePublicKeyMismatch t.trusteeIndex)
  Res.failIf (encryptedVote.length != t.partialDecryption.length) .partialDecryptionProofFailed
  verifyShares E publicKey.tx.publicKeyProof t.partialDecryption encryptedVote

end PartialDecryptionTx

/-- decryption.rs:81-100; `tx_type()` really is `Decryption` there. -/
instance : CBTransaction PartialDecryptionTx where
  id t := t.id
  pub t := some t.trusteePublicKey
  electionId t := t.electionId
  txType := .decryption
  toCbor := PartialDecryptionTx.toCbor
  validateTx E t s := t.validateTx E s

/-- `collect()` into a `HashMap` keyed by trustee index followed by `get`: the last element with the key wins
(decryption.rs:348-357). -/
def lastByIndex {α : Type} (key : α → UInt8) (i : UInt8) (l : List α) : Option α := l.reverse.find? fun a => key a == i

/-- The shares added for ciphertext number `i`, decryption.rs:365-375. -/
def sharesFor (trustees : List Trustee) (pubkeys : List KeyGenPublicKeyTx) (partials : List PartialDecryptionTx) (i : Nat) :
    VRes (List (Nat × PubkeyProof × DecryptShare)) :=
  Res.flatMapM (fun tr =>
      match lastByIndex (·.trusteeIndex) tr.index partials, lastByIndex (·.trusteeIndex) tr.index pubkeys with
      | some partialTx, some pubkey => do
        let share ← Res.unwrap partialTx.partialDecryption[i]? .sliceLen
        pure [(tr.index.toNat, pubkey.publicKeyProof, share)]
      | _, _ => pure [])
    trustees

/-- `decrypt_vote` from ciphertext number `i` on, decryption.rs:361-383. -/
def decryptVoteFrom (E : Env) (threshold : UInt8) (trustees : List Trustee) (pubkeys : List KeyGenPublicKeyTx)
    (partials : List PartialDecryptionTx) : Nat → List Ciphertext → VRes (List Selection)
  | _, [] => .ok []
  | i, c :: cs => do
    let shares ← sharesFor trustees pubkeys partials i
    let raw ← (match E.thresholdDecrypt threshold.toNat c shares with
      | .ok b => Res.ok b
      | .error e => Res.err (ValErr.voteDecryptionFailed e))
    let selection ← Res.ofOption (Selection.decode raw) ValErr.voteDecodingError
    let rest ← decryptVoteFrom E threshold trustees pubkeys partials (i + 1) cs
    pure (selection :: rest)

/-- `decrypt_vote`, decryption.rs:340-386. -/
def decryptVote (E : Env) (ciphertexts : List Ciphertext) (threshold : UInt8) (trustees : List Trustee)
    (pubkeys : List KeyGenPublicKeyTx) (partials : List PartialDecryptionTx) : VRes (List Selection) :=
  decryptVoteFrom E threshold trustees pubkeys partials 0 ciphertexts

namespace DecryptionTx

/-- `build_id`, decryption.rs:225-234. -/
def buildId (election upstream : Identifier) (contestIndex : UInt32) (upstreamIndex : UInt16) : Identifier :=
  Identifier.new election .decryption (some (buildUniqueInfo upstream contestIndex upstreamIndex 0))

/-- `new`, decryption.rs:203-223; `debug_assert!` on equal election ids. -/
def new {ε : Type} (E : Env) (election upstream : Identifier) (contestIndex : UInt32) (upstreamIndex : UInt16) (trustees : List UInt8)
    (decrypted : List Selection) : Res ε DecryptionTx :=
  if E.debugAssertions = true ∧ election.electionId ≠ upstream.electionId then .panic .debugAssert
  else .ok
    { id := buildId election upstream contestIndex upstreamIndex, electionId := election, upstreamId := upstream,
      contestIndex, upstreamIndex, trustees, decryptedVote := decrypted }

/-- `validate_tx`, decryption.rs:260-336. -/
def validateTx (E : Env) (t : DecryptionTx) (store : Store) : VRes Unit := do
  Res.failIf (buildId t.electionId t.upstreamId t.contestIndex t.upstreamIndex != t.id) .identifierBadComposition
  let election ← store.getElection t.electionId
  let encryptedVote ← encryptedVoteFromUpstream store t.upstreamId t.upstreamIndex t.contestIndex election.tx.mixConfig
  let raw ← store.getMultiple t.electionId .keyGenPublicKey
  let pubkeys ← Res.mapM' SignedTx.intoKeyGenPublicKey raw
  let partials ← Res.mapM' (fun i => do
      let trustee ← Res.ofOption (election.tx.getTrustee i) (ValErr.trusteeDoesNotExist i)
      store.getPartialDecryption
        (PartialDecryptionTx.buildId t.electionId t.upstreamId t.contestIndex t.upstreamIndex trustee.index))
    t.trustees
  Res.failIf (decide (partials.length < election.tx.trusteesThreshold.toNat))
    (.notEnoughShares election.tx.trusteesThreshold.toNat partials.length)
  let decrypted ← decryptVote E encryptedVote election.tx.trusteesThreshold election.tx.trustees (pubkeys.map (·.tx))
    (partials.map (·.tx))
  Res.failIf (decrypted != t.decryptedVote) .voteDecryptionMismatch

end DecryptionTx

/-- decryption.rs:237-257: nobody signs a decryption. -/
instance : CBTransaction DecryptionTx where
  id t := t.id
  pub _ := none
  electionId t := t.electionId
  txType := .decryption
  toCbor := DecryptionTx.toCbor
  validateTx E t s := t.validateTx E s

/-! ## `SignedTransaction` -/
namespace SignedTx

/-- `SignedTransaction::public`, transaction.rs:186-199. -/
def pub : SignedTx → Option PublicKey
  | election s => CBTransaction.pub s.tx
  | keyGenCommitment s => CBTransaction.pub s.tx
  | keyGenShare s => CBTransaction.pub s.tx
  | keyGenPublicKey s => CBTransaction.pub s.tx
  | encryptionKey s => CBTransaction.pub s.tx
  | vote s => CBTransaction.pub s.tx
  | votingEnd s => CBTransaction.pub s.tx
  | mix s => CBTransaction.pub s.tx
  | partialDecryption s => CBTransaction.pub s.tx
  | decryption s => CBTransaction.pub s.tx

/-- `SignedTransaction::verify_signature`, transaction.rs:171-184. -/
def verifySignature (E : Env) : SignedTx → VRes Unit
  | election s => s.verifySignature E
  | keyGenCommitment s => s.verifySignature E
  | keyGenShare s => s.verifySignature E
  | keyGenPublicKey s => s.verifySignature E
  | encryptionKey s => s.verifySignature E
  | vote s => s.verifySignature E
  | votingEnd s => s.verifySignature E
  | mix s => s.verifySignature E
  | partialDecryption s => s.verifySignature E
  | decryption s => s.verifySignature E

/-- `SignedTransaction::validate`, transaction.rs:153-169. -/
def validate (E : Env) (t : SignedTx) (store : Store) : VRes Unit := do
  Res.failIf (t.id.txType != t.transactionType) .mismatchedTransactionType
  match t with
  | election s => s.validate E store
  | keyGenCommitment s => s.validate E store
  | keyGenShare s => s.validate E store
  | keyGenPublicKey s => s.validate E store
  | encryptionKey s => s.validate E store
  | vote s => s.validate E store
  | votingEnd s => s.validate E store
  | mix s => s.validate E store
  | partialDecryption s => s.validate E store
  | decryption s => s.validate E store

end SignedTx
end CB
