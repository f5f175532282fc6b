import Verif.Model.Crypto
import Verif.Model.Store
import Verif.Spec.Store
/-!
# Specification vocabulary for validation

Relations between a store and transactions, in the terms of the protocol.  Only `Store.getTransaction` and the data types are used.
-/

namespace CB.Spec

/-- What every user of `Store` expects from an implementation: entries are filed under their own id, and `range` lists exactly the entries between
two bounds, ascending. -/
structure Lawful (S : Store) : Prop where
  keyed : ∀ id t, S.getTransaction id = some t → t.id = id
  range_ok : ∀ a b, IdLe a b → ∃ l, S.range a b = .ok l ∧
    (∀ t, t ∈ l ↔ S.getTransaction t.id = some t ∧ IdLe a t.id ∧ IdLe t.id b) ∧ l.Pairwise IdLt

/-- The transaction is stored (under its own id). -/
def InStore (S : Store) (t : SignedTx) : Prop := S.getTransaction t.id = some t

/-- The election stored under this id. -/
def ElectionAt (S : Store) (id : Identifier) (e : ElectionTx) : Prop := ∃ sig, S.getTransaction id = some (.election ⟨e, sig⟩)

/-- The election lists a trustee with this index and this key. -/
def IsTrustee (e : ElectionTx) (index : UInt8) (key : PublicKey) : Prop :=
  ∃ tr ∈ e.trustees, tr.index = index ∧ tr.publicKey = key

/-- 16 zero bytes -/
def zero16 : BArr 16 := ⟨List.replicate 16 0, by simp⟩

/-- The id of the unique step of this type in an election (election, encryption key, voting end). -/
def singleId (election : Identifier) (t : TxType) : Identifier := ⟨election.electionId, t, zero16⟩

/-- Some transaction is stored in the election's slot for this step. -/
def SlotFilled (S : Store) (election : Identifier) (t : TxType) : Prop := ∃ x, S.getTransaction (singleId election t) = some x

/-- The public key that must have signed the transaction; none for a decryption. -/
def signerOf : SignedTx → Option PublicKey
  | .election s => some s.tx.authorityPublic
  | .keyGenCommitment s => some s.tx.trusteePublicKey
  | .keyGenShare s => some s.tx.trusteePublicKey
  | .keyGenPublicKey s => some s.tx.trusteePublicKey
  | .encryptionKey s => some s.tx.authorityPublicKey
  | .vote s => some s.tx.anonymousKey
  | .votingEnd s => some s.tx.authorityPublicKey
  | .mix s => some s.tx.trusteePublicKey
  | .partialDecryption s => some s.tx.trusteePublicKey
  | .decryption _ => none

/-- The signature the transaction carries. -/
def signatureOf : SignedTx → Signature
  | .election s => s.sig
  | .keyGenCommitment s => s.sig
  | .keyGenShare s => s.sig
  | .keyGenPublicKey s => s.sig
  | .encryptionKey s => s.sig
  | .vote s => s.sig
  | .votingEnd s => s.sig
  | .mix s => s.sig
  | .partialDecryption s => s.sig
  | .decryption s => s.sig

/-- The bytes the signature is over: the CBOR serialization of the unsigned transaction. -/
def signedBytes : SignedTx → Bytes
  | .election s => s.tx.toCbor.encode
  | .keyGenCommitment s => s.tx.toCbor.encode
  | .keyGenShare s => s.tx.toCbor.encode
  | .keyGenPublicKey s => s.tx.toCbor.encode
  | .encryptionKey s => s.tx.toCbor.encode
  | .vote s => s.tx.toCbor.encode
  | .votingEnd s => s.tx.toCbor.encode
  | .mix s => s.tx.toCbor.encode
  | .partialDecryption s => s.tx.toCbor.encode
  | .decryption s => s.tx.toCbor.encode

/-- The transaction is correctly signed by the key it names. -/
def SignatureValid (E : Env) (t : SignedTx) : Prop :=
  ∀ key, signerOf t = some key → E.edVerify key (signedBytes t) (signatureOf t) = true

/-- The election a transaction names as its own. -/
def electionOf : SignedTx → Identifier
  | .election s => s.tx.id
  | .keyGenCommitment s => s.tx.election
  | .keyGenShare s => s.tx.election
  | .keyGenPublicKey s => s.tx.election
  | .encryptionKey s => s.tx.election
  | .vote s => s.tx.election
  | .votingEnd s => s.tx.election
  | .mix s => s.tx.electionId
  | .partialDecryption s => s.tx.electionId
  | .decryption s => s.tx.electionId

/-- The ciphertexts to be decrypted for one item of a contest: without mixnet the (first) encrypted vote for the contest in the stored vote `upstream`
(position 0), with mixnet the entry at position `index` of the stored mix `upstream` of that contest. -/
inductive ItemAt (S : Store) (upstream : Identifier) (index : UInt16) (contest : UInt32) :
    (mixnet : Option MixConfig) → List Ciphertext → Prop
  | ofVote {v : VoteTx} {sig : Signature} {before after : List EncryptedVote} {cts : List Ciphertext} :
      S.getTransaction upstream = some (.vote ⟨v, sig⟩) → upstream.txType = .vote → index = 0 →
      v.encryptedVotes = before ++ ⟨contest, cts⟩ :: after → (∀ ev ∈ before, ev.contestIndex ≠ contest) →
      ItemAt S upstream index contest none cts
  | ofMix {m : MixTx} {sig : Signature} {cfg : MixConfig} {cts : List Ciphertext} :
      S.getTransaction upstream = some (.mix ⟨m, sig⟩) → upstream.txType = .mix → m.contestIndex = contest →
      m.mixedCiphertexts[index.toNat]? = some cts →
      ItemAt S upstream index contest (some cfg) cts

/-- `votes` are exactly the stored votes of the election, each once, in ascending order of id. -/
def AllVotes (S : Store) (election : Identifier) (votes : List (Signed VoteTx)) : Prop :=
  (∀ t : SignedTx, (InStore S t ∧ t.id.electionId = election.electionId ∧ t.id.txType = .vote) ↔ ∃ v ∈ votes, t = .vote v) ∧
  (votes.map SignedTx.vote).Pairwise IdLt

/-- All encrypted votes for one contest, in the order of the votes and of the encrypted votes inside each. -/
def contestVotes (contest : UInt32) : List (Signed VoteTx) → List (List Ciphertext)
  | [] => []
  | v :: vs => (v.tx.encryptedVotes.filter fun ev => ev.contestIndex = contest).map (·.selections) ++ contestVotes contest vs

end CB.Spec

namespace CB.Spec

/-- The `into()` conversion that code scanning for type `ty` applies to `t` succeeds. -/
def Converts (t : SignedTx) : (ty : TxType) → Prop
  | .election => ∃ s, t.intoElection = .ok s
  | .keyGenCommitment => ∃ s, t.intoKeyGenCommitment = .ok s
  | .keyGenShare => ∃ s, t.intoKeyGenShare = .ok s
  | .keyGenPublicKey => ∃ s, t.intoKeyGenPublicKey = .ok s
  | .encryptionKey => ∃ s, t.intoEncryptionKey = .ok s
  | .vote => ∃ s, t.intoVote = .ok s
  | .votingEnd => ∃ s, t.intoVotingEnd = .ok s
  | .mix => ∃ s, t.intoMix = .ok s
  | .partialDecryption => ∃ s, t.intoPartialDecryption = .ok s
  | .decryption => ∃ s, t.intoDecryption = .ok s

/-- The kind of a transaction, by its variant. -/
def kindOf : SignedTx → TxType
  | .election _ => .election
  | .keyGenCommitment _ => .keyGenCommitment
  | .keyGenShare _ => .keyGenShare
  | .keyGenPublicKey _ => .keyGenPublicKey
  | .encryptionKey _ => .encryptionKey
  | .vote _ => .vote
  | .votingEnd _ => .votingEnd
  | .mix _ => .mix
  | .partialDecryption _ => .partialDecryption
  | .decryption _ => .decryption

/-- What a trustee's step claims about its author: index and key. -/
def trusteeOf : SignedTx → Option (UInt8 × PublicKey)
  | .keyGenCommitment s => some (s.tx.trusteeIndex, s.tx.trusteePublicKey)
  | .keyGenShare s => some (s.tx.trusteeIndex, s.tx.trusteePublicKey)
  | .keyGenPublicKey s => some (s.tx.trusteeIndex, s.tx.trusteePublicKey)
  | .mix s => some (s.tx.trusteeIndex, s.tx.trusteePublicKey)
  | .partialDecryption s => some (s.tx.trusteeIndex, s.tx.trusteePublicKey)
  | _ => none

/-- Signing with a key and verifying with its public half succeeds (Ed25519 correctness). -/
def SignCorrect (E : Env) : Prop := ∀ sk msg, E.edVerify (E.edPublic sk) msg (E.edSign sk msg) = true

/-- The rules for an election: id made of the election id, type 1 and zeros; thresholds within the numbers of trustees and authenticators. -/
structure WellFormedElection (e : ElectionTx) : Prop where
  type : e.id.txType = .election
  zeros : ∀ b ∈ e.id.uniqueInfo.val, b = 0
  trustees : e.trusteesThreshold.toNat ≤ e.trustees.length
  authenticators : e.authenticatorsThreshold.toNat ≤ e.authenticators.length

end CB.Spec

namespace CB.Spec

/-- What an authenticator signs for a voter: the CBOR map of election id, ballot id and anonymous key. -/
def authMessage (election : Identifier) (ballot : Str) (key : PublicKey) : Bytes :=
  (Cbor.map [(str "election_id", .text election.toString), (str "ballot_id", .text ballot), (str "anonymous_key", .bytes key.val)]).encode

/-- The authentication is a valid signature, on this voter's package, by an authenticator of the election that has a key for this ballot. -/
def AuthenticatedBy (E : Env) (e : ElectionTx) (ballot : Str) (key : PublicKey) (a : Authentication) : Prop :=
  ∃ au ∈ e.authenticators, au.id = a.authenticator ∧ ∃ rsa digest, (ballot, rsa) ∈ au.publicKeys.entries ∧
    E.rsaDigest rsa (authMessage e.id ballot key) = some digest ∧ E.rsaVerify rsa digest a.signature = true

end CB.Spec

namespace CB.Spec

/-- big-endian bytes of a 32-bit number -/
def be32 (n : UInt32) : Bytes :=
  [UInt8.ofNat (n.toNat / 2 ^ 24), UInt8.ofNat (n.toNat / 2 ^ 16), UInt8.ofNat (n.toNat / 2 ^ 8), UInt8.ofNat n.toNat]

/-- The domain-separation seed of a shuffle: trustee index, mix index, contest, batch. -/
def shuffleSeed (t : MixTx) : Bytes := [t.trusteeIndex, t.mixIndex] ++ be32 t.contestIndex ++ be32 t.batch

/-- Stored mixes `chain[0], chain[1], …` of one election, contest, batch and vote list, each shuffling the outputs of the one before. -/
structure IsMixChain (S : Store) (chain : List (Signed MixTx)) : Prop where
  stored : ∀ c ∈ chain, InStore S (.mix c)
  index : ∀ (i : Nat) c, chain[i]? = some c → c.tx.mixIndex.toNat = i ∧ c.tx.trusteeIndex = c.tx.mixIndex + 1
  same : ∀ c ∈ chain, ∀ d ∈ chain, c.tx.electionId = d.tx.electionId ∧ c.tx.contestIndex = d.tx.contestIndex ∧
    c.tx.batch = d.tx.batch ∧ c.tx.voteIds = d.tx.voteIds
  first : ∀ c, chain[0]? = some c → c.tx.prevMixId = none
  linked : ∀ (i : Nat) c d, chain[i]? = some c → chain[i + 1]? = some d → d.tx.prevMixId = some c.tx.id
  outputs : ∀ c ∈ chain, c.tx.mixedCiphertexts.length = c.tx.voteIds.length
  trustees : ∀ c ∈ chain, ∃ e, ElectionAt S c.tx.electionId e ∧ IsTrustee e c.tx.trusteeIndex c.tx.trusteePublicKey
  distinct : (chain.map (·.tx.trusteeIndex)).Nodup

/-- Shuffle proofs are sound for the decryption function `plain`: outputs decrypt to a permutation of what the inputs decrypt to. -/
def ShuffleSound {P : Type} (E : Env) (plain : ElGamalKey → Ciphertext → P) : Prop :=
  ∀ seed n proof inputs outputs key, E.shuffleVerify seed n proof inputs outputs key = true →
    List.Perm (inputs.map (·.map (plain key))) (outputs.map (·.map (plain key)))

end CB.Spec

namespace CB.Spec

/-- Two item references (upstream id, position) that the ids of partial decryptions and decryptions cannot tell apart: votes by their first 10 key
bytes, mixes by batch, mix index and trustee (bytes 4..12 of their unique info) and position. -/
inductive SameItem : Identifier → UInt16 → Identifier → UInt16 → Prop
  | vote {a b : Identifier} : a.txType = .vote → b.txType = .vote → a.uniqueInfo.val.take 10 = b.uniqueInfo.val.take 10 → SameItem a 0 b 0
  | mix {a b : Identifier} {n : UInt16} : a.txType = .mix → b.txType = .mix →
      (a.uniqueInfo.val.drop 4).take 8 = (b.uniqueInfo.val.drop 4).take 8 → SameItem a n b n

/-- A stored partial decryption by trustee `i` for the election, contest and item of a decryption. -/
structure PartialFor (S : Store) (t : DecryptionTx) (i : UInt8) (p : Signed PartialDecryptionTx) : Prop where
  stored : InStore S (.partialDecryption p)
  election : p.tx.electionId.electionId = t.electionId.electionId
  contest : p.tx.contestIndex = t.contestIndex
  trustee : p.tx.trusteeIndex = i
  item : SameItem p.tx.upstreamId p.tx.upstreamIndex t.upstreamId t.upstreamIndex

/-- The key-generation public key used for trustee `i`: among the stored ones of the election that name `i`, the one with the greatest id. -/
structure PubkeyFor (S : Store) (el : Identifier) (i : UInt8) (p : Signed KeyGenPublicKeyTx) : Prop where
  stored : InStore S (.keyGenPublicKey p)
  election : p.tx.id.electionId = el.electionId
  trustee : p.tx.trusteeIndex = i
  last : ∀ q : Signed KeyGenPublicKeyTx, InStore S (.keyGenPublicKey q) → q.tx.id.electionId = el.electionId →
    q.tx.id.txType = .keyGenPublicKey → q.tx.trusteeIndex = i → IdLe q.tx.id p.tx.id

/-- The shares that go into decrypting ciphertext number `j`: for each listed trustee that the decryption names and that has a public key, its index,
its public-key proof and share number `j` of its stored partial decryption. -/
inductive Shares (S : Store) (t : DecryptionTx) (j : Nat) : List Trustee → List (Nat × PubkeyProof × DecryptShare) → Prop
  | nil : Shares S t j [] []
  | used {tr : Trustee} {trs : List Trustee} {l : List (Nat × PubkeyProof × DecryptShare)} {p : Signed PartialDecryptionTx}
      {pk : Signed KeyGenPublicKeyTx} {s : DecryptShare} :
      tr.index ∈ t.trustees → PartialFor S t tr.index p → PubkeyFor S t.electionId tr.index pk → p.tx.partialDecryption[j]? = some s →
      Shares S t j trs l → Shares S t j (tr :: trs) ((tr.index.toNat, pk.tx.publicKeyProof, s) :: l)
  | skipped {tr : Trustee} {trs : List Trustee} {l : List (Nat × PubkeyProof × DecryptShare)} :
      tr.index ∉ t.trustees ∨ (∀ pk, ¬ PubkeyFor S t.electionId tr.index pk) →
      Shares S t j trs l → Shares S t j (tr :: trs) l

end CB.Spec
