import Verif.Model.Trustee
import Verif.Model.Exonum
/-!
# The trustee node (cryptoballot_server/src/tasks.rs, service.rs)

What a node submits in reaction to a committed transaction.  The node's secret key (`crate::secret_key()`) and the randomness are arguments.
Not modelled: printing, the time at which submissions reach the ledger, and `DEPENDENT_TXS`, which no code ever fills.
-/

namespace CB
namespace Server

/-- `cryptoballot::Error` as far as the tasks return it.  (`TransactionNotFound` is `ValErr.transactionNotFound` here.) (cryptoballot/src/error.rs:7-61.) -/
inductive Error
  | sign (e : SignErr)
  | validation (e : ValErr)
  | shuffle (e : CryptoError)
  | cannotFindContest (i : UInt32)
  | unexpectedTransactionType
  deriving DecidableEq, Repr

/-- the result type of tasks.rs. -/
abbrev SRes := Res Error

/-- the `From<ValidationError>` / `From<TransactionNotFound>` conversion of `?`. (cryptoballot/src/error.rs:7-61, for example tasks.rs:196.) -/
def v {α : Type} (r : VRes α) : SRes α := Res.mapErr .validation r

/-- `Signed::sign(&secret_key, tx)?`. (tasks.rs:180, 213, 299, 378, 470, 555, 589.) -/
def sign {T : Type} [CBTransaction T] (N : NodeEnv) (sk : SecretKey) (tx : T) : SRes (Signed T) := Res.mapErr .sign (Signed.sign N.toEnv sk tx)

/-- `store.get_multiple(id, type).into_iter().map(|tx| tx.into()).collect()`. (for example tasks.rs:200-204.) -/
def getAll {T : Type} (S : Store) (election : Identifier) (ty : TxType) (into : SignedTx → VRes (Signed T)) : SRes (List T) := do
  let raw ← v (S.getMultiple election ty)
  let txs ← v (Res.mapM' into raw)
  pure (txs.map (·.tx))

/-- `trustee_from_election`, tasks.rs:598-608: the first trustee with the key, with the election's numbers filled in. -/
def trusteeFromElection (e : ElectionTx) (key : PublicKey) : Option Trustee := e.getFullTrustees.find? fun tr => tr.publicKey == key

/-- `process_election`, tasks.rs:37-60. -/
def processElection (N : NodeEnv) (sk : SecretKey) (e : ElectionTx) : SRes (List SignedTx) :=
  match trusteeFromElection e (N.edPublic sk) with
  | some trustee => do
    let tx := KeyGenCommitmentTx.new e.id trustee.index trustee.publicKey (Trustee.x25519Key N sk e.id) (trustee.keygenCommitment N sk e.id)
    let s ← sign N sk tx
    pure [.keyGenCommitment s]
  | none => pure []

/-- `process_keygen_commitment`, tasks.rs:63-113. -/
def processKeygenCommitment (N : NodeEnv) (rng : Rng) (sk : SecretKey) (S : Store) (t : KeyGenCommitmentTx) : SRes (List SignedTx) := do
  let election ← v (S.getElection t.election)
  match trusteeFromElection election.tx (N.edPublic sk) with
  | some trustee => do
    let commits ← getAll S election.tx.id .keyGenCommitment SignedTx.intoKeyGenCommitment
    if commits.length = election.tx.trustees.length then do
      let shares ← trustee.generateShares N rng sk (commits.map fun c => (c.trusteeIndex, c.x25519PublicKey)) election.tx.id
        (commits.map fun c => (c.trusteeIndex, c.commitment))
      let s ← sign N sk (KeyGenShareTx.new election.tx.id trustee.index trustee.publicKey shares)
      pure [.keyGenShare s]
    else pure []
  | none => pure []

/-- The shares addressed to this trustee, tasks.rs:154-162 and 515-523 (`unwrap` on a missing one). -/
def sharesFor (trustee : Trustee) (shares : List KeyGenShareTx) : SRes (List (UInt8 × EncryptedShare)) :=
  Res.mapM' (fun s => do
      let share ← Res.unwrap (s.shares.get trustee.index)
      pure (s.trusteeIndex, share))
    shares

/-- `process_keygen_share`, tasks.rs:116-185. -/
def processKeygenShare (N : NodeEnv) (sk : SecretKey) (S : Store) (t : KeyGenShareTx) : SRes (List SignedTx) := do
  let election ← v (S.getElection t.election)
  match trusteeFromElection election.tx (N.edPublic sk) with
  | some trustee => do
    let shareTxs ← getAll S election.tx.id .keyGenShare SignedTx.intoKeyGenShare
    if shareTxs.length ≠ election.tx.trustees.length then pure []
    else do
      let commits ← getAll S election.tx.id .keyGenCommitment SignedTx.intoKeyGenCommitment
      let shares ← sharesFor trustee shareTxs
      let pk ← v (trustee.generatePublicKey N sk (commits.map fun c => (c.trusteeIndex, c.x25519PublicKey))
        (commits.map fun c => (c.trusteeIndex, c.commitment)) shares election.tx.id)
      let s ← sign N sk (KeyGenPublicKeyTx.new election.tx.id trustee.index trustee.publicKey pk.1 pk.2)
      pure [.keyGenPublicKey s]
  | none => pure []

/-- `process_keygen_public_key`, tasks.rs:188-219. -/
def processKeygenPublicKey (N : NodeEnv) (sk : SecretKey) (S : Store) (t : KeyGenPublicKeyTx) : SRes (List SignedTx) := do
  let election ← v (S.getElection t.election)
  if election.tx.authorityPublic = N.edPublic sk then do
    let pks ← getAll S election.tx.id .keyGenPublicKey SignedTx.intoKeyGenPublicKey
    if election.tx.trustees.length = pks.length then do
      let s ← sign N sk (EncryptionKeyTx.new election.tx.id election.tx.authorityPublic t.publicKey)
      pure [.encryptionKey s]
    else pure []
  else pure []

/-- `entry(contest).or_insert(vec![]).push(x)`. (tasks.rs:258-261.) -/
def pushVote {α : Type} (c : UInt32) (x : α) : List (UInt32 × List α) → List (UInt32 × List α)
  | [] => [(c, [x])]
  | (c', xs) :: m => if c' = c then (c', xs ++ [x]) :: m else (c', xs) :: pushVote c x m

/-- The contest → votes map, tasks.rs:254-265.  A `HashMap` there: the order of the contests is arbitrary; here it is the order of first appearance, and no theorem
depends on it. -/
def contestVotes (votes : List VoteTx) : List (UInt32 × List (Identifier × List Ciphertext)) :=
  (votes.flatMap fun vt => vt.encryptedVotes.map fun ev => (ev.contestIndex, (vt.id, ev.selections))).foldl (fun m e => pushVote e.1 e.2 m) []

/-- `mix`, mix.rs:269-290. -/
def mix (N : NodeEnv) (random : Bytes) (cts : List (List Ciphertext)) (key : ElGamalKey) (trusteeIndex mixIndex : UInt8) (contest batch : UInt32) :
    SRes (List (List Ciphertext) × ShuffleProof) :=
  match N.shuffle (pedersenSeed trusteeIndex mixIndex contest batch) cts.length cts key random with
  | .ok r => .ok r
  | .error e => .err (.shuffle e)

/-- `store.get_transaction(EncryptionKeyTransaction::build_id(..)).unwrap().into()`, tasks.rs:242-244 and 347-349. -/
def encryptionKey (S : Store) (election : Identifier) : SRes EncryptionKeyTx := do
  let raw ← Res.unwrap (S.getTransaction (EncryptionKeyTx.buildId election))
  let s ← v raw.intoEncryptionKey
  pure s.tx

/-- The decryption shares of one item, tasks.rs:531-543 and 566-578. -/
def itemShares (N : NodeEnv) (rng : Rng) (sk : SecretKey) (trustee : Trustee) (keys : List (UInt8 × X25519Pub)) (commitments : List (UInt8 × KeygenCommitment))
    (shares : List (UInt8 × EncryptedShare)) (election : Identifier) (pos : List Nat) : Nat → List Ciphertext → SRes (List DecryptShare)
  | _, [] => .ok []
  | k, c :: cs => do
    let s ← v (trustee.partialDecrypt N (rng.bytes (k :: pos)) sk keys commitments shares c election)
    let rest ← itemShares N rng sk trustee keys commitments shares election pos (k + 1) cs
    pure (s :: rest)

/-- The list of things `produce_partials` decrypts, in order: upstream id, index (`as u16`), contest, ciphertexts; tasks.rs:528-530 and 559-565. -/
def partialItems (S : Store) (election : ElectionTx) (contest : UInt32) : Option MixTx → SRes (List (Identifier × UInt16 × UInt32 × List Ciphertext))
  | some m => .ok (m.mixedCiphertexts.mapIdx fun i cts => (m.id, UInt16.ofNat i, contest, cts))
  | none => do
    let votes ← getAll S election.id .vote SignedTx.intoVote
    pure (votes.flatMap fun vt => vt.encryptedVotes.map fun ev => (vt.id, 0, ev.contestIndex, ev.selections))

/-- One partial decryption transaction per item, tasks.rs:530-557 and 562-592. -/
def partialsFrom (N : NodeEnv) (rng : Rng) (sk : SecretKey) (election : ElectionTx) (trustee : Trustee) (keys : List (UInt8 × X25519Pub))
    (commitments : List (UInt8 × KeygenCommitment)) (shares : List (UInt8 × EncryptedShare)) :
    Nat → List (Identifier × UInt16 × UInt32 × List Ciphertext) → SRes (List SignedTx)
  | _, [] => .ok []
  | i, (up, n, c, cts) :: items => do
    let ds ← itemShares N rng sk trustee keys commitments shares election.id [i] 0 cts
    let s ← sign N sk (PartialDecryptionTx.new election.id up n trustee.index c (N.edPublic sk) ds)
    let rest ← partialsFrom N rng sk election trustee keys commitments shares (i + 1) items
    pure (.partialDecryption s :: rest)

/-- `produce_partials`, tasks.rs:479-596. -/
def producePartials (N : NodeEnv) (rng : Rng) (sk : SecretKey) (S : Store) (election : ElectionTx) (trustee : Trustee) (contest : UInt32)
    (mixTx : Option MixTx) : SRes (List SignedTx) := do
  let shareTxs ← getAll S election.id .keyGenShare SignedTx.intoKeyGenShare
  let commits ← getAll S election.id .keyGenCommitment SignedTx.intoKeyGenCommitment
  let shares ← sharesFor trustee shareTxs
  let items ← partialItems S election contest mixTx
  partialsFrom N rng sk election trustee (commits.map fun c => (c.trusteeIndex, c.x25519PublicKey)) (commits.map fun c => (c.trusteeIndex, c.commitment)) shares 0 items

/-- The first mixes, one per contest: tasks.rs:267-303. -/
def firstMixes (N : NodeEnv) (rng : Rng) (sk : SecretKey) (election : ElectionTx) (trustee : Trustee) (key : ElGamalKey) :
    Nat → List (UInt32 × List (Identifier × List Ciphertext)) → SRes (List SignedTx)
  | _, [] => .ok []
  | k, (c, votes) :: rest => do
    let r ← mix N (rng.bytes [k]) (votes.map (·.2)) key trustee.index 0 c 0
    let s ← sign N sk (MixTx.new election.id none trustee 0 c 0 (votes.map (·.1)) r.1 r.2)
    let ss ← firstMixes N rng sk election trustee key (k + 1) rest
    pure (.mix s :: ss)

/-- `process_voting_end`, tasks.rs:222-314. -/
def processVotingEnd (N : NodeEnv) (rng : Rng) (sk : SecretKey) (S : Store) (t : VotingEndTx) : SRes (List SignedTx) := do
  let election ← v (S.getElection t.election)
  match trusteeFromElection election.tx (N.edPublic sk) with
  | some trustee =>
    match election.tx.mixConfig with
    | some _ =>
      if trustee.index = 1 then do
        let key ← encryptionKey S election.tx.id
        let votes ← getAll S election.tx.id .vote SignedTx.intoVote
        firstMixes N rng sk election.tx trustee key.encryptionKey 0 (contestVotes votes)
      else pure []
    | none =>
      -- `for contest in contests { return produce_partials(..) }`: only the first contest is ever looked at
      match election.tx.contests with
      | contest :: _ => producePartials N rng sk S election.tx trustee contest.index none
      | [] => pure []
  | none => pure []

/-- `process_mix`, tasks.rs:317-385. -/
def processMix (N : NodeEnv) (rng : Rng) (sk : SecretKey) (S : Store) (t : MixTx) : SRes (List SignedTx) := do
  let election ← v (S.getElection t.electionId)
  match trusteeFromElection election.tx (N.edPublic sk) with
  | some trustee =>
    match election.tx.mixConfig with
    | some _ => do
      let next ← N.addU8 t.mixIndex 1
      if election.tx.trusteesThreshold = next then producePartials N rng sk S election.tx trustee t.contestIndex (some t)
      else do
        let next2 ← N.addU8 t.mixIndex 2
        if trustee.index = next2 then do
          let key ← encryptionKey S election.tx.id
          let r ← mix N (rng.bytes []) t.mixedCiphertexts key.encryptionKey trustee.index next t.contestIndex 0
          let s ← sign N sk (MixTx.new election.tx.id none trustee next t.contestIndex 0 t.voteIds r.1 r.2)
          pure [.mix s]
        else pure []
    | none => pure []
  | none => pure []

/-- `unique_info[15] = b`. (tasks.rs:404-405, 409.) -/
def withLast (u : BArr 16) (b : UInt8) : BArr 16 := ⟨u.val.take 15 ++ [b], by have := u.property; simp; omega⟩

/-- tasks.rs:421-442: the ciphertexts of the item a partial decryption is about. -/
def upstreamCiphertexts (S : Store) (t : PartialDecryptionTx) : SRes (List Ciphertext) :=
  match t.upstreamId.txType with
  | .vote => do
    let vote ← v (S.getVote t.upstreamId)
    match vote.tx.encryptedVotes.find? fun ev => ev.contestIndex == t.contestIndex with
    | some ev => pure ev.selections
    | none => .err (.cannotFindContest t.contestIndex)
  | .mix => do
    let m ← v (S.getMix t.upstreamId)
    Res.unwrap m.tx.mixedCiphertexts[t.upstreamIndex.toNat]? .sliceLen
  | _ => .err .unexpectedTransactionType

/-- `process_partial_decryption`, tasks.rs:389-476. -/
def processPartialDecryption (N : NodeEnv) (sk : SecretKey) (S : Store) (t : PartialDecryptionTx) : SRes (List SignedTx) := do
  let election ← v (S.getElection t.electionId)
  match trusteeFromElection election.tx (N.edPublic sk) with
  | some _ => do
    let start : Identifier := { election.tx.id with txType := .partialDecryption, uniqueInfo := withLast t.id.uniqueInfo 0 }
    let stop : Identifier := { start with uniqueInfo := withLast t.id.uniqueInfo 255 }
    let raw ← v (S.range start stop)
    if election.tx.trusteesThreshold.toNat ≤ raw.length then do
      let partials ← v (Res.mapM' SignedTx.intoPartialDecryption raw)
      let cts ← upstreamCiphertexts S t
      let pubkeys ← getAll S election.tx.id .keyGenPublicKey SignedTx.intoKeyGenPublicKey
      let decrypted ← v (decryptVote N.toEnv cts election.tx.trusteesThreshold election.tx.getFullTrustees pubkeys (partials.map (·.tx)))
      let tx ← DecryptionTx.new N.toEnv election.tx.id t.upstreamId t.contestIndex t.upstreamIndex (partials.map (·.tx.trusteeIndex)) decrypted
      let s ← sign N sk tx
      pure [.decryption s]
    else pure []
  | none => pure []

/-- `generate_transactions`, tasks.rs:10-35. -/
def generateTransactions (N : NodeEnv) (rng : Rng) (sk : SecretKey) (S : Store) : SignedTx → SRes (List SignedTx)
  | .election s => processElection N sk s.tx
  | .keyGenCommitment s => processKeygenCommitment N rng sk S s.tx
  | .keyGenShare s => processKeygenShare N sk S s.tx
  | .keyGenPublicKey s => processKeygenPublicKey N sk S s.tx
  | .votingEnd s => processVotingEnd N rng sk S s.tx
  | .mix s => processMix N rng sk S s.tx
  | .partialDecryption s => processPartialDecryption N sk S s.tx
  | _ => .ok []

/-- One committed envelope in `after_commit`, service.rs:92-126: parse its id, look the id up, generate, submit what is not stored yet.  An error of
`generate_transactions` is unwrapped. -/
def react (N : NodeEnv) (rng : Rng) (sk : SecretKey) (s : Exonum.Schema) (e : Exonum.Envelope) : Res Empty (List Exonum.Envelope) :=
  match Identifier.fromStr e.id with
  | .ok id =>
    match Exonum.getTransaction s id with
    | some t =>
      match generateTransactions N rng sk (Exonum.toStore s) t with
      | .ok l => .ok ((l.filter fun d => (Exonum.getTransaction s d.id).isNone).map Exonum.Envelope.ofTx)
      | .err _ => .panic .unwrapFailed
      | .panic p => .panic p
    | none => .ok []
  | .err _ => .ok []
  | .panic p => .panic p

end Server
end CB
