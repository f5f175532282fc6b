import Verif.Model.Validate
/-!
# Trustees and their key shares (cryptoballot/src/trustee.rs)

The primitives a node needs beyond validation (HKDF, X25519, AES-GCM, the threshold key generation of `cryptid`, shuffling, RSA blinding) are fields of
`NodeEnv`, about which nothing is assumed.  Randomness is an explicit argument: `Rng` gives the random bytes of the call at each position.
-/

namespace CB

/-- A node's random number generator: the bytes drawn by the call at each position of the computation.
(`rand::thread_rng()`, cryptoballot_server/src/tasks.rs:268, 355, 490.) -/
structure Rng where
  nonce : List Nat → BArr 12
  bytes : List Nat → Bytes

/-- The primitives of a node. (the calls into other crates of trustee.rs.) -/
structure NodeEnv extends Env where
  /-- `Hkdf::<Sha256>::new(Some(salt), ikm)` followed by `expand(info, &mut [0; 32]).unwrap()` (32 bytes is a valid length) -/
  hkdf : (salt ikm info : Bytes) → BArr 32
  /-- `x25519::PublicKey::from(&StaticSecret::from(secret))` -/
  x25519Public : BArr 32 → X25519Pub
  /-- `StaticSecret::from(secret).diffie_hellman(public)` -/
  x25519Dh : BArr 32 → X25519Pub → BArr 32
  /-- `Aes256Gcm::new(key).encrypt(nonce, plaintext).unwrap()` -/
  aesEncrypt : (key : BArr 32) → (nonce : BArr 12) → Bytes → Bytes
  /-- `Aes256Gcm::new(key).decrypt(nonce, ciphertext)` -/
  aesDecrypt : (key : BArr 32) → (nonce : BArr 12) → Bytes → Option Bytes
  /-- `Scalar::try_from(bytes)` -/
  scalarOf : Bytes → Option Scalar
  /-- `cryptid::threshold::ThresholdGenerator` -/
  Gen : Type
  /-- `cryptid::threshold::ThresholdParty` -/
  Party : Type
  /-- `ThresholdGenerator::new(&mut ChaCha20Rng::from_seed(seed), index, threshold, n)` -/
  genNew : (seed : BArr 32) → (index threshold n : Nat) → Gen
  /-- `get_commitment()` -/
  genCommitment : Gen → KeygenCommitment
  /-- `receive_commitment(index, commitment)` -/
  genReceiveCommitment : Gen → Nat → KeygenCommitment → Except CryptoError Gen
  /-- `get_polynomial_share(index)` -/
  genShare : Gen → Nat → Except CryptoError Scalar
  /-- `receive_share(index, share)` -/
  genReceiveShare : Gen → Nat → Scalar → Except CryptoError Gen
  /-- `finish()` -/
  genFinish : Gen → Except CryptoError Party
  /-- `party.pubkey()` -/
  partyKey : Party → ElGamalKey
  /-- `party.pubkey_proof()` -/
  partyProof : Party → PubkeyProof
  /-- `elgamal::PublicKey::encrypt(rng, plaintext)` -/
  encrypt : ElGamalKey → (plaintext random : Bytes) → Ciphertext
  /-- `party.decrypt_share(ciphertext, rng)` -/
  partyDecrypt : Party → Ciphertext → (random : Bytes) → DecryptShare
  /-- `PedersenCtx::with_generators(seed, n)`, `Shuffle::new(rng, inputs, key)`, `gen_proof(..)`, `into_outputs()` -/
  shuffle : (seed : Bytes) → (n : Nat) → (inputs : List (List Ciphertext)) → ElGamalKey → (random : Bytes) →
    Except CryptoError (List (List Ciphertext) × ShuffleProof)
  /-- the public half of an RSA key -/
  rsaPublic : RsaPrivateKey → RsaPublicKey
  /-- `rsa_fdh::blind::blind(rng, key, digest)`: blinded digest and unblinder -/
  rsaBlind : RsaPublicKey → (digest random : Bytes) → Bytes × Bytes
  /-- `rsa_fdh::blind::sign(rng, secret, blinded)` (can fail) -/
  rsaSign : RsaPrivateKey → (blinded random : Bytes) → Option Bytes
  /-- `rsa_fdh::blind::unblind(key, signature, unblinder)` -/
  rsaUnblind : RsaPublicKey → (signature unblinder : Bytes) → Bytes

/-- `.expect(..)` / `.unwrap()` on a `Result`. (for example trustee.rs:181-208.) -/
def Res.expect {ε ε' α : Type} (r : Except ε' α) (p : Panic := .expectFailed) : Res ε α :=
  match r with
  | .ok a => .ok a
  | .error _ => .panic p

namespace EncryptedShare

/-- `EncryptedShare::new`, trustee.rs:257-278: a 12-byte nonce followed by the AES-GCM ciphertext of the share's bytes. -/
def new (N : NodeEnv) (nonce : BArr 12) (secret : BArr 32) (share : Scalar) : EncryptedShare :=
  ⟨nonce.val ++ N.aesEncrypt secret nonce share.raw⟩

/-- `EncryptedShare::decrypt`, trustee.rs:292-308; slicing off the nonce panics on fewer than 12 bytes. -/
def decrypt (N : NodeEnv) (e : EncryptedShare) (secret : BArr 32) : VRes Scalar :=
  if h : 12 ≤ e.raw.length then
    (Res.ofOption (N.aesDecrypt secret ⟨e.raw.take 12, by simp [h]⟩ (e.raw.drop 12)) ValErr.shareDecryptionError).bind fun plain =>
      Res.ofOption (N.scalarOf plain) .shareDecryptionError
  else .panic .sliceLen

/-- `ToHex for EncryptedShare` (`encode_hex`), trustee.rs:311-314. -/
def encodeHex (e : EncryptedShare) : Str := hexEncode e.raw

/-- `FromHex for EncryptedShare`, trustee.rs:321-329; `none` for a `FromHexError`. -/
def fromHex (s : Str) : Option EncryptedShare := (hexDecode s).map EncryptedShare.mk

end EncryptedShare

namespace Trustee

/-- `Trustee::from_election_tx`, trustee.rs:47-65: the last trustee with the key; panics when there is none or its index is 0. -/
def fromElectionTx {ε : Type} (e : ElectionTx) (key : PublicKey) : Res ε Trustee :=
  match (e.trustees.filter fun tr => tr.publicKey == key).getLast? with
  | some tr => if tr.index = 0 then .panic .expectFailed else .ok { tr with numTrustees := e.trustees.length, threshold := e.trusteesThreshold }
  | none => .panic .expectFailed

/-- `Trustee::new`, trustee.rs:68-82; the key pair is an argument. -/
def new {ε : Type} (N : NodeEnv) (sk : SecretKey) (index : UInt8) (n : Nat) (threshold : UInt8) : Res ε Trustee :=
  if index = 0 then .panic .expectFailed else .ok ⟨N.edPublic sk, index, n, threshold⟩

/-- `x25519_secret_key`, trustee.rs:147-155. -/
def x25519Secret (N : NodeEnv) (sk : SecretKey) (election : Identifier) : BArr 32 :=
  N.hkdf election.toArray sk.val (str "cryptoballot_trustee_x25519_secret_key")

/-- `x25519_public_key`, trustee.rs:157-161. -/
def x25519Key (N : NodeEnv) (sk : SecretKey) (election : Identifier) : X25519Pub := N.x25519Public (x25519Secret N sk election)

/-- `shared_secret`, trustee.rs:163-179. -/
def sharedSecret (N : NodeEnv) (sk : SecretKey) (election : Identifier) (sender : X25519Pub) : BArr 32 :=
  N.hkdf election.toArray (N.x25519Dh (x25519Secret N sk election) sender).val (str "cryptoballot_trustee_shared_secret")

/-- `generator`, trustee.rs:211-226. -/
def generator (N : NodeEnv) (t : Trustee) (sk : SecretKey) (election : Identifier) : N.Gen :=
  N.genNew (N.hkdf election.toArray sk.val (str "cryptoballot_trustee_generator")) t.index.toNat t.threshold.toNat t.numTrustees

/-- `keygen_commitment`, trustee.rs:84-86. -/
def keygenCommitment (N : NodeEnv) (t : Trustee) (sk : SecretKey) (election : Identifier) : KeygenCommitment :=
  N.genCommitment (t.generator N sk election)

/-- The loop over commitments in trustee.rs:98-102 and 237-241. -/
def receiveCommitments {ε : Type} (N : NodeEnv) : N.Gen → List (UInt8 × KeygenCommitment) → Res ε N.Gen
  | g, [] => .ok g
  | g, (i, c) :: l => (Res.expect (N.genReceiveCommitment g i.toNat c)).bind fun g => receiveCommitments N g l

/-- The loop over shares in trustee.rs:243-247. -/
def receiveShares {ε : Type} (N : NodeEnv) : N.Gen → List (UInt8 × Scalar) → Res ε N.Gen
  | g, [] => .ok g
  | g, (i, s) :: l => (Res.expect (N.genReceiveShare g i.toNat s)).bind fun g => receiveShares N g l

/-- The loop of trustee.rs:105-116. -/
def encryptShares {ε : Type} (N : NodeEnv) (rng : Rng) (sk : SecretKey) (election : Identifier) (g : N.Gen) :
    Nat → IndexMap UInt8 EncryptedShare → List (UInt8 × X25519Pub) → Res ε (IndexMap UInt8 EncryptedShare)
  | _, m, [] => .ok m
  | k, m, (i, key) :: l => (Res.expect (N.genShare g i.toNat) .unwrapFailed).bind fun share =>
      encryptShares N rng sk election g (k + 1) (m.insert i (EncryptedShare.new N (rng.nonce [k]) (sharedSecret N sk election key) share)) l

/-- `generate_shares`, trustee.rs:88-119. -/
def generateShares {ε : Type} (N : NodeEnv) (t : Trustee) (rng : Rng) (sk : SecretKey) (keys : List (UInt8 × X25519Pub)) (election : Identifier)
    (commitments : List (UInt8 × KeygenCommitment)) : Res ε (IndexMap UInt8 EncryptedShare) :=
  (receiveCommitments N (t.generator N sk election) commitments).bind fun g => encryptShares N rng sk election g 0 IndexMap.empty keys

/-- `decrypt_shares`, trustee.rs:121-145: the sender's X25519 key is the last one listed for the sender. -/
def decryptShares (N : NodeEnv) (sk : SecretKey) (keys : List (UInt8 × X25519Pub)) (election : Identifier) (shares : List (UInt8 × EncryptedShare)) :
    VRes (List (UInt8 × Scalar)) :=
  Res.mapM' (fun e => do
      let key ← Res.ofOption ((keys.filter fun k => k.1 == e.1).getLast?) (ValErr.trusteeMissing e.1)
      let share ← e.2.decrypt N (sharedSecret N sk election key.2)
      pure (e.1, share))
    shares

/-- `generate_party`, trustee.rs:228-250. -/
def generateParty (N : NodeEnv) (t : Trustee) (sk : SecretKey) (commitments : List (UInt8 × KeygenCommitment)) (shares : List (UInt8 × Scalar))
    (election : Identifier) : VRes N.Party := do
  let g ← receiveCommitments N (t.generator N sk election) commitments
  let g ← receiveShares N g shares
  Res.expect (N.genFinish g) .unwrapFailed

/-- The decrypted shares and then the party: trustee.rs:189-190 and 204-205. -/
def party (N : NodeEnv) (t : Trustee) (sk : SecretKey) (keys : List (UInt8 × X25519Pub)) (commitments : List (UInt8 × KeygenCommitment))
    (shares : List (UInt8 × EncryptedShare)) (election : Identifier) : VRes N.Party := do
  let decrypted ← decryptShares N sk keys election shares
  t.generateParty N sk commitments decrypted election

/-- `generate_public_key`, trustee.rs:181-192. -/
def generatePublicKey (N : NodeEnv) (t : Trustee) (sk : SecretKey) (keys : List (UInt8 × X25519Pub)) (commitments : List (UInt8 × KeygenCommitment))
    (shares : List (UInt8 × EncryptedShare)) (election : Identifier) : VRes (ElGamalKey × PubkeyProof) := do
  let p ← t.party N sk keys commitments shares election
  pure (N.partyKey p, N.partyProof p)

/-- `partial_decrypt`, trustee.rs:194-208. -/
def partialDecrypt (N : NodeEnv) (t : Trustee) (random : Bytes) (sk : SecretKey) (keys : List (UInt8 × X25519Pub))
    (commitments : List (UInt8 × KeygenCommitment)) (shares : List (UInt8 × EncryptedShare)) (c : Ciphertext) (election : Identifier) :
    VRes DecryptShare := do
  let p ← t.party N sk keys commitments shares election
  pure (N.partyDecrypt p c random)

end Trustee
end CB
