import Verif.Model.Identifier
/-!
# Cryptographic vocabulary

The third-party crates (ed25519-dalek, x25519-dalek, rsa, rsa-fdh, cryptid, hkdf, aes-gcm) are not transcribed.  Their values are opaque
byte strings, their operations are the fields of `Env`, about which *nothing* is assumed; a theorem that needs a law of
cryptography says so in its hypotheses.
-/

namespace CB

/-- `ed25519_dalek::SecretKey` (32 bytes). (cryptoballot/src/transaction.rs:4.) -/
abbrev SecretKey := BArr 32
/-- `ed25519_dalek::PublicKey`, as its 32-byte encoding (equality of keys is equality of encodings). (cryptoballot/src/transaction.rs:3.) -/
abbrev PublicKey := BArr 32
/-- `ed25519_dalek::Signature`. (cryptoballot/src/transaction.rs:5.) -/
abbrev Signature := BArr 64
/-- `uuid::Uuid`. (cryptoballot/src/authn.rs:38.) -/
abbrev Uuid := BArr 16
/-- `x25519_dalek::PublicKey`. (cryptoballot/src/keygen.rs:17.) -/
abbrev X25519Pub := BArr 32

/-- `rsa::RSAPublicKey`, as its serialization (serde_hex.rs:67-77). -/
structure RsaPublicKey where raw : Bytes deriving DecidableEq, Repr
/-- `rsa::RSAPrivateKey`. (cryptoballot/src/authn.rs:4.) -/
structure RsaPrivateKey where raw : Bytes deriving DecidableEq, Repr
/-- `cryptid::threshold::KeygenCommitment`. (cryptoballot/src/keygen.rs:2.) -/
structure KeygenCommitment where raw : Bytes deriving DecidableEq, Repr
/-- `cryptid::elgamal::PublicKey`. (cryptoballot/src/keygen.rs:42.) -/
structure ElGamalKey where raw : Bytes deriving DecidableEq, Repr
/-- `cryptid::threshold::PubkeyProof`. (cryptoballot/src/keygen.rs:43.) -/
structure PubkeyProof where raw : Bytes deriving DecidableEq, Repr
/-- `cryptid::elgamal::Ciphertext`. (cryptoballot/src/vote.rs:2.) -/
structure Ciphertext where raw : Bytes deriving DecidableEq, Repr
/-- `cryptid::threshold::DecryptShare`. (cryptoballot/src/decryption.rs:3.) -/
structure DecryptShare where raw : Bytes deriving DecidableEq, Repr
/-- `cryptid::shuffle::ShuffleProof`. (cryptoballot/src/mix.rs:5.) -/
structure ShuffleProof where raw : Bytes deriving DecidableEq, Repr
/-- `cryptid::Scalar`. (cryptoballot/src/trustee.rs:8.) -/
structure Scalar where raw : Bytes deriving DecidableEq, Repr
/-- `cryptid::CryptoError`, unspecified payload. (cryptoballot/src/error.rs:7-202.) -/
structure CryptoError where code : Nat deriving DecidableEq, Repr

/-- The cryptographic primitives and the build profile, as arbitrary functions. (the calls into other crates of cryptoballot/src/*.rs.) -/
structure Env where
  /-- arithmetic overflow checks on (debug profile) or off (release profile: wrapping) -/
  overflowChecks : Bool
  /-- `debug_assert!` active (debug profile) -/
  debugAssertions : Bool
  /-- `PublicKey::from(&secret)` -/
  edPublic : SecretKey → PublicKey
  /-- `ExpandedSecretKey::from(secret).sign(msg, &public)` -/
  edSign : SecretKey → Bytes → Signature
  /-- `public.verify(msg, sig).is_ok()` -/
  edVerify : PublicKey → Bytes → Signature → Bool
  /-- `rsa_fdh::blind::hash_message::<Sha256>` (can fail) -/
  rsaDigest : RsaPublicKey → Bytes → Option Bytes
  /-- `rsa_fdh::blind::verify(key, digest, signature).is_ok()` -/
  rsaVerify : RsaPublicKey → Bytes → Bytes → Bool
  /-- `DecryptShare::verify(&self, proof, ciphertext)` -/
  shareVerify : DecryptShare → PubkeyProof → Ciphertext → Bool
  /-- `PedersenCtx::with_generators(seed, n)` followed by `ShuffleProof::verify(ctx, generators, inputs, outputs, key)` -/
  shuffleVerify : (seed : Bytes) → (n : Nat) → ShuffleProof → (inputs outputs : List (List Ciphertext)) → ElGamalKey → Bool
  /-- `Decryption::new(threshold, ct)`, the listed `add_share(index, proof, share)` calls in order, then `finish()` -/
  thresholdDecrypt : (threshold : Nat) → Ciphertext → List (Nat × PubkeyProof × DecryptShare) → Except CryptoError Bytes

namespace Env

/-- `a - b` on `u8`: panics on underflow with overflow checks, wraps otherwise. (cryptoballot/src/mix.rs:170.) -/
def subU8 {ε : Type} (E : Env) (a b : UInt8) : Res ε UInt8 :=
  if a < b ∧ E.overflowChecks = true then .panic .overflow else .ok (a - b)

/-- `a + b` on `u8`: panics on overflow with overflow checks, wraps otherwise. (cryptoballot/src/mix.rs:186; cryptoballot_server/src/tasks.rs:331, 345.) -/
def addU8 {ε : Type} (E : Env) (a b : UInt8) : Res ε UInt8 :=
  if a.toNat + b.toNat ≥ 256 ∧ E.overflowChecks = true then .panic .overflow else .ok (a + b)

end Env
end CB
