import Verif.Model.Authn
/-!
# Laws of the cryptographic primitives that some theorems assume

Each is a property of a third-party primitive, stated of the corresponding fields of `NodeEnv`.  No theorem uses one without naming it in its hypotheses.
-/

namespace CB.Spec

/-- AES-GCM decrypts what it encrypted under the same key and nonce. -/
def AesCorrect (N : NodeEnv) : Prop := ∀ key nonce m, N.aesDecrypt key nonce (N.aesEncrypt key nonce m) = some m

/-- The two ends of an X25519 exchange agree on the secret. -/
def DhAgrees (N : NodeEnv) : Prop := ∀ a b, N.x25519Dh a (N.x25519Public b) = N.x25519Dh b (N.x25519Public a)

/-- The bytes of a scalar are read back as that scalar. -/
def ScalarReads (N : NodeEnv) (s : Scalar) : Prop := N.scalarOf s.raw = some s

/-- RSA blind signatures: signing the blinded digest of a message succeeds, and the unblinded signature verifies on the digest. -/
def BlindSignatures (N : NodeEnv) : Prop :=
  ∀ (secret : RsaPrivateKey) (message digest random random' : Bytes), N.rsaDigest (N.rsaPublic secret) message = some digest →
    ∃ sig, N.rsaSign secret (N.rsaBlind (N.rsaPublic secret) digest random).1 random' = some sig ∧
      N.rsaVerify (N.rsaPublic secret) digest (N.rsaUnblind (N.rsaPublic secret) sig (N.rsaBlind (N.rsaPublic secret) digest random).2) = true

/-! ## Threshold encryption -/

/-- What the parties `I` compute in a run of the key generation: their generators after hearing all commitments, the share each sends to each, and the resulting
party. -/
structure KeyGenRun (N : NodeEnv) where
  full : Nat → N.Gen
  share : Nat → Nat → Scalar
  party : Nat → N.Party

/-- The run is an honest one: every party starts from its seed, receives everybody's commitment and everybody's share for it, and finishes; no step fails. -/
def KeyGenRun.Honest {N : NodeEnv} (run : KeyGenRun N) (I : List Nat) (t : Nat) (seed : Nat → BArr 32) : Prop :=
  let start := fun k => N.genNew (seed k) k t I.length
  ∀ i ∈ I,
    I.foldlM (fun g k => N.genReceiveCommitment g k (N.genCommitment (start k))) (start i) = .ok (run.full i) ∧
    (∀ j ∈ I, N.genShare (run.full i) j = .ok (run.share i j) ∧ ScalarReads N (run.share i j)) ∧
    ∃ g, I.foldlM (fun g k => N.genReceiveShare g k (run.share k i)) (run.full i) = .ok g ∧ N.genFinish g = .ok (run.party i)

/-- Threshold ElGamal works: for all parties and seeds the honest run succeeds, all parties obtain the same encryption key, and of a plaintext (of those that
`fits`) encrypted to that key every party's decryption share verifies, and any `t` or more parties' shares decrypt to the plaintext. -/
def ThresholdCorrect (N : NodeEnv) (fits : Bytes → Prop) : Prop :=
  ∀ (I : List Nat) (t : Nat) (seed : Nat → BArr 32), I.Nodup → (∀ i ∈ I, 1 ≤ i ∧ i ≤ 255) → 1 ≤ t → t ≤ I.length →
    ∃ (run : KeyGenRun N) (key : ElGamalKey), run.Honest I t seed ∧ (∀ i ∈ I, N.partyKey (run.party i) = key) ∧
      ∀ (m r : Bytes), fits m →
        (∀ i ∈ I, ∀ rnd, N.shareVerify (N.partyDecrypt (run.party i) (N.encrypt key m r) rnd) (N.partyProof (run.party i)) (N.encrypt key m r) = true) ∧
        ∀ (Q : List Nat) (rnd : Nat → Bytes), Q.Nodup → (∀ i ∈ Q, i ∈ I) → t ≤ Q.length →
          N.thresholdDecrypt t (N.encrypt key m r)
            (Q.map fun i => (i, N.partyProof (run.party i), N.partyDecrypt (run.party i) (N.encrypt key m r) (rnd i))) = .ok m

end CB.Spec
