import Verif.Spec.NetworkTally
/-!
# Specification vocabulary for elections with mixnet in networks of nodes
-/

namespace CB.Spec
open Server

/-- What may happen while an election with mixnet is held: as in `Fair`, and nobody but the nodes submits mixes of the election with a trustee's signature; the election authority
ends voting in the proper place only; and decryptions that somebody submits for the election are about something of the election. -/
def FairMix (N : NodeEnv) (K : List SecretKey) (e : ElectionTx) : Event → Prop
  | .submit t =>
    (t.id.electionId = e.id.electionId → ¬ SetupKind (kindOf t) ∧ (kindOf t = .partialDecryption ∨ kindOf t = .mix → ¬ SignedByTrustee N.toEnv e t)) ∧
    (∀ x, t = .votingEnd x → x.tx.election = e.id → signerOf t = some e.authorityPublic → SignatureValid N.toEnv t → x.tx.id = singleId e.id .votingEnd) ∧
    (∀ d, t = .decryption d → d.tx.electionId = e.id → d.tx.upstreamId.electionId = e.id.electionId)
  | .deliver _ => True
  | .react k _ _ _ => k ∈ K

/-- Threshold ElGamal with mixing works; `Enc key c m` says that `c` is an encryption of `m` to `key`, fresh or mixed.  Encrypting plaintexts that fit gives encryptions; shuffles
verify, and permute and re-encrypt their rows; the honest key generation succeeds for all parties and seeds, all parties obtain the same encryption key, every party's decryption
share of an encryption to it verifies, and any `t` or more parties' shares decrypt to the plaintext. -/
structure MixCorrect (N : NodeEnv) (fits : Bytes → Prop) (Enc : ElGamalKey → Ciphertext → Bytes → Prop) : Prop where
  encrypt : ∀ key m r, fits m → Enc key (N.encrypt key m r) m
  shuffle : ∀ seed inputs key random out proof, N.shuffle seed inputs.length inputs key random = .ok (out, proof) →
    N.shuffleVerify seed inputs.length proof inputs out key = true ∧
    ∃ mid : List (List Ciphertext), mid.Perm inputs ∧ List.Forall₂ (List.Forall₂ fun c c' => ∀ m, Enc key c m → Enc key c' m) mid out
  threshold : ∀ (I : List Nat) (t : Nat) (seed : Nat → BArr 32), I.Nodup → (∀ i ∈ I, 1 ≤ i ∧ i ≤ 255) → 1 ≤ t → t ≤ I.length →
    ∃ (run : KeyGenRun N) (key : ElGamalKey), run.Honest I t seed ∧ (∀ i ∈ I, N.partyKey (run.party i) = key) ∧
      ∀ (c : Ciphertext) (m : Bytes), Enc key c m →
        (∀ i ∈ I, ∀ rnd, N.shareVerify (N.partyDecrypt (run.party i) c rnd) (N.partyProof (run.party i)) c = true) ∧
        ∀ (Q : List Nat) (rnd : Nat → Bytes), Q.Nodup → (∀ i ∈ Q, i ∈ I) → t ≤ Q.length →
          N.thresholdDecrypt t c (Q.map fun i => (i, N.partyProof (run.party i), N.partyDecrypt (run.party i) c (rnd i))) = .ok m

/-- Shuffling succeeds for non-empty matrices of ciphertexts. -/
def ShuffleWorks (N : NodeEnv) : Prop :=
  ∀ (seed : Bytes) (inputs : List (List Ciphertext)) (key : ElGamalKey) (random : Bytes) (width : Nat), inputs ≠ [] → 1 ≤ width → (∀ row ∈ inputs, row.length = width) →
    ∃ r, N.shuffle seed inputs.length inputs key random = .ok r

/-- In each contest, all encrypted votes of the election have the same number of selections, not 0. -/
def Uniform (S : Store) (e : ElectionTx) : Prop :=
  ∀ c, ∃ width, 1 ≤ width ∧ ∀ v : Signed VoteTx, InStore S (.vote v) → v.tx.id.electionId = e.id.electionId →
    ∀ ev ∈ v.tx.encryptedVotes, ev.contestIndex = c → ev.selections.length = width

end CB.Spec

namespace CB.Spec

/-- `ds` are the stored decryptions of the election's contest, each once. -/
def AllDecryptions (S : Store) (e : ElectionTx) (contest : UInt32) (ds : List (Signed DecryptionTx)) : Prop :=
  ds.Nodup ∧ ∀ d : Signed DecryptionTx, d ∈ ds ↔ InStore S (.decryption d) ∧ d.tx.electionId = e.id ∧ d.tx.contestIndex = contest

end CB.Spec
