import Verif.Spec.Laws
import Verif.Model.Client
import Verif.Spec.Cbor
/-!
# Specification vocabulary: showing how one voted
-/

namespace CB.Spec

/-- Somebody shows these coins and this vote to account for the ciphertexts: encrypting the vote to the election's key with the coins gives them.  The
selections are texts, and plaintexts that can be encrypted (`fits`). -/
def Accounts (N : NodeEnv) (fits : Bytes → Prop) (key : ElGamalKey) (cts : List Ciphertext) (coins : Rng) (vote : List Selection) : Prop :=
  encryptVote N key coins vote = cts ∧ ∀ s ∈ vote, IsText s.selection ∧ fits s.encode

/-- The key is the one that parties of an honest run of the key generation obtain. -/
def MadeByTrustees (N : NodeEnv) (key : ElGamalKey) : Prop :=
  ∃ (I : List Nat) (t : Nat) (seed : Nat → BArr 32) (run : KeyGenRun N), I.Nodup ∧ (∀ i ∈ I, 1 ≤ i ∧ i ≤ 255) ∧ 1 ≤ t ∧ t ≤ I.length ∧ run.Honest I t seed ∧
    ∀ i ∈ I, N.partyKey (run.party i) = key

end CB.Spec
