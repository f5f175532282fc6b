import Mathlib.Data.Finset.Image
import Mathlib.Data.Set.Function
import Verif.Model.Authn
/-!
# Specification vocabulary: what an authenticator learns
-/

namespace CB.Spec

/-- The request a voter sends to have a package signed under a key, with the given coins. -/
def request (N : NodeEnv) (key : RsaPublicKey) (p : AuthPackage) (coins : Bytes) : VRes Bytes := (p.blind N key coins).bind fun x => .ok x.1

/-- The whole exchange between a voter and an authenticator: the voter blinds, the authenticator signs, the voter unblinds. -/
def exchanged (N : NodeEnv) (au : Authenticator) (secret : RsaPrivateKey) (p : AuthPackage) (coins coins' : Bytes) : VRes Authentication :=
  (p.blind N (N.rsaPublic secret) coins).bind fun x => (au.authenticate N secret x.1 coins').bind fun a => .ok (a.unblind N (N.rsaPublic secret) x.2)

/-- Perfect blinding under the key: any digest of a message can be behind any blinded digest, each for as many of the (equally likely) coins. -/
def PerfectBlinding (N : NodeEnv) (key : RsaPublicKey) (coins : Finset Bytes) : Prop :=
  ∀ (m m' d d' : Bytes), N.rsaDigest key m = some d → N.rsaDigest key m' = some d' →
    ∃ σ : Bytes → Bytes, Set.BijOn σ coins coins ∧ ∀ r ∈ coins, (N.rsaBlind key d' (σ r)).1 = (N.rsaBlind key d r).1

/-- After unblinding, nothing is left of the coins: a digest has one signature. -/
def OneSignature (N : NodeEnv) (secret : RsaPrivateKey) (coins : Finset Bytes) : Prop :=
  ∀ (m d : Bytes), N.rsaDigest (N.rsaPublic secret) m = some d → ∃ s, ∀ r ∈ coins, ∀ q, ∃ b, N.rsaSign secret (N.rsaBlind (N.rsaPublic secret) d r).1 q = some b ∧
    N.rsaUnblind (N.rsaPublic secret) b (N.rsaBlind (N.rsaPublic secret) d r).2 = s

end CB.Spec
