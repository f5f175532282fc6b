import Verif.Model.Trustee
/-!
# Authenticators: key generation, blinding, blind signing (cryptoballot/src/authn.rs)

Randomness is an explicit argument.  The operations of the `rsa` and `rsa_fdh` crates are fields of `NodeEnv`; the outcome of `RSAPrivateKey::new` at each
call is an argument.
-/

namespace CB

/-- `AuthPackage::blind`, authn.rs:149-158: the blinded digest and the unblinder. -/
def AuthPackage.blind (N : NodeEnv) (p : AuthPackage) (key : RsaPublicKey) (random : Bytes) : VRes (Bytes × Bytes) := do
  let digest ← p.digest N.toEnv key
  pure (N.rsaBlind key digest random)

/-- `Authentication::unblind`, authn.rs:188-195. -/
def Authentication.unblind (N : NodeEnv) (a : Authentication) (key : RsaPublicKey) (unblinder : Bytes) : Authentication :=
  ⟨a.authenticator, N.rsaUnblind key a.signature unblinder⟩

namespace Authenticator

/-- `Authenticator::authenticate`, authn.rs:85-98 (`expect`s that signing succeeds). -/
def authenticate {ε : Type} (N : NodeEnv) (a : Authenticator) (secret : RsaPrivateKey) (blinded random : Bytes) : Res ε Authentication :=
  (Res.unwrap (N.rsaSign secret blinded random) .expectFailed).bind fun sig => .ok ⟨a.id, sig⟩

/-- `Error::from(rsa::errors::Error)`: the only way `Authenticator::new` fails, authn.rs:66. -/
inductive NewError | rsa deriving DecidableEq, Repr

/-- The loop of authn.rs:65-71; `gen k` is what the `k`-th call of `RSAPrivateKey::new` returns. -/
def newLoop (N : NodeEnv) (gen : Nat → Option RsaPrivateKey) :
    Nat → IndexMap Str AuthPublicKey → IndexMap Str RsaPrivateKey → List Str → Res NewError (IndexMap Str AuthPublicKey × IndexMap Str RsaPrivateKey)
  | _, pks, sks, [] => .ok (pks, sks)
  | k, pks, sks, b :: bs => (Res.ofOption (gen k) NewError.rsa).bind fun sk =>
      newLoop N gen (k + 1) (pks.insert b (N.rsaPublic sk)) (sks.insert b sk) bs

/-- `Authenticator::new`, authn.rs:49-79; the assertion on the key size (54-58) is compiled into the release profile only. -/
def new (N : NodeEnv) (id : Uuid) (gen : Nat → Option RsaPrivateKey) (keysize : Nat) (ballots : List Str) :
    Res NewError (Authenticator × IndexMap Str RsaPrivateKey) :=
  if N.debugAssertions = false ∧ keysize < 2048 then .panic .debugAssert
  else (newLoop N gen 0 IndexMap.empty IndexMap.empty ballots).bind fun m => .ok (⟨id, m.1⟩, m.2)

end Authenticator
end CB
