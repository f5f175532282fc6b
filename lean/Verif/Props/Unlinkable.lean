import Verif.Examples.Rsa
import Verif.Examples.ToyNode
import Verif.Spec.Rules
/-!
# C96: authenticators cannot tell who cast which vote
-/

namespace CB
open Spec

theorem request_eq {N : NodeEnv} {key : RsaPublicKey} {p : AuthPackage} {d : Bytes} (h : N.rsaDigest key p.pack = some d) (r : Bytes) :
    request N key p r = .ok (N.rsaBlind key d r).1 := by
  simp only [request, AuthPackage.blind, AuthPackage.digest, h]
  rfl

/-- **C96** What an authenticator is asked to sign says nothing about the key: each possible request comes up for as many coins, whatever the voter's package is. -/
theorem C96_requests_are_equally_likely (N : NodeEnv) (key : RsaPublicKey) (coins : Finset Bytes) (hB : PerfectBlinding N key coins) (p p' : AuthPackage)
    (hp : (N.rsaDigest key p.pack).isSome) (hp' : (N.rsaDigest key p'.pack).isSome) (asked : Bytes) :
    (coins.filter fun r => request N key p r = .ok asked).card = (coins.filter fun r => request N key p' r = .ok asked).card := by
  obtain ⟨d, hd⟩ := Option.isSome_iff_exists.1 hp
  obtain ⟨d', hd'⟩ := Option.isSome_iff_exists.1 hp'
  obtain ⟨σ, hσ, h⟩ := hB _ _ d d' hd hd'
  refine Finset.card_bij (fun r _ => σ r) ?_ ?_ ?_
  · intro r hr
    rw [Finset.mem_filter] at hr ⊢
    refine ⟨hσ.mapsTo hr.1, ?_⟩
    rw [request_eq hd', h r hr.1, ← request_eq hd]
    exact hr.2
  · intro r hr r' hr' e
    exact hσ.injOn (Finset.mem_filter.1 hr).1 (Finset.mem_filter.1 hr').1 e
  · intro r hr
    rw [Finset.mem_filter] at hr
    obtain ⟨r', hr', rfl⟩ := hσ.surjOn hr.1
    refine ⟨r', Finset.mem_filter.2 ⟨hr', ?_⟩, rfl⟩
    rw [request_eq hd, ← h r' hr', ← request_eq hd']
    exact hr.2

/-- **C96** Authenticators cannot tell who cast which vote, even all of them together: let `k` voters have their packages signed by `a` authenticators.  However the packages are
exchanged among the voters, there are equally many coins with which every voter sends the very same requests and every package ends up with the very same authentications. -/
theorem C96_authenticators_cannot_link (N : NodeEnv) {k a : ℕ} (au : Fin a → Authenticator) (secret : Fin a → RsaPrivateKey) (coins : Fin a → Finset Bytes)
    (hB : ∀ j, PerfectBlinding N (N.rsaPublic (secret j)) (coins j)) (hO : ∀ j, OneSignature N (secret j) (coins j)) (p : Fin k → AuthPackage)
    (hp : ∀ i j, (N.rsaDigest (N.rsaPublic (secret j)) (p i).pack).isSome) (π : Equiv.Perm (Fin k)) :
    ∃ σ : (Fin k → Fin a → Bytes) → (Fin k → Fin a → Bytes), Set.BijOn σ {r | ∀ i j, r i j ∈ coins j} {r | ∀ i j, r i j ∈ coins j} ∧
      ∀ r, (∀ i j, r i j ∈ coins j) →
        (∀ i j, request N (N.rsaPublic (secret j)) (p (π i)) (σ r i j) = request N (N.rsaPublic (secret j)) (p i) (r i j)) ∧
        ∀ i j q q', exchanged N (au j) (secret j) (p (π i)) (σ r i j) q = exchanged N (au j) (secret j) (p (π i)) (r (π i) j) q' := by
  have hd := fun i j => Option.isSome_iff_exists.1 (hp i j)
  choose d hd using hd
  have hσ := fun i j => hB j _ _ (d i j) (d (π i) j) (hd i j) (hd (π i) j)
  choose σ hσ h using hσ
  have maps : ∀ r : Fin k → Fin a → Bytes, (∀ i j, r i j ∈ coins j) → ∀ i j, σ i j (r i j) ∈ coins j := fun r hr i j => (hσ i j).mapsTo (hr i j)
  refine ⟨fun r i j => σ i j (r i j), ⟨maps, ?_, ?_⟩, ?_⟩
  · intro r hr r' hr' e
    funext i j
    exact (hσ i j).injOn (hr i j) (hr' i j) (congrFun (congrFun e i) j)
  · intro r hr
    have hs := fun i j => (hσ i j).surjOn (hr i j)
    choose r' h1 h2 using hs
    exact ⟨r', h1, by funext i j; exact h2 i j⟩
  · intro r hr
    refine ⟨fun i j => ?_, fun i j q q' => ?_⟩
    · rw [request_eq (hd _ _), request_eq (hd _ _), h i j _ (hr i j)]
    · obtain ⟨s, hs⟩ := hO j _ _ (hd (π i) j)
      have key : ∀ r ∈ coins j, ∀ q, exchanged N (au j) (secret j) (p (π i)) r q = .ok ⟨(au j).id, s⟩ := by
        intro r hr q
        obtain ⟨b, h1, h2⟩ := hs r hr q
        simp only [exchanged, AuthPackage.blind, AuthPackage.digest, hd, Authenticator.authenticate, Res.unwrap, Res.bind_def, Res.ok_bind, Res.pure_def, h1, Authentication.unblind, h2]
      rw [key _ (maps r hr i j), key _ (hr (π i) j)]

/-- **C96** Blind RSA signatures as in the textbook make it so: for every modulus and full-domain hash, the laws hold, and the coins (the blinding factors) are not none. -/
theorem C96_textbook_signatures_are_blind (hash : ℕ → Bytes → ℕ) (B : NodeEnv) :
    BlindSignatures (Rsa.node hash B) ∧ ∀ secret, ∃ coins : Finset Bytes, coins.Nonempty ∧ PerfectBlinding (Rsa.node hash B) ((Rsa.node hash B).rsaPublic secret) coins ∧
      OneSignature (Rsa.node hash B) secret coins := by
  refine ⟨Rsa.blindSignatures hash B, fun secret => ?_⟩
  by_cases h : ∃ m d, Rsa.digest hash (Rsa.pub secret) m = some d
  · obtain ⟨m, d, hd⟩ := h
    obtain ⟨n, e, k, hk, hw, hp⟩ := Rsa.pub_cases hd
    refine ⟨Rsa.factors (Rsa.pub secret), ?_, Rsa.perfectBlinding hash B secret, Rsa.oneSignature hash B secret⟩
    rw [hp]
    exact ⟨_, Rsa.mem_factors.2 ⟨1, hw.1, Nat.coprime_one_left n, rfl⟩⟩
  · refine ⟨{[]}, ⟨[], by simp⟩, fun m _ d _ hd _ => ?_, fun m d hd => ?_⟩ <;> exact absurd ⟨m, d, by simpa only [Rsa.node_digest, Rsa.node_public] using hd⟩ h

/-- a full-domain hash for examples: 1 for the package of key 31, 2 for others -/
def sampleHash (_ : ℕ) (m : Bytes) : ℕ := if m = AuthPackage.pack ⟨Toy.eid, str "b1", Toy.key 31⟩ then 1 else 2

theorem sampleHash_ne : sampleHash 21 (AuthPackage.pack ⟨Toy.eid, str "b1", Toy.key 31⟩) = 1 ∧ sampleHash 21 (AuthPackage.pack ⟨Toy.eid, str "b1", Toy.key 32⟩) = 2 :=
  ⟨by simp [sampleHash], by rw [sampleHash, if_neg (by decide +kernel)]⟩

/-- The hypotheses can be met: modulus 15, exponents 3 and 3, two voters with different digests, eight factors. -/
example : (Rsa.factors (Rsa.pub (Rsa.secretKey 15 3 3))).card = 8 ∧
    (∀ b, ((Rsa.node sampleHash Toy.node).rsaDigest ((Rsa.node sampleHash Toy.node).rsaPublic (Rsa.secretKey 15 3 3)) b).isSome) ∧
    sampleHash 15 (AuthPackage.pack ⟨Toy.eid, str "b1", Toy.key 31⟩) ≠ sampleHash 15 (AuthPackage.pack ⟨Toy.eid, str "b1", Toy.key 32⟩) := by
  have hw : Rsa.WellFormed 15 3 3 := by decide
  have hp : Rsa.pub (Rsa.secretKey 15 3 3) = Rsa.publicKey 15 3 := by simp [Rsa.pub, Rsa.secretKey, ElGamal.dec_enc, hw]
  refine ⟨?_, fun b => ?_, ?_⟩
  · rw [hp]
    simp only [Rsa.factors, Rsa.publicKey, ElGamal.dec_enc]
    rw [Finset.card_image_of_injective]
    · decide
    · intro x y h
      have := congrArg (ElGamal.dec (α := ℕ)) h
      rwa [ElGamal.dec_enc, ElGamal.dec_enc, Option.some.injEq] at this
  · simp only [Rsa.node_digest, Rsa.node_public, hp, Rsa.digest, Rsa.publicKey, ElGamal.dec_enc]
    rw [if_pos]
    · rfl
    · refine ⟨by decide, ?_⟩
      unfold sampleHash
      split <;> decide
  · have := sampleHash_ne
    unfold sampleHash at this ⊢
    rw [this.1, this.2]
    decide

/-- an election whose authenticator has published the modulus 21 with the exponent 3, which has no counterpart -/
def badKeyElection : ElectionTx := { Toy.election none with authenticators := [⟨BArr.fill 16 21, ⟨[(str "b1", Rsa.publicKey 21 3)], by simp⟩⟩] }

/-- **C96 is false of the code** for keys that are not well made: elections with them are accepted, as nothing about the keys of authenticators is checked, and then a request can
tell the voter's key. -/
theorem C96_badly_made_keys_false : ¬ ∀ N : NodeEnv, BlindSignatures N → (∀ secret, ∃ coins : Finset Bytes, coins.Nonempty ∧
    PerfectBlinding N (N.rsaPublic secret) coins ∧ OneSignature N secret coins) →
    ∀ (e : ElectionTx) (sig : Signature) (S : Store), (SignedTx.election ⟨e, sig⟩).validate N.toEnv S = .ok () → ∀ au ∈ e.authenticators, ∀ ballot key,
    (ballot, key) ∈ au.publicKeys.entries → ∀ k k', (N.rsaDigest key (AuthPackage.pack ⟨e.id, ballot, k⟩)).isSome → (N.rsaDigest key (AuthPackage.pack ⟨e.id, ballot, k'⟩)).isSome →
    ∀ r, ∃ r', request N key ⟨e.id, ballot, k'⟩ r' = request N key ⟨e.id, ballot, k⟩ r := by
  intro h
  have d31 : (Rsa.node sampleHash Toy.node).rsaDigest (Rsa.publicKey 21 3) (AuthPackage.pack ⟨Toy.eid, str "b1", Toy.key 31⟩) = some (Rsa.write 21 1) := by
    simp only [Rsa.node_digest, Rsa.digest, Rsa.publicKey, ElGamal.dec_enc, sampleHash_ne.1]
    rw [if_pos (by decide)]
    rfl
  have d32 : (Rsa.node sampleHash Toy.node).rsaDigest (Rsa.publicKey 21 3) (AuthPackage.pack ⟨Toy.eid, str "b1", Toy.key 32⟩) = some (Rsa.write 21 2) := by
    simp only [Rsa.node_digest, Rsa.digest, Rsa.publicKey, ElGamal.dec_enc, sampleHash_ne.2]
    rw [if_pos (by decide)]
    rfl
  obtain ⟨r', hr⟩ := h (Rsa.node sampleHash Toy.node) (C96_textbook_signatures_are_blind _ _).1 (C96_textbook_signatures_are_blind _ _).2 badKeyElection (Toy.sig 1)
    MemStore.empty.toStore (by decide +kernel) _ (by simp [badKeyElection]; rfl) (str "b1") (Rsa.publicKey 21 3) (by simp) (Toy.key 31) (Toy.key 32)
    (Option.isSome_iff_exists.2 ⟨_, d31⟩) (Option.isSome_iff_exists.2 ⟨_, d32⟩) (ElGamal.enc 1)
  rw [show badKeyElection.id = Toy.eid from rfl, request_eq d31, request_eq d32] at hr
  simp only [Rsa.node_blind, Rsa.blind, Rsa.publicKey, ElGamal.dec_enc, Rsa.read_write, Res.ok.injEq] at hr
  have hr := congrArg (Rsa.read 21) hr
  rw [Rsa.read_write, Rsa.read_write, show Rsa.draw 21 (ElGamal.enc 1) = 1 by simp [Rsa.draw, Rsa.read_enc]] at hr
  revert hr
  generalize Rsa.draw 21 r' = x
  revert x
  decide

end CB
