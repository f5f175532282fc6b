import Mathlib.FieldTheory.Finite.Basic
import Verif.Spec.Unlinkable
import Verif.Spec.Laws
import Verif.Examples.ElGamal
/-!
# Blind RSA signatures as in the textbook satisfy the laws about authenticators

The third-party crates `rsa` and `rsa_fdh` are not transcribed; this is the scheme they implement (Chaum's blind signatures on a full-domain hash), for every modulus.
-/

namespace CB.Rsa
open Spec ElGamal

/-- a number modulo `n` as bytes -/
def write (n : ℕ) (x : ZMod n) : Bytes := enc x.val
/-- and back -/
def read (n : ℕ) (b : Bytes) : ZMod n := ((dec b : Option ℕ).getD 0 : ℕ)

theorem read_write {n : ℕ} [NeZero n] (x : ZMod n) : read n (write n x) = x := by
  simp [read, write, dec_enc]

theorem read_enc (n k : ℕ) : read n (enc k) = k := by simp [read, dec_enc]

/-- The exponents undo each other. -/
def WellFormed (n e d : ℕ) : Prop := 1 < n ∧ e * d % n.totient = 1 % n.totient

instance (n e d : ℕ) : Decidable (WellFormed n e d) := inferInstanceAs (Decidable (_ ∧ _))

/-- the secret key with modulus `n` and exponents `e`, `d` -/
def secretKey (n e d : ℕ) : RsaPrivateKey := ⟨enc (n, e, d)⟩
def publicKey (n e : ℕ) : RsaPublicKey := ⟨enc (n, e)⟩

def pub (sk : RsaPrivateKey) : RsaPublicKey :=
  match (dec sk.raw : Option (ℕ × ℕ × ℕ)) with
  | some (n, e, d) => if WellFormed n e d then publicKey n e else publicKey 0 0
  | none => publicKey 0 0

/-- the digest of a message, if it has no divisor in common with the modulus; `hash` is the full-domain hash -/
def digest (hash : ℕ → Bytes → ℕ) (key : RsaPublicKey) (m : Bytes) : Option Bytes :=
  match (dec key.raw : Option (ℕ × ℕ)) with
  | some (n, _) => if 1 < n ∧ Nat.Coprime (hash n m) n then some (write n (hash n m)) else none
  | none => none

/-- the blinding factor made of coins: a number that has no divisor in common with the modulus -/
def draw (n : ℕ) (r : Bytes) : ZMod n := if Nat.Coprime (read n r).val n then read n r else 1

def blind (key : RsaPublicKey) (d r : Bytes) : Bytes × Bytes :=
  match (dec key.raw : Option (ℕ × ℕ)) with
  | some (n, e) => (write n (read n d * draw n r ^ e), write n (draw n r)⁻¹)
  | none => ([], [])

def sign (sk : RsaPrivateKey) (b : Bytes) : Option Bytes :=
  match (dec sk.raw : Option (ℕ × ℕ × ℕ)) with
  | some (n, _, d) => some (write n (read n b ^ d))
  | none => none

def unblind (key : RsaPublicKey) (s u : Bytes) : Bytes :=
  match (dec key.raw : Option (ℕ × ℕ)) with
  | some (n, _) => write n (read n s * read n u)
  | none => []

def verify (key : RsaPublicKey) (d s : Bytes) : Bool :=
  match (dec key.raw : Option (ℕ × ℕ)) with
  | some (n, e) => decide (read n s ^ e = read n d)
  | none => false

/-- The blinding factors: the numbers below the modulus that have no divisor in common with it. -/
def factors (key : RsaPublicKey) : Finset Bytes :=
  match (dec key.raw : Option (ℕ × ℕ)) with
  | some (n, _) => ((Finset.range n).filter fun r => Nat.Coprime r n).image enc
  | none => ∅

/-- A node whose blind signatures are the textbook ones (everything else as in `B`). -/
def node (hash : ℕ → Bytes → ℕ) (B : NodeEnv) : NodeEnv :=
  { B with
    toEnv := { B.toEnv with rsaDigest := digest hash, rsaVerify := verify }
    rsaPublic := pub
    rsaBlind := blind
    rsaSign := fun sk b _ => sign sk b
    rsaUnblind := unblind }

@[simp] theorem node_digest (hash : ℕ → Bytes → ℕ) (B : NodeEnv) : (node hash B).toEnv.rsaDigest = digest hash := rfl
@[simp] theorem node_verify (hash : ℕ → Bytes → ℕ) (B : NodeEnv) : (node hash B).toEnv.rsaVerify = verify := rfl
@[simp] theorem node_public (hash : ℕ → Bytes → ℕ) (B : NodeEnv) : (node hash B).rsaPublic = pub := rfl
@[simp] theorem node_blind (hash : ℕ → Bytes → ℕ) (B : NodeEnv) : (node hash B).rsaBlind = blind := rfl
@[simp] theorem node_sign (hash : ℕ → Bytes → ℕ) (B : NodeEnv) (sk : RsaPrivateKey) (b q : Bytes) : (node hash B).rsaSign sk b q = sign sk b := rfl
@[simp] theorem node_unblind (hash : ℕ → Bytes → ℕ) (B : NodeEnv) : (node hash B).rsaUnblind = unblind := rfl

theorem digest_some {hash : ℕ → Bytes → ℕ} {n e : ℕ} {m d : Bytes} (h : digest hash (publicKey n e) m = some d) :
    1 < n ∧ Nat.Coprime (hash n m) n ∧ d = write n (hash n m) := by
  simp only [digest, publicKey, dec_enc] at h
  split at h
  · rename_i hc
    cases h
    exact ⟨hc.1, hc.2, rfl⟩
  · cases h

/-- a key for which there is a digest is that of a well-formed secret -/
theorem pub_cases {hash : ℕ → Bytes → ℕ} {sk : RsaPrivateKey} {m d : Bytes} (h : digest hash (pub sk) m = some d) :
    ∃ n e k, (dec sk.raw : Option (ℕ × ℕ × ℕ)) = some (n, e, k) ∧ WellFormed n e k ∧ pub sk = publicKey n e := by
  unfold pub at h
  split at h
  · rename_i n e k hk
    split at h
    · rename_i hw
      exact ⟨n, e, k, hk, hw, by unfold pub; rw [hk]; simp [hw]⟩
    · exact absurd (digest_some h).1 (by decide)
  · exact absurd (digest_some h).1 (by decide)

theorem inv_exponent {n e d : ℕ} (h : WellFormed n e d) (u : (ZMod n)ˣ) : (u ^ e) ^ d = u := by
  rw [← pow_mul]
  have hp : ∀ k : ℕ, u ^ k = u ^ (k % n.totient) := by
    intro k
    conv_lhs => rw [← Nat.div_add_mod k n.totient, pow_add, pow_mul, ZMod.pow_totient, one_pow, one_mul]
  rw [hp, h.2, ← hp, pow_one]

theorem inv_exponent' {n e d : ℕ} (h : WellFormed n e d) (u : (ZMod n)ˣ) : (u ^ d) ^ e = u := by
  rw [← pow_mul, Nat.mul_comm, pow_mul]
  exact inv_exponent h u

theorem mem_factors {n e : ℕ} {b : Bytes} : b ∈ factors (publicKey n e) ↔ ∃ r, r < n ∧ Nat.Coprime r n ∧ b = enc r := by
  simp only [factors, publicKey, dec_enc, Finset.mem_image, Finset.mem_filter, Finset.mem_range]
  exact ⟨fun ⟨r, ⟨h1, h2⟩, h3⟩ => ⟨r, h1, h2, h3.symm⟩, fun ⟨r, h1, h2, h3⟩ => ⟨r, ⟨h1, h2⟩, h3.symm⟩⟩

theorem factor_unit {n e : ℕ} {b : Bytes} (h : b ∈ factors (publicKey n e)) : ∃ u : (ZMod n)ˣ, read n b = u ∧ b = write n u := by
  obtain ⟨r, h1, h2, rfl⟩ := mem_factors.1 h
  refine ⟨ZMod.unitOfCoprime r h2, by rw [read_enc, ZMod.coe_unitOfCoprime], ?_⟩
  rw [write, ZMod.coe_unitOfCoprime, ZMod.val_natCast, Nat.mod_eq_of_lt h1]

theorem draw_unit {n : ℕ} [NeZero n] (r : Bytes) : ∃ u : (ZMod n)ˣ, draw n r = u := by
  unfold draw
  split
  · rename_i h
    exact ⟨ZMod.unitOfCoprime _ h, by rw [ZMod.coe_unitOfCoprime, ZMod.natCast_zmod_val]⟩
  · exact ⟨1, rfl⟩

theorem draw_factor {n e : ℕ} {b : Bytes} (h : b ∈ factors (publicKey n e)) : draw n b = read n b := by
  obtain ⟨u, hu, -⟩ := factor_unit h
  rw [draw, if_pos]
  rw [hu]
  exact ZMod.val_coe_unit_coprime u

theorem unit_factor {n e : ℕ} [NeZero n] (u : (ZMod n)ˣ) : write n u ∈ factors (publicKey n e) :=
  mem_factors.2 ⟨(u : ZMod n).val, ZMod.val_lt _, ZMod.val_coe_unit_coprime u, rfl⟩

/-- textbook blind signatures are correct -/
theorem blind_correct (hash : ℕ → Bytes → ℕ) (B : NodeEnv) (secret : RsaPrivateKey) (m d r q : Bytes)
    (hd : (node hash B).rsaDigest ((node hash B).rsaPublic secret) m = some d) :
    ∃ s, (node hash B).rsaSign secret ((node hash B).rsaBlind ((node hash B).rsaPublic secret) d r).1 q = some s ∧
      (node hash B).rsaVerify ((node hash B).rsaPublic secret) d ((node hash B).rsaUnblind ((node hash B).rsaPublic secret) s ((node hash B).rsaBlind ((node hash B).rsaPublic secret) d r).2) = true ∧
      ∀ n e k, (dec secret.raw : Option (ℕ × ℕ × ℕ)) = some (n, e, k) →
        (node hash B).rsaUnblind ((node hash B).rsaPublic secret) s ((node hash B).rsaBlind ((node hash B).rsaPublic secret) d r).2 = write n (read n d ^ k) := by
  simp only [node_digest, node_verify, node_public, node_blind, node_sign, node_unblind] at hd ⊢
  obtain ⟨n, e, k, hk, hw, hp⟩ := pub_cases hd
  rw [hp] at hd ⊢
  obtain ⟨h1, h2, rfl⟩ := digest_some hd
  have : NeZero n := ⟨by omega⟩
  obtain ⟨u, hu⟩ := draw_unit (n := n) r
  let v := ZMod.unitOfCoprime (hash n m) h2
  have hv : ((hash n m : ℕ) : ZMod n) = v := (ZMod.coe_unitOfCoprime _ h2).symm
  have key : unblind (publicKey n e) (write n (read n (blind (publicKey n e) (write n (hash n m)) r).1 ^ k)) (blind (publicKey n e) (write n (hash n m)) r).2 = write n ((v : ZMod n) ^ k) := by
    simp only [unblind, blind, publicKey, dec_enc, read_write]
    rw [hu, hv]
    congr 1
    have h3 := congrArg (fun x : (ZMod n)ˣ => (x : ZMod n)) (inv_exponent hw u)
    simp only [Units.val_pow_eq_pow_val] at h3
    rw [mul_pow, h3, mul_assoc, ZMod.inv_coe_unit, Units.mul_inv, mul_one]
  refine ⟨_, by simp only [sign, hk]; rfl, ?_, ?_⟩
  · rw [key]
    simp only [verify, publicKey, dec_enc, read_write]
    rw [hv]
    have h3 := congrArg (fun x : (ZMod n)ˣ => (x : ZMod n)) (inv_exponent' hw v)
    simpa using h3
  · intro n' e' k' h'
    rw [hk] at h'
    cases h'
    rw [key, read_write, hv]

/-- textbook blinding is perfect -/
theorem perfectBlinding (hash : ℕ → Bytes → ℕ) (B : NodeEnv) (secret : RsaPrivateKey) :
    PerfectBlinding (node hash B) ((node hash B).rsaPublic secret) (factors (pub secret)) := by
  intro m m' d d' hd hd'
  simp only [node_digest, node_public, node_blind] at hd hd' ⊢
  obtain ⟨n, e, k, hk, hw, hp⟩ := pub_cases hd
  rw [hp] at hd hd' ⊢
  obtain ⟨h1, h2, rfl⟩ := digest_some hd
  obtain ⟨-, h2', rfl⟩ := digest_some hd'
  have : NeZero n := ⟨by omega⟩
  let v := ZMod.unitOfCoprime (hash n m) h2
  let v' := ZMod.unitOfCoprime (hash n m') h2'
  have hv : ((hash n m : ℕ) : ZMod n) = v := (ZMod.coe_unitOfCoprime _ h2).symm
  have hv' : ((hash n m' : ℕ) : ZMod n) = v' := (ZMod.coe_unitOfCoprime _ h2').symm
  let w : (ZMod n)ˣ := (v * v'⁻¹) ^ k
  refine ⟨fun b => write n (read n b * w), ⟨?_, ?_, ?_⟩, ?_⟩
  · intro b hb
    obtain ⟨u, hu, -⟩ := factor_unit hb
    show write n (read n b * w) ∈ _
    rw [hu, ← Units.val_mul]
    exact unit_factor _
  · intro b hb b' hb' h
    obtain ⟨u, hu, rfl⟩ := factor_unit hb
    obtain ⟨u', hu', rfl⟩ := factor_unit hb'
    have h := congrArg (read n) h
    simp only [read_write] at h
    rw [Units.mul_left_inj w |>.1 h]
  · intro b hb
    obtain ⟨u, hu, rfl⟩ := factor_unit hb
    refine ⟨write n (u * w⁻¹ : (ZMod n)ˣ), unit_factor _, ?_⟩
    show write n (read n (write n ((u * w⁻¹ : (ZMod n)ˣ) : ZMod n)) * w) = _
    rw [read_write, ← Units.val_mul, inv_mul_cancel_right]
  · intro b hb
    obtain ⟨u, hu, -⟩ := factor_unit hb
    have hb' : write n (read n b * w) ∈ factors (publicKey n e) := by rw [hu, ← Units.val_mul]; exact unit_factor _
    simp only [blind, publicKey, dec_enc, read_write]
    rw [draw_factor hb', draw_factor hb, read_write, hu, hv, hv']
    congr 1
    have h3 : (w : (ZMod n)ˣ) ^ e = v * v'⁻¹ := inv_exponent' hw _
    have : v' * (u * w) ^ e = v * u ^ e := by
      rw [mul_pow, h3, mul_comm v v'⁻¹, mul_comm (u ^ e), ← mul_assoc, mul_inv_cancel_left]
    exact_mod_cast congrArg (fun x : (ZMod n)ˣ => (x : ZMod n)) this

theorem oneSignature (hash : ℕ → Bytes → ℕ) (B : NodeEnv) (secret : RsaPrivateKey) : OneSignature (node hash B) secret (factors (pub secret)) := by
  intro m d hd
  obtain ⟨n, e, k, hk, -⟩ := pub_cases (by simpa only [node_digest, node_public] using hd)
  refine ⟨write n (read n d ^ k), fun r hr q => ?_⟩
  obtain ⟨s, h1, -, h2⟩ := blind_correct hash B secret m d r q hd
  exact ⟨s, h1, h2 n e k hk⟩

/-- Textbook blind signatures satisfy the law that theorems about authentication assume. -/
theorem blindSignatures (hash : ℕ → Bytes → ℕ) (B : NodeEnv) : BlindSignatures (node hash B) := by
  intro secret m d r q hd
  obtain ⟨s, h1, h2, -⟩ := blind_correct hash B secret m d r q hd
  exact ⟨s, h1, h2⟩

end CB.Rsa
