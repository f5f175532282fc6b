import Mathlib.LinearAlgebra.Lagrange
import Mathlib.Logic.Encodable.Basic
import Verif.Spec.Laws
/-!
# Threshold ElGamal as in the textbook satisfies `ThresholdCorrect`

The third-party crate is not transcribed; this is the scheme it implements, over any field `F` of scalars and any `F`-vector space `G` (the group): Pedersen's distributed key
generation with Feldman commitments, ElGamal encryption, Chaum-Pedersen proofs, Lagrange interpolation at 0.  It shows that the law `ThresholdCorrect`, which theorems
about trustees assume, is a consequence of the algebra, for every number of parties and every threshold.
-/

set_option linter.unusedSectionVars false

namespace CB.ElGamal
open Spec Finset Polynomial

/-- bytes of a value of a countable type -/
def enc {α : Type} [Encodable α] (a : α) : Bytes := List.replicate (Encodable.encode a) 0
/-- and back -/
def dec {α : Type} [Encodable α] (b : Bytes) : Option α := Encodable.decode b.length

theorem dec_enc {α : Type} [Encodable α] (a : α) : dec (enc a) = some a := by
  simp [dec, enc, Encodable.encodek]

/-- The parameters: generator, polynomial coefficients drawn from a seed, scalars drawn from randomness, challenge hash, embedding of messages. -/
structure Params (F G : Type) where
  g : G
  coeff : BArr 32 → Nat → F
  draw : Bytes → F
  hash : List G → F
  embed : Bytes → G
  extract : G → Bytes

variable {F G : Type} [Field F] [AddCommGroup G] [Module F G] [Encodable F] [Encodable G] [DecidableEq G]

/-- A party during key generation. -/
structure Gen (F G : Type) where
  index : Nat
  t : Nat
  n : Nat
  coeff : Nat → F
  comms : List (Nat × List G)
  shares : List (Nat × F)

/-- A party afterwards: its share of the secret key, and the public key. -/
structure Party (F G : Type) where
  x : F
  key : G

/-- value of the polynomial with coefficients `c 0 .. c (t-1)` -/
def value (c : Nat → F) (t : Nat) (x : F) : F := ∑ k ∈ range t, c k * x ^ k

def commitment (P : Params F G) (c : Nat → F) (t : Nat) : List G := (List.range t).map fun k => c k • P.g

/-- Feldman's check: `s·g = Σ i^k C_k` -/
def shareOk (P : Params F G) (i : Nat) (C : List G) (s : F) : Bool :=
  decide (s • P.g = ∑ k ∈ range C.length, ((i : F) ^ k) • C.getD k 0)

def receiveCommitment (G' : Gen F G) (i : Nat) (c : KeygenCommitment) : Except CryptoError (Gen F G) :=
  match (dec c.raw : Option (List G)) with
  | some C => if C.length = G'.t ∧ i ∉ G'.comms.map Prod.fst then .ok { G' with comms := G'.comms ++ [(i, C)] } else .error ⟨1⟩
  | none => .error ⟨2⟩

def receiveShare (P : Params F G) (G' : Gen F G) (i : Nat) (s : Scalar) : Except CryptoError (Gen F G) :=
  match (dec s.raw : Option F), G'.comms.find? fun e => e.1 == i with
  | some s, some (_, C) =>
    if shareOk P G'.index C s = true ∧ i ∉ G'.shares.map Prod.fst then .ok { G' with shares := G'.shares ++ [(i, s)] } else .error ⟨3⟩
  | _, _ => .error ⟨4⟩

def finish (G' : Gen F G) : Except CryptoError (Party F G) :=
  if G'.comms.length = G'.n ∧ G'.shares.length = G'.n then
    .ok ⟨(G'.shares.map Prod.snd).sum, (G'.comms.map fun e => e.2.getD 0 0).sum⟩
  else .error ⟨5⟩

def encrypt (P : Params F G) (key : ElGamalKey) (m r : Bytes) : Ciphertext :=
  match (dec key.raw : Option G) with
  | some y => ⟨enc (P.draw r • P.g, P.embed m + P.draw r • y)⟩
  | none => ⟨[]⟩

/-- a decryption share with its Chaum-Pedersen proof -/
def decryptShare (P : Params F G) (p : Party F G) (c : Ciphertext) (r : Bytes) : DecryptShare :=
  match (dec c.raw : Option (G × G)) with
  | some (c1, _) =>
    let k := P.draw r
    let d := p.x • c1
    let h := P.hash [p.x • P.g, c1, d, k • P.g, k • c1]
    ⟨enc (d, k • P.g, k • c1, k + h * p.x)⟩
  | none => ⟨[]⟩

def verifyShare (P : Params F G) (s : DecryptShare) (proof : PubkeyProof) (c : Ciphertext) : Bool :=
  match (dec s.raw : Option (G × G × G × F)), (dec proof.raw : Option G), (dec c.raw : Option (G × G)) with
  | some (d, a1, a2, z), some y, some (c1, _) =>
    let h := P.hash [y, c1, d, a1, a2]
    decide (z • P.g = a1 + h • y) && decide (z • c1 = a2 + h • d)
  | _, _, _ => false

/-- Lagrange coefficient of party `i` among `Q`, at 0. -/
def lagrange (F : Type) [Field F] (Q : List Nat) (i : Nat) : F := ∏ j ∈ Q.toFinset.erase i, (((i : F) - (j : F))⁻¹ * (0 - (j : F)))

/-- the shares of distinct parties, all verified, at least `t` of them, combined -/
def combine (P : Params F G) (t : Nat) (c : Ciphertext) (shares : List (Nat × PubkeyProof × DecryptShare)) : Except CryptoError Bytes :=
  if t ≤ shares.length ∧ (shares.map Prod.fst).Nodup ∧ ∀ s ∈ shares, verifyShare P s.2.2 s.2.1 c = true then
    match (dec c.raw : Option (G × G)) with
    | some (_, c2) => .ok (P.extract (c2 - (shares.map fun s =>
        lagrange F (shares.map Prod.fst) s.1 • (match (dec s.2.2.raw : Option (G × G × G × F)) with | some (d, _) => d | none => 0)).sum))
    | none => .error ⟨6⟩
  else .error ⟨7⟩

/-- A node whose threshold cryptosystem is the textbook one (everything else as in `B`). -/
def node (P : Params F G) (B : NodeEnv) : NodeEnv :=
  { B with
    toEnv := { B.toEnv with shareVerify := verifyShare P, thresholdDecrypt := combine P }
    scalarOf := fun b => (dec b : Option F).map fun s => ⟨enc s⟩
    Gen := Gen F G
    Party := Party F G
    genNew := fun seed i t n => ⟨i, t, n, P.coeff seed, [], []⟩
    genCommitment := fun G' => ⟨enc (commitment P G'.coeff G'.t)⟩
    genReceiveCommitment := receiveCommitment
    genShare := fun G' j => .ok ⟨enc (value G'.coeff G'.t (j : F))⟩
    genReceiveShare := receiveShare P
    genFinish := finish
    partyKey := fun p => ⟨enc p.key⟩
    partyProof := fun p => ⟨enc (p.x • P.g)⟩
    encrypt := encrypt P
    partyDecrypt := decryptShare P }

/-! ## The algebra -/

/-- the polynomial with coefficients `c 0 .. c (t-1)` -/
noncomputable def poly (c : Nat → F) (t : Nat) : F[X] := ∑ k ∈ range t, C (c k) * X ^ k

theorem eval_poly (c : Nat → F) (t : Nat) (x : F) : (poly c t).eval x = value c t x := by
  simp [poly, value, eval_finsetSum]

theorem degree_poly (c : Nat → F) (t : Nat) : (poly c t).degree < (t : WithBot ℕ) := by
  rw [← mem_degreeLT, poly]
  refine Submodule.sum_mem _ fun k hk => ?_
  rw [mem_degreeLT]
  exact (degree_C_mul_X_pow_le _ _).trans_lt (WithBot.coe_lt_coe.2 (mem_range.1 hk))

theorem value_zero (c : Nat → F) {t : Nat} (ht : 1 ≤ t) : value c t 0 = c 0 := by
  obtain ⟨t, rfl⟩ : ∃ u, t = u + 1 := ⟨t - 1, by omega⟩
  rw [value, Finset.sum_range_succ']
  simp

/-- Lagrange interpolation at 0 of the sum of the polynomials, from `t` or more distinct points. -/
theorem interpolation (hF : ∀ i j : Nat, i ≤ 255 → j ≤ 255 → (i : F) = (j : F) → i = j) (cs : List (Nat → F)) (t : Nat) (Q : List Nat) (hQ : Q.Nodup)
    (hb : ∀ i ∈ Q, i ≤ 255) (ht : t ≤ Q.length) :
    (Q.map fun i => lagrange F Q i * (cs.map fun c => value c t (i : F)).sum).sum = (cs.map fun c => value c t 0).sum := by
  let f : F[X] := (cs.map fun c => poly c t).sum
  have hev : ∀ x, f.eval x = (cs.map fun c => value c t x).sum := by
    intro x
    show (cs.map fun c => poly c t).sum.eval x = _
    induction cs with
    | nil => simp
    | cons c cs ih => simp [eval_add, eval_poly, ih]
  have hdeg : f.degree < (t : WithBot ℕ) := by
    show (cs.map fun c => poly c t).sum.degree < _
    induction cs with
    | nil => simp
    | cons c cs ih =>
      simp only [List.map_cons, List.sum_cons]
      refine (degree_add_le _ _).trans_lt (max_lt (degree_poly c t) ?_)
      exact ih (by intro x; clear * -; induction cs with
        | nil => simp
        | cons c cs ih => simp [eval_add, eval_poly, ih])
  have hcard : Q.toFinset.card = Q.length := List.toFinset_card_of_nodup hQ
  have hinj : Set.InjOn (fun i : Nat => (i : F)) (Q.toFinset : Set Nat) := by
    intro i hi j hj h
    exact hF i j (hb i (by simpa using hi)) (hb j (by simpa using hj)) h
  have h := Lagrange.eq_interpolate (s := Q.toFinset) (v := fun i : Nat => (i : F)) (f := f) hinj
    (hdeg.trans_le (by rw [hcard]; exact_mod_cast ht))
  have h0 := congrArg (Polynomial.eval 0) h
  rw [hev 0, Lagrange.interpolate_apply, eval_finsetSum] at h0
  rw [h0, ← List.sum_toFinset _ hQ]
  refine Finset.sum_congr rfl fun i _ => ?_
  rw [eval_mul, eval_C, hev, mul_comm]
  congr 1
  simp [lagrange, Lagrange.basis, Lagrange.basisDivisor, eval_prod]

/-! ## The protocol -/

variable (P : Params F G)

theorem receive_commitments (G' : Gen F G) (com : Nat → List G) (hcom : ∀ k, (com k).length = G'.t) : ∀ (L : List Nat) (acc : List (Nat × List G)),
    (acc.map Prod.fst ++ L).Nodup →
    L.foldlM (fun g k => receiveCommitment g k ⟨enc (com k)⟩) { G' with comms := acc } = .ok { G' with comms := acc ++ L.map fun k => (k, com k) }
  | [], acc, _ => by simp [List.foldlM, pure, Except.pure]
  | k :: L, acc, h => by
    have hk : k ∉ acc.map Prod.fst := by
      rw [List.nodup_append] at h
      intro hm
      exact h.2.2 k hm k (List.mem_cons_self ..) rfl
    have step : receiveCommitment { G' with comms := acc } k ⟨enc (com k)⟩ = .ok { G' with comms := acc ++ [(k, com k)] } := by
      simp only [receiveCommitment, dec_enc]
      rw [if_pos ⟨hcom k, hk⟩]
    rw [List.foldlM_cons, step]
    have := receive_commitments G' com hcom L (acc ++ [(k, com k)]) (by simpa using h)
    simpa [bind, Except.bind] using this

theorem receive_shares (G' : Gen F G) (s : Nat → F) (com : Nat → List G) : ∀ (L : List Nat) (acc : List (Nat × F)),
    (∀ k ∈ L, G'.comms.find? (fun e => e.1 == k) = some (k, com k) ∧ shareOk P G'.index (com k) (s k) = true) → (acc.map Prod.fst ++ L).Nodup →
    L.foldlM (fun g k => receiveShare P g k ⟨enc (s k)⟩) { G' with shares := acc } = .ok { G' with shares := acc ++ L.map fun k => (k, s k) }
  | [], acc, _, _ => by simp [List.foldlM, pure, Except.pure]
  | k :: L, acc, hL, h => by
    have hk : k ∉ acc.map Prod.fst := by
      rw [List.nodup_append] at h
      intro hm
      exact h.2.2 k hm k (List.mem_cons_self ..) rfl
    have step : receiveShare P { G' with shares := acc } k ⟨enc (s k)⟩ = .ok { G' with shares := acc ++ [(k, s k)] } := by
      simp only [receiveShare, dec_enc, (hL k (List.mem_cons_self ..)).1]
      rw [if_pos ⟨(hL k (List.mem_cons_self ..)).2, hk⟩]
    rw [List.foldlM_cons, step]
    have := receive_shares G' s com L (acc ++ [(k, s k)]) (fun k hk => hL k (List.mem_cons_of_mem _ hk)) (by simpa using h)
    simpa [bind, Except.bind] using this

theorem find_commitment (com : Nat → List G) : ∀ (I : List Nat) (k : Nat), k ∈ I → (I.map fun k => (k, com k)).find? (fun e => e.1 == k) = some (k, com k)
  | j :: I, k, h => by
    by_cases hj : j = k
    · subst hj; simp
    · have : k ∈ I := by
        cases h with
        | head => exact absurd rfl hj
        | tail _ h => exact h
      simp only [List.map_cons]
      rw [List.find?_cons_of_neg (by simpa using hj)]
      exact find_commitment com I k this

theorem shareOk_honest (c : Nat → F) (t i : Nat) : shareOk P i (commitment P c t) (value c t (i : F)) = true := by
  simp only [shareOk, commitment, List.length_map, List.length_range, decide_eq_true_eq, value, Finset.sum_smul]
  refine Finset.sum_congr rfl fun k hk => ?_
  rw [List.getD_eq_getElem?_getD, List.getElem?_map, List.getElem?_range (mem_range.1 hk)]
  simp [smul_smul, mul_comm]

theorem commitment_zero (c : Nat → F) {t : Nat} (ht : 1 ≤ t) : (commitment P c t).getD 0 0 = c 0 • P.g := by
  rw [commitment, List.getD_eq_getElem?_getD, List.getElem?_map, List.getElem?_range (by omega)]
  rfl

theorem sum_map_smul (L : List F) (g : G) : L.sum • g = (L.map fun a => a • g).sum := by
  induction L with
  | nil => simp
  | cons a L ih => simp [add_smul, ih]

/-- The shares of an honest party verify. -/
theorem verify_honest (p : Party F G) (c1 c2 : G) (rnd : Bytes) :
    verifyShare P (decryptShare P p ⟨enc (c1, c2)⟩ rnd) ⟨enc (p.x • P.g)⟩ ⟨enc (c1, c2)⟩ = true := by
  simp only [verifyShare, decryptShare, dec_enc]
  simp [add_smul, mul_smul]

/-- The honest key generation, and decryption of anything encrypted to its key, with whatever factor. -/
theorem threshold_works (B : NodeEnv) (hF : ∀ i j : Nat, i ≤ 255 → j ≤ 255 → (i : F) = (j : F) → i = j) (I : List Nat) (t : Nat) (seed : Nat → BArr 32) (hI : I.Nodup)
    (hb : ∀ i ∈ I, 1 ≤ i ∧ i ≤ 255) (ht : 1 ≤ t) :
    ∃ (run : KeyGenRun (node P B)) (y : G), run.Honest I t seed ∧ (∀ i ∈ I, (node P B).partyKey (run.party i) = ⟨enc y⟩) ∧
      ∀ (m : Bytes) (f : F), P.extract (P.embed m) = m →
        (∀ i ∈ I, ∀ rnd, (node P B).shareVerify ((node P B).partyDecrypt (run.party i) ⟨enc (f • P.g, P.embed m + f • y)⟩ rnd) ((node P B).partyProof (run.party i))
          ⟨enc (f • P.g, P.embed m + f • y)⟩ = true) ∧
        ∀ (Q : List Nat) (rnd : Nat → Bytes), Q.Nodup → (∀ i ∈ Q, i ∈ I) → t ≤ Q.length →
          (node P B).thresholdDecrypt t ⟨enc (f • P.g, P.embed m + f • y)⟩
            (Q.map fun i => (i, (node P B).partyProof (run.party i), (node P B).partyDecrypt (run.party i) ⟨enc (f • P.g, P.embed m + f • y)⟩ (rnd i))) = .ok m := by
  let c : Nat → Nat → F := fun k => P.coeff (seed k)
  let com : Nat → List G := fun k => commitment P (c k) t
  let full : Nat → Gen F G := fun i => ⟨i, t, I.length, c i, I.map fun k => (k, com k), []⟩
  let x : Nat → F := fun i => (I.map fun k => value (c k) t (i : F)).sum
  let y : G := (I.map fun k => c k 0).sum • P.g
  let party : Nat → Party F G := fun i => ⟨x i, y⟩
  refine ⟨⟨full, fun i j => ⟨enc (value (c i) t (j : F))⟩, party⟩, y, ?_, fun i _ => rfl, ?_⟩
  · intro i hi
    refine ⟨?_, ?_, ?_⟩
    · have := receive_commitments (F := F) (full i) com (fun k => by simp [com, commitment, full]) I [] (by simpa using hI)
      exact this
    · intro j _
      refine ⟨rfl, ?_⟩
      simp [ScalarReads, node, dec_enc]
    · refine ⟨{ full i with shares := I.map fun k => (k, value (c k) t (i : F)) }, ?_, ?_⟩
      · have := receive_shares P (full i) (fun k => value (c k) t (i : F)) com I []
          (fun k hk => ⟨find_commitment com I k hk, shareOk_honest P (c k) t i⟩) (by simpa using hI)
        exact this
      · show finish _ = _
        unfold finish
        rw [if_pos (by simp [full])]
        congr 2
        · simp [x, List.map_map, Function.comp_def]
        · simp only [full, List.map_map, Function.comp_def, y, com, commitment_zero P _ ht]
          rw [sum_map_smul, List.map_map]
          rfl
  · intro m f hm
    refine ⟨fun i _ rnd => verify_honest P (party i) _ _ rnd, ?_⟩
    intro Q rnd hQ hQI hQt
    show combine P t _ _ = _
    unfold combine
    have hfst : (Q.map fun i => (i, (node P B).partyProof (party i),
        (node P B).partyDecrypt (party i) ⟨enc (f • P.g, P.embed m + f • y)⟩ (rnd i))).map Prod.fst = Q := by
      simp [List.map_map, Function.comp_def]
    rw [hfst, if_pos ⟨by simpa using hQt, hQ, by
      intro s hs
      obtain ⟨i, hi, rfl⟩ := List.mem_map.1 hs
      exact verify_honest P (party i) _ _ _⟩]
    simp only [dec_enc, List.map_map, Function.comp_def]
    congr 1
    have hsum : (Q.map fun i => lagrange F Q i • (x i • (f • P.g))).sum = f • y := by
      have h := interpolation hF (I.map c) t Q hQ (fun i hi => (hb i (hQI i hi)).2) hQt
      have e1 : ∀ i : ℕ, (((I.map c).map fun c => value c t (i : F)).sum) = x i := by
        intro i; simp [x, List.map_map, Function.comp_def]
      have e2 : ((I.map c).map fun c => value c t (0 : F)).sum = (I.map fun k => c k 0).sum := by
        simp [List.map_map, Function.comp_def, value_zero _ ht]
      simp only [e1] at h
      rw [e2] at h
      show _ = f • ((I.map fun k => c k 0).sum • P.g)
      rw [← h, smul_comm, sum_map_smul, List.map_map]
      simp [Function.comp_def, mul_smul]
    have hd : ∀ i, (match (dec ((node P B).partyDecrypt (party i) ⟨enc (f • P.g, P.embed m + f • y)⟩ (rnd i)).raw : Option (G × G × G × F)) with
        | some (d, _) => d | none => 0) = x i • (f • P.g) := by
      intro i
      simp [node, decryptShare, dec_enc, party]
    simp only [hd]
    rw [hsum, add_sub_cancel_right, hm]

/-- **The textbook scheme satisfies the law**: for every field whose characteristic is 0 or above 255, every vector space over it, and every choice of generator,
randomness and hash; messages must survive their embedding into the group. -/
theorem threshold_correct (B : NodeEnv) (hF : ∀ i j : Nat, i ≤ 255 → j ≤ 255 → (i : F) = (j : F) → i = j) :
    ThresholdCorrect (node P B) fun m => P.extract (P.embed m) = m := by
  intro I t seed hI hb ht _
  obtain ⟨run, y, h1, h2, h3⟩ := threshold_works P B hF I t seed hI hb ht
  refine ⟨run, ⟨enc y⟩, h1, h2, fun m r hm => ?_⟩
  have henc : (node P B).encrypt ⟨enc y⟩ m r = ⟨enc (P.draw r • P.g, P.embed m + P.draw r • y)⟩ := by
    simp [node, encrypt, dec_enc]
  rw [henc]
  exact h3 m _ hm

end CB.ElGamal
