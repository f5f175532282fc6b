import Verif.Props.KeySecrecy
import Mathlib.Algebra.Field.Rat
import Mathlib.Data.Rat.Encodable
/-!
# C102: fewer trustees than the threshold learn nothing from key generation and decryption

About the textbook scheme (`Examples/ElGamal`), in terms of what the code calls of it: commitments, polynomial shares, decryption shares.
-/

set_option linter.unusedSectionVars false

namespace CB
open Spec

namespace ElGamal
open Finset Polynomial

variable {F G : Type} [Field F] [AddCommGroup G] [Module F G] [Encodable F] [Encodable G] [DecidableEq G]

/-- A trustee at the start of key generation who has drawn the coefficients `c` (what `genNew` makes of a seed with `coeff seed = c`). -/
def starting (G : Type) (i t n : Nat) (c : Nat → F) : Gen F G := ⟨i, t, n, c, [], []⟩

/-- a trustee's share of the election's secret key, after key generation -/
def keyShare (p : Party F G) : F := p.x

/-- finitely many coefficients, continued with 0 -/
def extend {t : Nat} (c : Fin t → F) (k : Nat) : F := if h : k < t then c ⟨k, h⟩ else 0

/-- the places: 0, where the secret is, and those of the coalition -/
def places (A : List Nat) : Finset Nat := insert 0 A.toFinset

/-- weight of the value at place `i` for the polynomial's value at `x` -/
noncomputable def weight (F : Type) [Field F] (A : List Nat) (i : Nat) : F[X] := Lagrange.basis (places A) (fun i : Nat => (i : F)) i

section
variable (hF : ∀ i j : Nat, i ≤ 255 → j ≤ 255 → (i : F) = (j : F) → i = j) {A : List Nat} (hA : A.Nodup) (hb : ∀ a ∈ A, 1 ≤ a ∧ a ≤ 255)
include hF hA hb

theorem zero_not_mem : 0 ∉ A.toFinset := by
  intro h
  have := hb 0 (by simpa using h)
  omega

theorem card_places : (places A).card = A.length + 1 := by
  rw [places, card_insert_of_notMem (zero_not_mem hF hA hb), List.toFinset_card_of_nodup hA]

theorem places_inj : Set.InjOn (fun i : Nat => (i : F)) (places A : Set Nat) := by
  have h255 : ∀ i ∈ (places A : Set Nat), i ≤ 255 := by
    intro i hi
    simp only [places, coe_insert, List.coe_toFinset, Set.mem_insert_iff, Set.mem_ofPred_eq] at hi
    rcases hi with rfl | hi
    · omega
    · exact (hb i hi).2
  intro i hi j hj h
  exact hF i j (h255 i hi) (h255 j hj) h

/-- a polynomial of low degree, from its values at the places -/
theorem from_places (f : F[X]) (hf : f.degree < (A.length + 1 : Nat)) :
    f = C (f.eval 0) * weight F A 0 + (A.map fun a : Nat => C (f.eval (a : F)) * weight F A a).sum := by
  have h := Lagrange.eq_interpolate (s := places A) (v := fun i : Nat => (i : F)) (f := f) (places_inj hF hA hb) (by rw [card_places hF hA hb]; exact hf)
  rw [Lagrange.interpolate_apply] at h
  have h2 : ∑ i ∈ places A, C (f.eval (i : F)) * weight F A i = C (f.eval ((0 : Nat) : F)) * weight F A 0 + (A.map fun a : Nat => C (f.eval (a : F)) * weight F A a).sum := by
    rw [places, Finset.sum_insert (zero_not_mem hF hA hb), List.sum_toFinset _ hA]
  rw [Nat.cast_zero] at h2
  rw [← h2]
  exact h

theorem eval_from_places (f : F[X]) (hf : f.degree < (A.length + 1 : Nat)) (x : F) :
    f.eval x = (weight F A 0).eval x * f.eval 0 + (A.map fun a : Nat => (weight F A a).eval x * f.eval (a : F)).sum := by
  have h := congrArg (Polynomial.eval x) (from_places hF hA hb f hf)
  rw [h, eval_add, eval_mul, eval_C, mul_comm]
  congr 1
  clear h
  generalize A.length = n at hf
  have : ∀ L : List Nat, ((L.map fun a : Nat => C (f.eval (a : F)) * weight F A a).sum).eval x = (L.map fun a : Nat => (weight F A a).eval x * f.eval (a : F)).sum := by
    intro L
    induction L with
    | nil => simp
    | cons a L ih => rw [List.map_cons, List.sum_cons, eval_add, ih, eval_mul, eval_C, List.map_cons, List.sum_cons, mul_comm]
  exact this A

theorem coeff_from_places (f : F[X]) (hf : f.degree < (A.length + 1 : Nat)) (k : Nat) :
    f.coeff k = (weight F A 0).coeff k * f.eval 0 + (A.map fun a : Nat => (weight F A a).coeff k * f.eval (a : F)).sum := by
  have h := congrArg (fun p => Polynomial.coeff p k) (from_places hF hA hb f hf)
  have : ∀ L : List Nat, ((L.map fun a : Nat => C (f.eval (a : F)) * weight F A a).sum).coeff k = (L.map fun a : Nat => (weight F A a).coeff k * f.eval (a : F)).sum := by
    intro L
    induction L with
    | nil => simp
    | cons a L ih => rw [List.map_cons, List.sum_cons, coeff_add, ih, coeff_C_mul, List.map_cons, List.sum_cons, mul_comm]
  simp only [coeff_add, coeff_C_mul, this] at h
  rw [h, mul_comm]

end

theorem coeff_poly (c : Nat → F) (t k : Nat) : (poly c t).coeff k = if k < t then c k else 0 := by
  rw [poly, finsetSum_coeff]
  simp only [coeff_C_mul, coeff_X_pow, mul_ite, mul_one, mul_zero]
  rw [Finset.sum_ite_eq]
  simp

theorem enc_injective {α : Type} [Encodable α] {a b : α} (h : enc a = enc b) : a = b := by
  have := congrArg (dec (α := α)) h
  rw [dec_enc, dec_enc] at this
  exact Option.some.inj this

/-- the value of a sum of polynomials, from the values at the places -/
theorem sum_from_places (hF : ∀ i j : Nat, i ≤ 255 → j ≤ 255 → (i : F) = (j : F) → i = j) {A : List Nat} (hA : A.Nodup) (hb : ∀ a ∈ A, 1 ≤ a ∧ a ≤ 255)
    (cs : List (Nat → F)) (x : F) :
    (cs.map fun c => value c (A.length + 1) x).sum = (weight F A 0).eval x * (cs.map fun c => c 0).sum +
      (A.map fun a : Nat => (weight F A a).eval x * (cs.map fun c => value c (A.length + 1) (a : F)).sum).sum := by
  let f : F[X] := (cs.map fun c => poly c (A.length + 1)).sum
  have hev : ∀ x, f.eval x = (cs.map fun c => value c (A.length + 1) x).sum := by
    intro x
    show (cs.map fun c => poly c (A.length + 1)).sum.eval x = _
    induction cs with
    | nil => simp
    | cons c cs ih => simp [eval_add, eval_poly, ih]
  have hdeg : f.degree < ((A.length + 1 : Nat) : WithBot ℕ) := by
    rw [← mem_degreeLT]
    refine list_sum_mem fun p hp => ?_
    obtain ⟨c, _, rfl⟩ := List.mem_map.1 hp
    rw [mem_degreeLT]
    exact degree_poly c _
  have h := eval_from_places hF hA hb f hdeg x
  simp only [hev] at h
  rw [h]
  congr 2
  congr 1
  exact List.map_congr_left fun c _ => value_zero c (by omega)

/-- what an honest party holds after the run -/
theorem honest_x (P : Params F G) (B : NodeEnv) {I : List Nat} {t : Nat} {seed : Nat → BArr 32} (hI : I.Nodup) {run : KeyGenRun (node P B)} (h : run.Honest I t seed)
    {i : Nat} (hi : i ∈ I) : ∃ key, run.party i = (⟨(I.map fun k => value (P.coeff (seed k)) t (i : F)).sum, key⟩ : Party F G) := by
  let c : Nat → Nat → F := fun k => P.coeff (seed k)
  let com : Nat → List G := fun k => commitment P (c k) t
  have hfull : ∀ i ∈ I, run.full i = (⟨i, t, I.length, c i, [] ++ I.map fun k => (k, com k), []⟩ : Gen F G) := by
    intro i hi
    have hfull := receive_commitments (F := F) (⟨i, t, I.length, c i, [], []⟩ : Gen F G) com (fun k => by simp [com, commitment]) I [] (by simpa using hI)
    exact Except.ok.inj ((h i hi).1.symm.trans hfull)
  have hshare : ∀ k ∈ I, run.share k i = ⟨enc (value (c k) t (i : F))⟩ := by
    intro k hk
    have := ((h k hk).2.1 i hi).1
    rw [hfull k hk] at this
    exact (Except.ok.inj this).symm
  obtain ⟨-, -, g, h2, h3⟩ := h i hi
  have h2' : I.foldlM (fun g k => receiveShare P g k (run.share k i)) (run.full i) = .ok g := h2
  have hs := receive_shares P (⟨i, t, I.length, c i, [] ++ I.map fun k => (k, com k), []⟩ : Gen F G) (fun k => value (c k) t (i : F)) com I []
    (fun k hk => ⟨find_commitment com I k hk, shareOk_honest P (c k) t i⟩) (by simpa using hI)
  have hcong : I.foldlM (fun g k => receiveShare P g k (run.share k i)) (run.full i) =
      I.foldlM (fun g k => receiveShare P g k ⟨enc (value (c k) t (i : F))⟩) (run.full i) := CB.foldlM_congr I (fun k hk g => by rw [hshare k hk]) _
  rw [hcong, hfull i hi] at h2'
  have hg := Except.ok.inj (h2'.symm.trans hs)
  have h3 : finish g = .ok (run.party i) := h3
  unfold finish at h3
  split at h3
  · have hx : (g.shares.map Prod.snd).sum = (I.map fun k => value (P.coeff (seed k)) t (i : F)).sum := by
      rw [hg]
      simp [List.map_map, Function.comp_def, c]
    rw [← hx]
    exact ⟨_, (Except.ok.inj h3).symm⟩
  · cases h3

end ElGamal

variable {F G : Type} [Field F] [AddCommGroup G] [Module F G] [Encodable F] [Encodable G] [DecidableEq G]

open ElGamal in
/-- **C102** Take one trustee fewer than the threshold.  Whatever shares they are sent by another trustee, these go with every secret of that trustee, and with each secret for exactly
one choice of the other coefficients: the shares say nothing about the secret. -/
theorem C102_shares_fit_every_secret (P : Params F G) (B : NodeEnv) (hF : ∀ i j : Nat, i ≤ 255 → j ≤ 255 → (i : F) = (j : F) → i = j)
    (A : List Nat) (hA : A.Nodup) (hb : ∀ a ∈ A, 1 ≤ a ∧ a ≤ 255) (i n : Nat) (secret : F) (shares : Nat → F) :
    ∃! c : Fin (A.length + 1) → F, c 0 = secret ∧ ∀ a ∈ A, (node P B).genShare (starting G i (A.length + 1) n (extend c)) a = .ok ⟨enc (shares a)⟩ := by
  have hval : ∀ (c : Fin (A.length + 1) → F) (a : Nat), (node P B).genShare (starting G i (A.length + 1) n (extend c)) a = .ok ⟨enc (shares a)⟩ ↔
      value (extend c) (A.length + 1) (a : F) = shares a := by
    intro c a
    show (Except.ok ⟨enc (value (extend c) (A.length + 1) (a : F))⟩ : Except CryptoError Scalar) = .ok ⟨enc (shares a)⟩ ↔ _
    constructor
    · intro h
      injection h with h
      injection h with h
      exact enc_injective h
    · intro h; rw [h]
  simp only [hval]
  have hcard := card_places hF hA hb
  have hinj := places_inj hF hA hb
  let r : Nat → F := fun j => if j = 0 then secret else shares j
  let f : Polynomial F := Lagrange.interpolate (places A) (fun i : Nat => (i : F)) r
  have hdeg : f.degree < ((A.length + 1 : Nat) : WithBot ℕ) := by
    have := Lagrange.degree_interpolate_lt (s := places A) (v := fun i : Nat => (i : F)) (r := r) hinj
    rwa [hcard] at this
  have hev : ∀ j ∈ places A, f.eval (j : F) = r j := fun j hj => Lagrange.eval_interpolate_at_node (v := fun i : Nat => (i : F)) r hinj hj
  have hpoly : poly (extend fun k : Fin (A.length + 1) => f.coeff k) (A.length + 1) = f := by
    ext k
    rw [coeff_poly]
    split
    · rename_i hk
      simp [extend, hk]
    · rename_i hk
      exact (Polynomial.coeff_eq_zero_of_degree_lt (hdeg.trans_le (by exact_mod_cast Nat.le_of_not_lt hk))).symm
  have hmem : ∀ a ∈ A, a ∈ places A ∧ a ≠ 0 := fun a ha => ⟨by simp [places, ha], by have := hb a ha; omega⟩
  refine ⟨fun k => f.coeff k, ⟨?_, fun a ha => ?_⟩, fun c' hc' => ?_⟩
  · have h0 := hev 0 (by simp [places])
    rw [Nat.cast_zero, ← Polynomial.coeff_zero_eq_eval_zero] at h0
    simpa [r] using h0
  · rw [← eval_poly, hpoly, hev a (hmem a ha).1]
    simp [r, (hmem a ha).2]
  · have heq : poly (extend c') (A.length + 1) = f := by
      refine Polynomial.eq_of_degrees_lt_of_eval_index_eq (s := places A) (v := fun i : Nat => (i : F)) hinj (by rw [hcard]; exact degree_poly _ _) (by rw [hcard]; exact hdeg) ?_
      intro j hj
      rw [hev j hj, eval_poly]
      by_cases h0 : j = 0
      · subst h0
        rw [Nat.cast_zero, value_zero _ (by omega)]
        simpa [extend, r] using hc'.1
      · have : j ∈ A := by simpa [places, h0] using hj
        rw [hc'.2 j this]
        simp [r, h0]
    funext k
    have := congrArg (fun p => Polynomial.coeff p (k : Nat)) heq
    simp only [coeff_poly, k.isLt, if_true] at this
    rw [← this]
    unfold extend
    rw [dif_pos k.isLt]

open ElGamal in
/-- **C102** The public commitments of the other trustee add nothing but its part of the election's key: they can be computed from that part and the shares. -/
theorem C102_commitments_follow (P : Params F G) (B : NodeEnv) (hF : ∀ i j : Nat, i ≤ 255 → j ≤ 255 → (i : F) = (j : F) → i = j)
    (A : List Nat) (hA : A.Nodup) (hb : ∀ a ∈ A, 1 ≤ a ∧ a ≤ 255) :
    ∃ compute : G → List Scalar → KeygenCommitment, ∀ (i n : Nat) (c : Nat → F) (shares : List Scalar),
      A.mapM (fun a => (node P B).genShare (starting G i (A.length + 1) n c) a) = .ok shares →
      (node P B).genCommitment (starting G i (A.length + 1) n c) = compute (c 0 • P.g) shares := by
  refine ⟨fun K shares => ⟨enc ((List.range (A.length + 1)).map fun k => (weight F A 0).coeff k • K +
    ((A.zip shares).map fun s => ((weight F A s.1).coeff k * ((dec s.2.raw : Option F).getD 0)) • P.g).sum)⟩, ?_⟩
  intro i n c shares hs
  have hsh : shares = A.map fun a : Nat => ⟨enc (value c (A.length + 1) (a : F))⟩ := by
    have : A.mapM (fun a : Nat => (Except.ok ⟨enc (value c (A.length + 1) (a : F))⟩ : Except CryptoError Scalar)) = .ok shares := hs
    have h2 := List.mapM_pure (m := Except CryptoError) (l := A) (f := fun a : Nat => (⟨enc (value c (A.length + 1) (a : F))⟩ : Scalar))
    exact Except.ok.inj (this.symm.trans h2)
  subst hsh
  show (⟨enc (commitment P c (A.length + 1))⟩ : KeygenCommitment) = _
  congr 2
  unfold commitment
  refine List.map_congr_left fun k hk => ?_
  have hk : k < A.length + 1 := List.mem_range.1 hk
  have h := coeff_from_places hF hA hb (poly c (A.length + 1)) (degree_poly c _) k
  simp only [coeff_poly, hk, if_true, eval_poly, value_zero c (Nat.succ_pos _)] at h
  rw [h, add_smul, mul_smul, sum_map_smul, List.map_map]
  congr 2
  rw [List.zip_map_right, List.map_map]
  have : ∀ L : List Nat, (L.map fun a : Nat => ((weight F A a).coeff k * value c (A.length + 1) (a : F)) • P.g) =
      (L.zip L).map fun s : Nat × Nat => ((weight F A s.1).coeff k * value c (A.length + 1) (s.2 : F)) • P.g := by
    intro L
    induction L with
    | nil => rfl
    | cons a L ih => simp only [List.map_cons, List.zip_cons_cons, ih]
  rw [show (A.map ((fun a => a • P.g) ∘ fun a : Nat => (weight F A a).coeff k * value c (A.length + 1) (a : F))) = _ from this A]
  refine List.map_congr_left fun s _ => ?_
  simp [dec_enc]

open ElGamal in
/-- **C102** Nor do the decryption shares that the others publish add anything but the vote: what a share says (apart from its proof) can be computed from the ciphertext, the vote in
it, and the keys of the coalition. -/
theorem C102_decryption_shares_follow (P : Params F G) (B : NodeEnv) (hF : ∀ i j : Nat, i ≤ 255 → j ≤ 255 → (i : F) = (j : F) → i = j)
    (A : List Nat) (hA : A.Nodup) (hb : ∀ a ∈ A, 1 ≤ a ∧ a ≤ 255) :
    ∃ compute : Nat → Ciphertext → Bytes → List F → G, ∀ (I : List Nat) (seed : Nat → BArr 32) (run : KeyGenRun (node P B)), I.Nodup → (∀ a ∈ A, a ∈ I) →
      run.Honest I (A.length + 1) seed → ∀ j ∈ I, ∀ (m r rnd : Bytes),
      let c := (node P B).encrypt ((node P B).partyKey (run.party j)) m r
      ∃ proof : G × G × F, (dec ((node P B).partyDecrypt (run.party j) c rnd).raw : Option (G × G × G × F)) =
        some (compute j c m (A.map fun a => keyShare (run.party a)), proof) := by
  refine ⟨fun j c m xs => match (dec c.raw : Option (G × G)) with
    | some (c1, c2) => (weight F A 0).eval (j : F) • (c2 - P.embed m) + ((A.zip xs).map fun s => ((weight F A s.1).eval (j : F) * s.2) • c1).sum
    | none => 0, ?_⟩
  intro I seed run hI hAI hrun j hj m r rnd
  obtain ⟨kj, hpj⟩ := honest_x P B hI hrun hj
  have hkey := honest_key P B hI (Nat.succ_pos _) hrun hj
  have hxs : (A.map fun a => keyShare (run.party a)) = A.map fun a : Nat => (I.map fun k => value (P.coeff (seed k)) (A.length + 1) (a : F)).sum := by
    refine List.map_congr_left fun a ha => ?_
    obtain ⟨ka, hpa⟩ := honest_x P B hI hrun (hAI a ha)
    rw [hpa]
    rfl
  simp only [hxs, hkey]
  have henc : (node P B).encrypt ⟨enc ((I.map fun k => P.coeff (seed k) 0).sum • P.g)⟩ m r =
      ⟨enc (P.draw r • P.g, P.embed m + P.draw r • ((I.map fun k => P.coeff (seed k) 0).sum • P.g))⟩ := by
    simp [node, encrypt, dec_enc]
  rw [henc, hpj]
  have hdec : ∀ (p : Party F G) (c1 c2 : G), ∃ proof : G × G × F, (dec ((node P B).partyDecrypt p ⟨enc (c1, c2)⟩ rnd).raw : Option (G × G × G × F)) = some (p.x • c1, proof) := by
    intro p c1 c2
    have : ((node P B).partyDecrypt p ⟨enc (c1, c2)⟩ rnd).raw = enc (p.x • c1, P.draw rnd • P.g, P.draw rnd • c1,
        P.draw rnd + P.hash [p.x • P.g, c1, p.x • c1, P.draw rnd • P.g, P.draw rnd • c1] * p.x) := by
      simp [node, decryptShare, dec_enc]
    exact ⟨_, by rw [this]; exact dec_enc _⟩
  obtain ⟨proof, hp⟩ := hdec ⟨(I.map fun k => value (P.coeff (seed k)) (A.length + 1) (j : F)).sum, kj⟩ (P.draw r • P.g)
    (P.embed m + P.draw r • ((I.map fun k => P.coeff (seed k) 0).sum • P.g))
  refine ⟨proof, hp.trans ?_⟩
  congr 2
  simp only [dec_enc]
  have h := sum_from_places hF hA hb (I.map fun k => P.coeff (seed k)) (j : F)
  simp only [List.map_map, Function.comp_def] at h
  rw [h, add_smul]
  congr 1
  · rw [add_sub_cancel_left, mul_smul, smul_comm (P.draw r)]
  · rw [sum_map_smul, List.map_map, List.zip_map_right, List.map_map]
    have : ∀ (g : Nat → F) (L : List Nat), (L.map fun a : Nat => g a) = (L.zip L).map fun s : Nat × Nat => g s.1 := by
      intro g L
      induction L with
      | nil => rfl
      | cons a L ih => simp only [List.map_cons, List.zip_cons_cons, ih]
    congr 1
    have hz : ∀ L : List Nat, (L.map fun a : Nat => ((weight F A a).eval (j : F) * (I.map fun k => value (P.coeff (seed k)) (A.length + 1) (a : F)).sum) • (P.draw r • P.g)) =
        (L.zip L).map fun s : Nat × Nat => ((weight F A s.1).eval (j : F) * (I.map fun k => value (P.coeff (seed k)) (A.length + 1) (s.2 : F)).sum) • (P.draw r • P.g) := by
      intro L
      induction L with
      | nil => rfl
      | cons a L ih => simp only [List.map_cons, List.zip_cons_cons, ih]
    exact hz A

/-- Three trustees with threshold three, in the rationals: the first two are one fewer than the threshold, and there is an honest run. -/
example (P : ElGamal.Params ℚ ℚ) (B : NodeEnv) (seed : Nat → BArr 32) :
    (∀ i j : Nat, i ≤ 255 → j ≤ 255 → (i : ℚ) = (j : ℚ) → i = j) ∧ [1, 2].Nodup ∧ (∀ a ∈ [1, 2], 1 ≤ a ∧ a ≤ 255) ∧ (∀ a ∈ [1, 2], a ∈ [1, 2, 3]) ∧
      ∃ run : KeyGenRun (ElGamal.node P B), run.Honest [1, 2, 3] ([1, 2].length + 1) seed := by
  have hF : ∀ i j : Nat, i ≤ 255 → j ≤ 255 → (i : ℚ) = (j : ℚ) → i = j := fun i j _ _ h => Nat.cast_injective h
  obtain ⟨run, -, h, -⟩ := ElGamal.threshold_works P B hF [1, 2, 3] 3 seed (by decide) (by decide) (by decide)
  exact ⟨hF, by decide, by decide, by decide, run, h⟩

/-- Such a scheme in the rationals. -/
example : Nonempty (ElGamal.Params ℚ ℚ) :=
  ⟨{ g := 1, coeff := fun s k => (s.val.getD k 0).toNat, draw := fun r => r.length, embed := fun m => m.length, extract := fun _ => [], hash := fun l => l.length }⟩

end CB
