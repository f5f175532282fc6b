import Mathlib.Data.Countable.Basic
import Mathlib.Data.Fintype.Perm
import Mathlib.Data.Fintype.Card
import Mathlib.Data.List.FinRange
import Mathlib.Data.List.GetD
import Mathlib.Data.Set.Finite.Range
import Mathlib.Logic.Equiv.Fintype
import Verif.Examples.ElGamal
import Verif.Spec.Mixing
import Verif.Spec.NetworkMix
import Verif.Spec.Rules
/-!
# Re-encryption shuffles as in the textbook satisfy the laws about mixing

Over threshold ElGamal of `Examples/ElGamal`: a shuffle permutes the rows and adds a fresh encryption of 0 to every ciphertext.  The proof of a shuffle is idealised: it verifies
exactly if the outputs are a shuffle of the inputs.
-/

set_option linter.unusedSectionVars false

namespace CB.Mixing
open Spec ElGamal

variable {F G : Type} [Field F] [AddCommGroup G] [Module F G] [Encodable F] [Encodable G] [DecidableEq G]

/-- The coins of a shuffle of up to `size` rows and columns: for each shape, a permutation of the rows, and a factor for each ciphertext. -/
abbrev Coins (F : Type) (size : Nat) := (n w : Fin (size + 1)) → Equiv.Perm (Fin n) × (Fin n → Fin w → F)

noncomputable instance (size : Nat) : Encodable (Coins F size) := Encodable.ofCountable _

/-- the permutation and the factors for a shape (no permutation and no factors for shapes that are too large) -/
noncomputable def draw (F : Type) [Field F] [Encodable F] (size : Nat) (r : Bytes) (n w : Nat) : Equiv.Perm (Fin n) × (Fin n → Fin w → F) :=
  if h : n ≤ size ∧ w ≤ size then
    match (dec r : Option (Coins F size)) with
    | some d => d ⟨n, by omega⟩ ⟨w, by omega⟩
    | none => (1, fun _ _ => 0)
  else (1, fun _ _ => 0)

/-- adding an encryption of 0 -/
def reencrypt (P : Params F G) (key : ElGamalKey) (f : F) (c : Ciphertext) : Ciphertext :=
  match (dec key.raw : Option G), (dec c.raw : Option (G × G)) with
  | some y, some (c1, c2) => ⟨enc (c1 + f • P.g, c2 + f • y)⟩
  | _, _ => c

/-- number of columns -/
def widthOf (inputs : List (List Ciphertext)) : Nat := (inputs.head?.map List.length).getD 0

noncomputable def outputs (P : Params F G) (size : Nat) (inputs : List (List Ciphertext)) (key : ElGamalKey) (r : Bytes) : List (List Ciphertext) :=
  List.ofFn fun i : Fin inputs.length => List.ofFn fun j : Fin (widthOf inputs) =>
    reencrypt P key ((draw F size r inputs.length (widthOf inputs)).2 i j) ((inputs.get ((draw F size r inputs.length (widthOf inputs)).1 i)).getD j ⟨[]⟩)

noncomputable def shuffle (P : Params F G) (size : Nat) (inputs : List (List Ciphertext)) (key : ElGamalKey) (r : Bytes) :
    Except CryptoError (List (List Ciphertext) × ShuffleProof) :=
  if ∀ row ∈ inputs, row.length = widthOf inputs then .ok (outputs P size inputs key r, ⟨[]⟩) else .error ⟨8⟩

/-- rows permuted and ciphertexts re-encrypted -/
def IsShuffle (P : Params F G) (key : ElGamalKey) (inputs outputs : List (List Ciphertext)) : Prop :=
  ∃ mid : List (List Ciphertext), mid.Perm inputs ∧ List.Forall₂ (List.Forall₂ fun c c' => ∃ f : F, c' = reencrypt P key f c) mid outputs

open Classical in
/-- A node with textbook threshold ElGamal and re-encryption shuffles. -/
noncomputable def node (P : Params F G) (size : Nat) (B : NodeEnv) : NodeEnv :=
  ElGamal.node P { B with
    toEnv := { B.toEnv with shuffleVerify := fun _ _ _ inputs outputs key => decide (IsShuffle P key inputs outputs) }
    shuffle := fun _ _ inputs key r => shuffle P size inputs key r }

/-- encryptions, fresh or mixed -/
def Enc (P : Params F G) (key : ElGamalKey) (c : Ciphertext) (m : Bytes) : Prop :=
  P.extract (P.embed m) = m ∧ ∀ y : G, dec key.raw = some y → ∃ f : F, c = ⟨enc (f • P.g, P.embed m + f • y)⟩

variable (P : Params F G)

theorem shuffle_ok {size : Nat} {inputs : List (List Ciphertext)} {key : ElGamalKey} {r : Bytes} {out : List (List Ciphertext)} {proof : ShuffleProof}
    (h : shuffle P size inputs key r = .ok (out, proof)) : IsShuffle P key inputs out := by
  unfold shuffle at h
  split at h
  · rename_i hw
    cases h
    refine ⟨List.ofFn fun i : Fin inputs.length => inputs.get ((draw F size r inputs.length (widthOf inputs)).1 i), ?_, ?_⟩
    · have := Equiv.Perm.ofFn_comp_perm (draw F size r inputs.length (widthOf inputs)).1 inputs.get
      rw [List.ofFn_get] at this
      exact this
    · rw [List.forall₂_iff_get]
      refine ⟨by simp [outputs], fun i h1 h2 => ?_⟩
      simp only [outputs, List.get_ofFn]
      rw [List.forall₂_iff_get]
      refine ⟨by simpa using hw _ (List.getElem_mem _), fun j h3 h4 => ?_⟩
      simp only [List.get_ofFn]
      refine ⟨_, congrArg _ ?_⟩
      exact List.getD_eq_getElem _ _ h3
  · cases h

theorem reencrypt_enc {key : ElGamalKey} {c : Ciphertext} {m : Bytes} (f : F) (h : Enc P key c m) : Enc P key (reencrypt P key f c) m := by
  refine ⟨h.1, fun y hy => ?_⟩
  obtain ⟨f', rfl⟩ := h.2 y hy
  refine ⟨f' + f, ?_⟩
  simp [reencrypt, hy, dec_enc, add_smul, add_assoc]

theorem mixCorrect (size : Nat) (B : NodeEnv) (hF : ∀ i j : Nat, i ≤ 255 → j ≤ 255 → (i : F) = (j : F) → i = j) :
    MixCorrect (node P size B) (fun m => P.extract (P.embed m) = m) (Enc P) where
  encrypt key m r hm := by
    refine ⟨hm, fun y hy => ⟨P.draw r, ?_⟩⟩
    show ElGamal.encrypt P key m r = _
    simp [ElGamal.encrypt, hy]
  shuffle seed inputs key random out proof h := by
    have h := shuffle_ok P h
    refine ⟨by simpa [node, ElGamal.node] using h, ?_⟩
    obtain ⟨mid, h1, h2⟩ := h
    refine ⟨mid, h1, h2.imp fun _ _ h => h.imp ?_⟩
    rintro c _ ⟨f, rfl⟩ m hm
    exact reencrypt_enc P f hm
  threshold I t seed hI hb ht _ := by
    obtain ⟨run, y, h1, h2, h3⟩ := threshold_works P { B with
      toEnv := { B.toEnv with shuffleVerify := (node P size B).shuffleVerify }
      shuffle := (node P size B).shuffle } hF I t seed hI hb ht
    refine ⟨run, ⟨enc y⟩, h1, h2, fun c m hc => ?_⟩
    obtain ⟨f, rfl⟩ := hc.2 y (dec_enc y)
    exact h3 m f hc.1

theorem shuffleWorks (size : Nat) (B : NodeEnv) : ShuffleWorks (node P size B) := by
  intro seed inputs key random width hne _ hw
  refine ⟨(outputs P size inputs key random, ⟨[]⟩), ?_⟩
  show shuffle P size inputs key random = _
  unfold shuffle
  rw [if_pos]
  cases inputs with
  | nil => exact absurd rfl hne
  | cons row inputs =>
    intro row' h'
    rw [hw row' h']
    exact (hw row (List.mem_cons_self ..)).symm

open Classical in
/-- what a ciphertext says under a key, if the key has a secret -/
noncomputable def plain (key : ElGamalKey) (c : Ciphertext) : Bytes :=
  match (dec key.raw : Option G), (dec c.raw : Option (G × G)) with
  | some y, some (c1, c2) => if h : ∃ x : F, x • P.g = y then P.extract (c2 - h.choose • c1) else []
  | _, _ => []

theorem plain_enc {key : ElGamalKey} {c : Ciphertext} {m : Bytes} (h : Enc P key c m) {x : F} (hk : dec key.raw = some (x • P.g)) : plain P key c = m := by
  obtain ⟨f, rfl⟩ := h.2 _ hk
  have he : ∃ x' : F, x' • P.g = x • P.g := ⟨x, rfl⟩
  simp only [plain, hk, dec_enc]
  rw [dif_pos he, smul_comm he.choose f, he.choose_spec, add_sub_cancel_right, h.1]

theorem plain_reencrypt (key : ElGamalKey) (f : F) (c : Ciphertext) : plain P key (reencrypt P key f c) = plain P key c := by
  unfold plain reencrypt
  cases hk : (dec key.raw : Option G) with
  | none => simp
  | some y =>
    cases hc : (dec c.raw : Option (G × G)) with
    | none => simp [hc]
    | some cc =>
      simp only [dec_enc]
      split
      · rename_i he
        congr 1
        have := he.choose_spec
        rw [smul_add, smul_comm _ f, this]
        abel
      · rfl

theorem shuffleSound (size : Nat) (B : NodeEnv) : ShuffleSound (node P size B).toEnv (plain P) := by
  intro seed n proof inputs outputs key h
  replace h : IsShuffle P key inputs outputs := by simpa [node, ElGamal.node] using h
  obtain ⟨mid, h1, h2⟩ := h
  refine (h1.symm.map _).trans (List.Perm.of_eq ?_)
  clear h1
  induction h2 with
  | nil => rfl
  | cons r1 _ ih =>
    rw [List.map_cons, List.map_cons, ih]
    congr 1
    clear ih
    induction r1 with
    | nil => rfl
    | cons r2 _ ih =>
      obtain ⟨f, rfl⟩ := r2
      rw [List.map_cons, List.map_cons, ih, plain_reencrypt]

theorem exists_perm {α : Type} {n : Nat} (f g : Fin n → α) (h : (List.ofFn f).Perm (List.ofFn g)) : ∃ τ : Equiv.Perm (Fin n), ∀ i, f i = g (τ i) := by
  classical
  have hc : ∀ (f : Fin n → α) (a : α), (List.ofFn f).count a = Fintype.card {i // f i = a} := by
    intro f a
    rw [List.ofFn_eq_map, List.count, List.countP_map, Fintype.card_subtype, List.countP_eq_length_filter]
    have : (Finset.univ.filter fun i => f i = a) = ((List.finRange n).filter ((fun x => x == a) ∘ f)).toFinset := by
      ext i
      simp
    rw [this, List.toFinset_card_of_nodup ((List.nodup_finRange n).filter _)]
  have e : ∀ a, Nonempty ({i // f i = a} ≃ {i // g i = a}) := fun a => Fintype.card_eq.1 (by rw [← hc, ← hc, h.count_eq])
  refine ⟨Equiv.ofFiberEquiv fun a => (e a).some, fun i => (Equiv.ofFiberEquiv_map _ i).symm⟩

/-- the coins -/
def coins (F : Type) [Field F] [Encodable F] (size : Nat) : Set Bytes := Set.range (enc : Coins F size → Bytes)

theorem coins_finite [Finite F] (size : Nat) : (coins F size).Finite := Set.finite_range _

theorem enc_injective {α : Type} [Encodable α] : Function.Injective (enc : α → Bytes) := by
  intro a b h
  have := congrArg (dec (α := α)) h
  rwa [dec_enc, dec_enc, Option.some.injEq] at this

/-- changing the coins of one shape -/
theorem change_coins {size n w : Nat} (hn : n ≤ size) (hw : w ≤ size) (t : Equiv.Perm (Equiv.Perm (Fin n) × (Fin n → Fin w → F))) :
    ∃ σ : Bytes → Bytes, Set.BijOn σ (coins F size) (coins F size) ∧ ∀ r ∈ coins F size, draw F size (σ r) n w = t (draw F size r n w) := by
  let n' : Fin (size + 1) := ⟨n, by omega⟩
  let w' : Fin (size + 1) := ⟨w, by omega⟩
  let T : Equiv.Perm (Equiv.Perm (Fin n') × (Fin n' → Fin w' → F)) → Coins F size → Coins F size :=
    fun t d => Function.update d n' (Function.update (d n') w' (t (d n' w')))
  have hT : ∀ (t t' : Equiv.Perm (Equiv.Perm (Fin n') × (Fin n' → Fin w' → F))) d, (∀ x, t (t' x) = x) → T t (T t' d) = d := by
    intro t t' d h
    simp [T, h]
  refine ⟨fun r => match (dec r : Option (Coins F size)) with | some d => enc (T t d) | none => r, ⟨?_, ?_, ?_⟩, ?_⟩
  · rintro _ ⟨d, rfl⟩
    exact ⟨T t d, by simp [dec_enc]⟩
  · rintro _ ⟨d, rfl⟩ _ ⟨d', rfl⟩ h
    simp only [dec_enc] at h
    have h := congrArg (T t.symm) (enc_injective h)
    rw [hT _ _ _ t.symm_apply_apply, hT _ _ _ t.symm_apply_apply] at h
    rw [h]
  · rintro _ ⟨d, rfl⟩
    refine ⟨enc (T t.symm d), ⟨_, rfl⟩, ?_⟩
    simp only [dec_enc]
    rw [hT _ _ _ t.apply_symm_apply]
  · rintro _ ⟨d, rfl⟩
    simp only [draw, dec_enc, dif_pos (And.intro hn hw)]
    show T t d n' w' = _
    simp [T]
    rfl

/-- outputs by position -/
def byPosition (key : ElGamalKey) (n w : Nat) (rows : Nat → Nat → Ciphertext) (d : Equiv.Perm (Fin n) × (Fin n → Fin w → F)) : List (List Ciphertext) :=
  List.ofFn fun i : Fin n => List.ofFn fun j : Fin w => reencrypt P key (d.2 i j) (rows (d.1 i) j)

theorem outputs_eq (size : Nat) (inputs : List (List Ciphertext)) (key : ElGamalKey) (r : Bytes) {n w : Nat} (hn : inputs.length = n) (hw : widthOf inputs = w) :
    outputs P size inputs key r = byPosition P key n w (fun i j => (inputs.getD i []).getD j ⟨[]⟩) (draw F size r n w) := by
  subst hn hw
  unfold outputs byPosition
  congr 1
  funext i
  congr 1
  funext j
  simp only
  rw [List.getD_eq_getElem inputs [] (Fin.isLt _)]
  rfl

theorem factors {y : G} {A : List (List Ciphertext)} {M : List (List Bytes)} (h : List.Forall₂ (List.Forall₂ (Enc P ⟨enc y⟩)) A M) :
    ∃ f : Nat → Nat → F, ∀ i j, i < A.length → j < (A.getD i []).length →
      (A.getD i []).getD j ⟨[]⟩ = ⟨enc (f i j • P.g, P.embed ((M.getD i []).getD j []) + f i j • y)⟩ := by
  have : ∀ i j, ∃ f : F, i < A.length → j < (A.getD i []).length →
      (A.getD i []).getD j ⟨[]⟩ = ⟨enc (f • P.g, P.embed ((M.getD i []).getD j []) + f • y)⟩ := by
    intro i j
    by_cases hi : i < A.length
    · have hi' : i < M.length := h.length_eq ▸ hi
      have hr := (List.forall₂_iff_get.1 h).2 i hi hi'
      rw [List.getD_eq_getElem _ _ hi, List.getD_eq_getElem _ _ hi']
      simp only [List.get_eq_getElem] at hr
      by_cases hj : j < A[i].length
      · have hj' : j < M[i].length := hr.length_eq ▸ hj
        obtain ⟨f, hf⟩ := ((List.forall₂_iff_get.1 hr).2 j hj hj').2 y (dec_enc y)
        refine ⟨f, fun _ _ => ?_⟩
        rw [List.getD_eq_getElem _ _ hj, List.getD_eq_getElem _ _ hj']
        exact hf
      · exact ⟨0, fun _ h => absurd h hj⟩
    · exact ⟨0, fun h => absurd h hi⟩
  choose f hf using this
  exact ⟨f, hf⟩

theorem widthOf_eq {A : List (List Ciphertext)} {width : Nat} (hne : A ≠ []) (hw : ∀ row ∈ A, row.length = width) : widthOf A = width := by
  cases A with
  | nil => exact absurd rfl hne
  | cons row A => exact hw row (List.mem_cons_self ..)

theorem shuffle_eq {size : Nat} {A : List (List Ciphertext)} {key : ElGamalKey} {r : Bytes} {width : Nat} (hw : ∀ row ∈ A, row.length = width) :
    shuffle P size A key r = .ok (outputs P size A key r, ⟨[]⟩) := by
  unfold shuffle
  rw [if_pos]
  intro row h
  rw [widthOf_eq (List.ne_nil_of_mem h) hw, hw row h]

/-- **Textbook shuffles mix perfectly**, under every key. -/
theorem perfectMixing (size : Nat) (B : NodeEnv) (y : G) : PerfectMixing (node P size B) (Enc P) ⟨enc y⟩ (coins F size) size := by
  intro seed width A A' M M' hn hwd hw hA hA' hM
  have hwA : ∀ row ∈ A, row.length = width := fun row h => hw row (List.mem_append_left _ h)
  have hwA' : ∀ row ∈ A', row.length = width := fun row h => hw row (List.mem_append_right _ h)
  have hlen : A'.length = A.length := by rw [hA'.length_eq, hA.length_eq, hM.length_eq]
  have hs : ∀ (A : List (List Ciphertext)) r, (node P size B).shuffle seed A.length A ⟨enc y⟩ r = shuffle P size A ⟨enc y⟩ r := fun _ _ => rfl
  simp only [hs]
  by_cases hne : A = []
  · subst hne
    have : A' = [] := List.length_eq_zero_iff.1 hlen
    subst this
    refine ⟨id, Set.bijOn_id _, fun r _ => ?_⟩
    rw [shuffle_eq P hwA, shuffle_eq P hwA]
    simp [outputs, Except.map]
  have hne' : A' ≠ [] := fun h => hne (List.length_eq_zero_iff.1 (hlen ▸ h ▸ rfl))
  obtain ⟨f, hf⟩ := factors P hA
  obtain ⟨f', hf'⟩ := factors P hA'
  obtain ⟨τ, hτ⟩ := exists_perm (n := A.length) (fun i => M.getD i []) (fun i => M'.getD i []) (by
    have e : ∀ (L : List (List Bytes)), L.length = A.length → List.ofFn (fun i : Fin A.length => L.getD i []) = L := by
      intro L h
      refine List.ext_getElem (by simp [h]) fun i h1 h2 => ?_
      simp [h2]
    rw [e M hA.length_eq.symm, e M' (by rw [← hA'.length_eq, hlen])]
    exact hM)
  let t : Equiv.Perm (Equiv.Perm (Fin A.length) × (Fin A.length → Fin width → F)) :=
    { toFun := fun d => (d.1.trans τ, fun i j => d.2 i j + f (d.1 i) j - f' (τ (d.1 i)) j)
      invFun := fun d => (d.1.trans τ.symm, fun i j => d.2 i j - f (τ.symm (d.1 i)) j + f' (d.1 i) j)
      left_inv := fun d => by
        refine Prod.ext (by ext i; simp) ?_
        funext i j
        simp
        abel
      right_inv := fun d => by
        refine Prod.ext (by ext i; simp) ?_
        funext i j
        simp
        abel }
  obtain ⟨σ, hσ, hd⟩ := change_coins hn hwd t
  refine ⟨σ, hσ, fun r hr => ?_⟩
  rw [shuffle_eq P hwA, shuffle_eq P hwA', outputs_eq P size A _ r rfl (widthOf_eq hne hwA), outputs_eq P size A' _ (σ r) hlen (widthOf_eq hne' hwA'), hd r hr]
  simp only [Except.map]
  congr 1
  unfold byPosition
  congr 1
  funext i
  congr 1
  funext j
  generalize draw F size r A.length width = d
  have hrow : ∀ k, k < A.length → (A.getD k []).length = width := fun k hk => by
    rw [List.getD_eq_getElem _ _ hk]
    exact hwA _ (List.getElem_mem _)
  have hrow' : ∀ k, k < A.length → (A'.getD k []).length = width := fun k hk => by
    rw [List.getD_eq_getElem _ _ (hlen ▸ hk)]
    exact hwA' _ (List.getElem_mem _)
  show reencrypt P ⟨enc y⟩ (d.2 i j + f (d.1 i) j - f' (τ (d.1 i)) j) ((A'.getD (τ (d.1 i)) []).getD j ⟨[]⟩) = reencrypt P ⟨enc y⟩ (d.2 i j) ((A.getD (d.1 i) []).getD j ⟨[]⟩)
  rw [hf _ _ (Fin.isLt _) (by rw [hrow _ (Fin.isLt _)]; exact j.isLt), hf' _ _ (by rw [hlen]; exact Fin.isLt _) (by rw [hrow' _ (Fin.isLt _)]; exact j.isLt)]
  rw [← hτ (d.1 i)]
  simp only [reencrypt, dec_enc]
  congr 3
  · rw [← add_smul]
    rw [← add_smul]
    congr 1
    abel
  · rw [add_assoc, add_assoc, ← add_smul, ← add_smul]
    congr 2
    abel

end CB.Mixing
