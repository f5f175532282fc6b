import Verif.Model.Basic
/-! # Lemmas on byte strings: comparison, hexadecimal -/

namespace CB

theorem forall_u8 {P : UInt8 → Prop} (h : ∀ n : Fin 256, P (UInt8.ofNat n.val)) (b : UInt8) : P b := by
  have := h ⟨b.toNat, b.toNat_lt⟩
  simpa using this

theorem u8_lt_irrefl (a : UInt8) : ¬ a < a := UInt8.lt_irrefl a

theorem u8_trichotomy (a b : UInt8) (h1 : ¬ a < b) (h2 : ¬ b < a) : a = b := by
  rw [UInt8.lt_iff_toNat_lt] at h1 h2
  apply UInt8.toNat_inj.1
  omega

theorem cmpBytes_refl (a : Bytes) : cmpBytes a a = .eq := by
  induction a with
  | nil => rfl
  | cons x xs ih => simp [cmpBytes, ih]

theorem cmpBytes_eq_iff (a b : Bytes) : cmpBytes a b = .eq ↔ a = b := by
  constructor
  · intro h
    induction a generalizing b with
    | nil => cases b with
      | nil => rfl
      | cons _ _ => simp [cmpBytes] at h
    | cons x xs ih => cases b with
      | nil => simp [cmpBytes] at h
      | cons y ys =>
        simp only [cmpBytes] at h
        split at h
        · cases h
        · split at h
          · cases h
          · rename_i h1 h2
            rw [u8_trichotomy x y h1 h2, ih ys h]
  · rintro rfl; exact cmpBytes_refl a

theorem cmpBytes_swap (a b : Bytes) : cmpBytes b a = (cmpBytes a b).swap := by
  induction a generalizing b with
  | nil => cases b <;> rfl
  | cons x xs ih => cases b with
    | nil => rfl
    | cons y ys =>
      simp only [cmpBytes]
      by_cases h1 : x < y
      · have h2 : ¬ y < x := by rw [UInt8.lt_iff_toNat_lt] at *; omega
        simp [h1, h2]
      · by_cases h2 : y < x
        · simp [h1, h2]
        · simp [h1, h2, ih]

theorem cmpBytes_lt_trans {a b c : Bytes} (h1 : cmpBytes a b = .lt) (h2 : cmpBytes b c = .lt) :
    cmpBytes a c = .lt := by
  induction a generalizing b c with
  | nil => cases b with
    | nil => simp [cmpBytes] at h1
    | cons y ys => cases c with
      | nil => simp [cmpBytes] at h2
      | cons z zs => rfl
  | cons x xs ih => cases b with
    | nil => simp [cmpBytes] at h1
    | cons y ys => cases c with
      | nil => simp [cmpBytes] at h2
      | cons z zs =>
        simp only [cmpBytes] at h1 h2 ⊢
        by_cases hxy : x < y
        · by_cases hyz : y < z
          · have : x < z := by rw [UInt8.lt_iff_toNat_lt] at *; omega
            simp [this]
          · by_cases hzy : z < y
            · simp [hyz, hzy] at h2
            · have := u8_trichotomy y z hyz hzy; subst this; simp [hxy]
        · by_cases hyx : y < x
          · simp [hxy, hyx] at h1
          · have := u8_trichotomy x y hxy hyx; subst this
            simp only [hxy, if_false] at h1
            by_cases hyz : x < z
            · simp [hyz]
            · by_cases hzy : z < x
              · simp [hyz, hzy] at h2
              · simp only [hyz, hzy, if_false] at h2 ⊢
                exact ih h1 h2

/-- `a ≤ b` in the order of byte strings. -/
abbrev leBytes (a b : Bytes) : Prop := cmpBytes a b ≠ .gt

theorem cmpBytes_ne_gt_trans {a b c : Bytes} (h1 : cmpBytes a b ≠ .gt) (h2 : cmpBytes b c ≠ .gt) :
    cmpBytes a c ≠ .gt := by
  cases hab : cmpBytes a b with
  | gt => exact absurd hab h1
  | eq => rw [(cmpBytes_eq_iff a b).1 hab]; exact h2
  | lt => cases hbc : cmpBytes b c with
    | gt => exact absurd hbc h2
    | eq => rw [← (cmpBytes_eq_iff b c).1 hbc, hab]; simp
    | lt => rw [cmpBytes_lt_trans hab hbc]; simp

theorem cmpBytes_lt_of_lt_of_ne_gt {a b c : Bytes} (h1 : cmpBytes a b = .lt) (h2 : cmpBytes b c ≠ .gt) :
    cmpBytes a c = .lt := by
  cases hbc : cmpBytes b c with
  | gt => exact absurd hbc h2
  | eq => rw [← (cmpBytes_eq_iff b c).1 hbc, h1]
  | lt => exact cmpBytes_lt_trans h1 hbc

theorem cmpBytes_gt_iff (a b : Bytes) : cmpBytes a b = .gt ↔ cmpBytes b a = .lt := by
  rw [cmpBytes_swap a b]; cases cmpBytes a b <;> simp

theorem cmpBytes_append_left (p a b : Bytes) : cmpBytes (p ++ a) (p ++ b) = cmpBytes a b := by
  induction p with
  | nil => rfl
  | cons x xs ih => simp [cmpBytes, ih]

/-- Comparison of concatenations of equally long heads. -/
theorem cmpBytes_append (a b c d : Bytes) (h : a.length = b.length) :
    cmpBytes (a ++ c) (b ++ d) = (cmpBytes a b).then (cmpBytes c d) := by
  induction a generalizing b with
  | nil =>
    cases b with
    | nil => rfl
    | cons _ _ => simp at h
  | cons x xs ih =>
    cases b with
    | nil => simp at h
    | cons y ys =>
      simp only [List.cons_append, cmpBytes]
      by_cases h1 : x < y
      · simp [h1]
      · by_cases h2 : y < x
        · simp [h1, h2]
        · simp only [h1, h2, if_false]; exact ih ys (by simpa using h)

/-! ## Hexadecimal -/

theorem hexEncode_length (b : Bytes) : (hexEncode b).length = 2 * b.length := by
  induction b with
  | nil => rfl
  | cons x xs ih => simp [hexEncode, ih]; omega

theorem hexEncode_append (a b : Bytes) : hexEncode (a ++ b) = hexEncode a ++ hexEncode b := by
  induction a with
  | nil => rfl
  | cons x xs ih => simp [hexEncode, ih]

/-- A lower-case hexadecimal character. -/
def IsLowerHex (c : UInt8) : Prop := (48 ≤ c ∧ c ≤ 57) ∨ (97 ≤ c ∧ c ≤ 102)

instance (c : UInt8) : Decidable (IsLowerHex c) := by unfold IsLowerHex; infer_instance

theorem hexDigit_lower : ∀ n : Fin 16, IsLowerHex (hexDigit n.val) := by decide +kernel

theorem hexVal_hexDigit : ∀ n : Fin 16, hexVal (hexDigit n.val) = some n.val := by decide +kernel

theorem hexDigit_lt : ∀ n m : Fin 16, n.val < m.val → hexDigit n.val < hexDigit m.val := by decide +kernel

theorem hexEncode_lower (b : Bytes) : ∀ c ∈ hexEncode b, IsLowerHex c := by
  induction b with
  | nil => simp [hexEncode]
  | cons x xs ih =>
    intro c hc
    simp only [hexEncode, List.mem_cons] at hc
    have hx := x.toNat_lt
    rcases hc with h | h | h
    · rw [h]; exact hexDigit_lower ⟨x.toNat / 16, by omega⟩
    · rw [h]; exact hexDigit_lower ⟨x.toNat % 16, by omega⟩
    · exact ih c h

theorem hexDecode_hexEncode (b : Bytes) : hexDecode (hexEncode b) = some b := by
  induction b with
  | nil => rfl
  | cons x xs ih =>
    have hx := x.toNat_lt
    have h1 := hexVal_hexDigit ⟨x.toNat / 16, by omega⟩
    have h2 := hexVal_hexDigit ⟨x.toNat % 16, by omega⟩
    simp only at h1 h2
    simp only [hexEncode, hexDecode, h1, h2, ih]
    have : 16 * (x.toNat / 16) + x.toNat % 16 = x.toNat := by omega
    rw [this]; simp

theorem hexEncode_injective {a b : Bytes} (h : hexEncode a = hexEncode b) : a = b := by
  have := hexDecode_hexEncode a
  rw [h, hexDecode_hexEncode] at this
  exact (Option.some.inj this).symm

/-- Hex text of equally long byte strings compares like the byte strings. -/
theorem cmpBytes_hexEncode (a b : Bytes) (h : a.length = b.length) :
    cmpBytes (hexEncode a) (hexEncode b) = cmpBytes a b := by
  induction a generalizing b with
  | nil =>
    cases b with
    | nil => rfl
    | cons _ _ => simp at h
  | cons x xs ih =>
    cases b with
    | nil => simp at h
    | cons y ys =>
      have hx := x.toNat_lt
      have hy := y.toNat_lt
      have ih' := ih ys (by simpa using h)
      have dlt := fun (n m : Nat) (hn : n < 16) (hm : m < 16) (hnm : n < m) =>
        hexDigit_lt ⟨n, hn⟩ ⟨m, hm⟩ hnm
      have dnlt : ∀ n m : Nat, n < 16 → m < 16 → n < m → ¬ hexDigit m < hexDigit n := by
        intro n m hn hm hnm hc
        have := dlt n m hn hm hnm
        simp only at this
        rw [UInt8.lt_iff_toNat_lt] at *; omega
      simp only [hexEncode, cmpBytes]
      by_cases h1 : x < y
      · rw [if_pos h1]
        rw [UInt8.lt_iff_toNat_lt] at h1
        by_cases hq : x.toNat / 16 < y.toNat / 16
        · have := dlt _ _ (by omega) (by omega) hq
          simp only at this
          simp [this]
        · have hq' : x.toNat / 16 = y.toNat / 16 := by omega
          have := dlt (x.toNat % 16) (y.toNat % 16) (by omega) (by omega) (by omega)
          simp only at this
          simp [hq', this]
      · rw [if_neg h1]
        by_cases h2 : y < x
        · rw [if_pos h2]
          rw [UInt8.lt_iff_toNat_lt] at h2
          by_cases hq : y.toNat / 16 < x.toNat / 16
          · have h3 := dlt _ _ (by omega) (by omega) hq
            have h4 := dnlt _ _ (by omega) (by omega) hq
            simp only at h3
            simp [h3, h4]
          · have hq' : x.toNat / 16 = y.toNat / 16 := by omega
            have h3 := dlt (y.toNat % 16) (x.toNat % 16) (by omega) (by omega) (by omega)
            have h4 := dnlt (y.toNat % 16) (x.toNat % 16) (by omega) (by omega) (by omega)
            simp only at h3
            simp [hq', h3, h4]
        · rw [if_neg h2]
          have := u8_trichotomy x y h1 h2
          subst this
          simp [ih']

end CB
