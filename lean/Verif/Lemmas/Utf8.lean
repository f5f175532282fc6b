import Verif.Model.Json
import Verif.Spec.JsonText
/-!
# The model's UTF-8 checker and encoder against Lean's own encoding
-/

namespace CB
open Spec

theorem ofNat_u8_lt {n m : Nat} (h : n < 256) (hm : m < 256) : UInt8.ofNat n < UInt8.ofNat m ↔ n < m := by
  rw [UInt8.lt_iff_toNat_lt, UInt8.toNat_ofNat', UInt8.toNat_ofNat', Nat.mod_eq_of_lt h, Nat.mod_eq_of_lt hm]

theorem ofNat_u8_le {n m : Nat} (h : n < 256) (hm : m < 256) : UInt8.ofNat n ≤ UInt8.ofNat m ↔ n ≤ m := by
  rw [UInt8.le_iff_toNat_le, UInt8.toNat_ofNat', UInt8.toNat_ofNat', Nat.mod_eq_of_lt h, Nat.mod_eq_of_lt hm]

theorem ofNat_u8_eq {n m : Nat} (h : n < 256) (hm : m < 256) : UInt8.ofNat n = UInt8.ofNat m ↔ n = m := by
  rw [← UInt8.toNat_inj, UInt8.toNat_ofNat', UInt8.toNat_ofNat', Nat.mod_eq_of_lt h, Nat.mod_eq_of_lt hm]

theorem char_ofNat_val {n : Nat} (h : n.isValidChar) : (Char.ofNat n).val.toNat = n := by
  rw [Char.ofNat, dif_pos h]
  simp only [Char.ofNatAux, UInt32.toNat, BitVec.toNat_ofNatLT]

theorem char_valid (c : Char) : c.val.toNat < 0xd800 ∨ (0xdfff < c.val.toNat ∧ c.val.toNat < 0x110000) := c.valid

/-- The encoder of the JSON reader. -/
theorem utf8_eq {n : Nat} (h : n.isValidChar) : Json.utf8 n = String.utf8EncodeChar (Char.ofNat n) := by
  have hv : n < 0xd800 ∨ (0xdfff < n ∧ n < 0x110000) := h
  unfold Json.utf8 String.utf8EncodeChar
  rw [char_ofNat_val h]
  simp only
  by_cases h1 : n < 0x80
  · rw [if_pos h1, if_pos (show n ≤ 0x7f by omega)]
  rw [if_neg h1, if_neg (show ¬ n ≤ 0x7f by omega)]
  by_cases h2 : n < 0x800
  · rw [if_pos h2, if_pos (show n ≤ 0x7ff by omega), Nat.mod_eq_of_lt (b := 32) (by omega), Nat.add_comm, Nat.add_comm 0x80]
  rw [if_neg h2, if_neg (show ¬ n ≤ 0x7ff by omega)]
  by_cases h3 : n < 0x10000
  · rw [if_pos h3, if_pos (show n ≤ 0xffff by omega), Nat.mod_eq_of_lt (b := 16) (by omega), Nat.add_comm, Nat.add_comm 0x80, Nat.add_comm 0x80]
  rw [if_neg h3, if_neg (show ¬ n ≤ 0xffff by omega), Nat.mod_eq_of_lt (b := 8) (by omega), Nat.add_comm, Nat.add_comm 0x80, Nat.add_comm 0x80, Nat.add_comm 0x80]

theorem validUtf8_encode (c : Char) (r : Bytes) : validUtf8 (String.utf8EncodeChar c ++ r) = validUtf8 r := by
  have hv := char_valid c
  unfold String.utf8EncodeChar
  generalize c.val.toNat = v at hv
  simp only
  split
  · rw [List.singleton_append, validUtf8.eq_def]
    simp only
    rw [if_pos]
    exact (ofNat_u8_lt (m := 128) (by omega) (by omega)).2 (by omega)
  · split
    · rw [Nat.mod_eq_of_lt (b := 32) (by omega)]
      rw [List.cons_append, List.cons_append, List.nil_append, validUtf8.eq_def]
      simp only
      rw [if_neg, if_pos]
      · have h1 : (0x80 : UInt8) ≤ UInt8.ofNat (v % 64 + 128) := (ofNat_u8_le (n := 128) (by omega) (by omega)).2 (by omega)
        have h2 : UInt8.ofNat (v % 64 + 128) ≤ (0xBF : UInt8) := (ofNat_u8_le (m := 191) (by omega) (by omega)).2 (by omega)
        simp only [h1, h2, decide_true, Bool.and_true, Bool.true_and]
      · exact ⟨(ofNat_u8_le (n := 0xc2) (by omega) (by omega)).2 (by omega), (ofNat_u8_le (m := 0xdf) (by omega) (by omega)).2 (by omega)⟩
      · exact fun h => absurd ((ofNat_u8_lt (m := 128) (by omega) (by omega)).1 h) (by omega)
    · split
      · rw [Nat.mod_eq_of_lt (b := 16) (by omega)]
        rw [List.cons_append, List.cons_append, List.cons_append, List.nil_append, validUtf8.eq_def]
        simp only
        rw [if_neg]
        · rw [if_neg, if_pos]
          · have h1 : (0x80 : UInt8) ≤ UInt8.ofNat (v % 64 + 128) := (ofNat_u8_le (n := 128) (by omega) (by omega)).2 (by omega)
            have h2 : UInt8.ofNat (v % 64 + 128) ≤ (0xBF : UInt8) := (ofNat_u8_le (m := 191) (by omega) (by omega)).2 (by omega)
            have h3 : (0x80 : UInt8) ≤ UInt8.ofNat (v / 64 % 64 + 128) := (ofNat_u8_le (n := 128) (by omega) (by omega)).2 (by omega)
            have h4 : UInt8.ofNat (v / 64 % 64 + 128) ≤ (0xBF : UInt8) := (ofNat_u8_le (m := 191) (by omega) (by omega)).2 (by omega)
            have h5 : UInt8.ofNat (v / 4096 + 224) = (0xE0 : UInt8) → (0xA0 : UInt8) ≤ UInt8.ofNat (v / 64 % 64 + 128) := fun h => by
              have := (ofNat_u8_eq (m := 224) (by omega) (by omega)).1 h
              exact (ofNat_u8_le (n := 0xa0) (by omega) (by omega)).2 (by omega)
            have h6 : UInt8.ofNat (v / 4096 + 224) = (0xED : UInt8) → UInt8.ofNat (v / 64 % 64 + 128) ≤ (0x9F : UInt8) := fun h => by
              have := (ofNat_u8_eq (m := 0xed) (by omega) (by omega)).1 h
              exact (ofNat_u8_le (m := 0x9f) (by omega) (by omega)).2 (by omega)
            have e1 : (if UInt8.ofNat (v / 4096 + 224) = (0xE0 : UInt8) then decide ((0xA0 : UInt8) ≤ UInt8.ofNat (v / 64 % 64 + 128)) else decide ((0x80 : UInt8) ≤ UInt8.ofNat (v / 64 % 64 + 128))) = true := by
              split
              · exact decide_eq_true (h5 ‹_›)
              · exact decide_eq_true h3
            have e2 : (if UInt8.ofNat (v / 4096 + 224) = (0xED : UInt8) then decide (UInt8.ofNat (v / 64 % 64 + 128) ≤ (0x9F : UInt8)) else decide (UInt8.ofNat (v / 64 % 64 + 128) ≤ (0xBF : UInt8))) = true := by
              split
              · exact decide_eq_true (h6 ‹_›)
              · exact decide_eq_true h4
            rw [e1, e2]
            simp only [h1, h2, decide_true, Bool.and_true, Bool.true_and]
          · exact ⟨(ofNat_u8_le (n := 0xe0) (by omega) (by omega)).2 (by omega), (ofNat_u8_le (m := 0xef) (by omega) (by omega)).2 (by omega)⟩
          · exact fun h => absurd ((ofNat_u8_le (m := 0xdf) (by omega) (by omega)).1 h.2) (by omega)
        · exact fun h => absurd ((ofNat_u8_lt (m := 128) (by omega) (by omega)).1 h) (by omega)
      · rw [Nat.mod_eq_of_lt (b := 8) (by omega)]
        rw [List.cons_append, List.cons_append, List.cons_append, List.cons_append, List.nil_append, validUtf8.eq_def]
        simp only
        rw [if_neg]
        · rw [if_neg, if_neg]
          · have h1 : (0x80 : UInt8) ≤ UInt8.ofNat (v % 64 + 128) := (ofNat_u8_le (n := 128) (by omega) (by omega)).2 (by omega)
            have h2 : UInt8.ofNat (v % 64 + 128) ≤ (0xBF : UInt8) := (ofNat_u8_le (m := 191) (by omega) (by omega)).2 (by omega)
            have h3 : (0x80 : UInt8) ≤ UInt8.ofNat (v / 64 % 64 + 128) := (ofNat_u8_le (n := 128) (by omega) (by omega)).2 (by omega)
            have h4 : UInt8.ofNat (v / 64 % 64 + 128) ≤ (0xBF : UInt8) := (ofNat_u8_le (m := 191) (by omega) (by omega)).2 (by omega)
            have h3' : (0x80 : UInt8) ≤ UInt8.ofNat (v / 4096 % 64 + 128) := (ofNat_u8_le (n := 128) (by omega) (by omega)).2 (by omega)
            have h4' : UInt8.ofNat (v / 4096 % 64 + 128) ≤ (0xBF : UInt8) := (ofNat_u8_le (m := 191) (by omega) (by omega)).2 (by omega)
            have h7 : (0xF0 : UInt8) ≤ UInt8.ofNat (v / 262144 + 240) := (ofNat_u8_le (n := 240) (by omega) (by omega)).2 (by omega)
            have h8 : UInt8.ofNat (v / 262144 + 240) ≤ (0xF4 : UInt8) := (ofNat_u8_le (m := 244) (by omega) (by omega)).2 (by omega)
            have h5 : UInt8.ofNat (v / 262144 + 240) = (0xF0 : UInt8) → (0x90 : UInt8) ≤ UInt8.ofNat (v / 4096 % 64 + 128) := fun h => by
              have := (ofNat_u8_eq (m := 240) (by omega) (by omega)).1 h
              exact (ofNat_u8_le (n := 0x90) (by omega) (by omega)).2 (by omega)
            have h6 : UInt8.ofNat (v / 262144 + 240) = (0xF4 : UInt8) → UInt8.ofNat (v / 4096 % 64 + 128) ≤ (0x8F : UInt8) := fun h => by
              have := (ofNat_u8_eq (m := 244) (by omega) (by omega)).1 h
              exact (ofNat_u8_le (m := 0x8f) (by omega) (by omega)).2 (by omega)
            have e1 : (if UInt8.ofNat (v / 262144 + 240) = (0xF0 : UInt8) then decide ((0x90 : UInt8) ≤ UInt8.ofNat (v / 4096 % 64 + 128)) else decide ((0x80 : UInt8) ≤ UInt8.ofNat (v / 4096 % 64 + 128))) = true := by
              split
              · exact decide_eq_true (h5 ‹_›)
              · exact decide_eq_true h3'
            have e2 : (if UInt8.ofNat (v / 262144 + 240) = (0xF4 : UInt8) then decide (UInt8.ofNat (v / 4096 % 64 + 128) ≤ (0x8F : UInt8)) else decide (UInt8.ofNat (v / 4096 % 64 + 128) ≤ (0xBF : UInt8))) = true := by
              split
              · exact decide_eq_true (h6 ‹_›)
              · exact decide_eq_true h4'
            rw [e1, e2]
            simp only [h1, h2, h3, h4, h7, h8, decide_true, Bool.and_true, Bool.true_and]
          · exact fun h => absurd ((ofNat_u8_le (m := 0xef) (by omega) (by omega)).1 h.2) (by omega)
          · exact fun h => absurd ((ofNat_u8_le (m := 0xdf) (by omega) (by omega)).1 h.2) (by omega)
        · exact fun h => absurd ((ofNat_u8_lt (m := 128) (by omega) (by omega)).1 h) (by omega)

theorem u8_of_toNat {b : UInt8} {n : Nat} (h : b.toNat = n) : b = UInt8.ofNat n := by rw [← h, UInt8.ofNat_toNat]

theorem utf8EncodeChar_of {n : Nat} (h : n < 0xd800 ∨ (0xdfff < n ∧ n < 0x110000)) {s : Bytes} (hs : s = Json.utf8 n) : ∃ c, s = String.utf8EncodeChar c :=
  ⟨Char.ofNat n, by rw [hs, utf8_eq h]⟩

theorem validUtf8_split {b : UInt8} {s : Bytes} (h : validUtf8 (b :: s) = true) : ∃ c r, b :: s = String.utf8EncodeChar c ++ r ∧ validUtf8 r = true ∧ r.length ≤ s.length := by
  have hb := b.toNat_lt
  have c1 : (0x80 : UInt8).toNat = 0x80 := rfl
  have c2 : (0xc2 : UInt8).toNat = 0xc2 := rfl
  have c3 : (0xdf : UInt8).toNat = 0xdf := rfl
  have c4 : (0xbf : UInt8).toNat = 0xbf := rfl
  have c5 : (0xe0 : UInt8).toNat = 0xe0 := rfl
  have c6 : (0xef : UInt8).toNat = 0xef := rfl
  have c7 : (0xa0 : UInt8).toNat = 0xa0 := rfl
  have c8 : (0x9f : UInt8).toNat = 0x9f := rfl
  have c9 : (0xed : UInt8).toNat = 0xed := rfl
  have d1 : (0xf0 : UInt8).toNat = 0xf0 := rfl
  have d2 : (0xf4 : UInt8).toNat = 0xf4 := rfl
  have d3 : (0x90 : UInt8).toNat = 0x90 := rfl
  have d4 : (0x8f : UInt8).toNat = 0x8f := rfl
  unfold validUtf8 at h
  by_cases h0 : b < 0x80
  · rw [if_pos h0] at h
    rw [UInt8.lt_iff_toNat_lt, c1] at h0
    obtain ⟨c, hc⟩ := utf8EncodeChar_of (n := b.toNat) (by omega) (s := [b]) (by rw [Json.utf8, if_pos h0, UInt8.ofNat_toNat])
    exact ⟨c, s, by rw [← hc]; rfl, h, Nat.le_refl _⟩
  · rw [if_neg h0] at h
    rw [UInt8.lt_iff_toNat_lt, c1] at h0
    rcases s with _ | ⟨b1, s⟩
    · simp at h
    simp only at h
    have hb1 := b1.toNat_lt
    by_cases h1 : 0xC2 ≤ b ∧ b ≤ 0xDF
    · rw [if_pos h1] at h
      simp only [Bool.and_eq_true, decide_eq_true_eq, UInt8.le_iff_toNat_le, c1, c2, c3, c4] at h h1
      obtain ⟨c, hc⟩ := utf8EncodeChar_of (n := (b.toNat - 0xc0) * 64 + (b1.toNat - 0x80)) (by omega) (s := [b, b1]) (by
        rw [Json.utf8, if_neg (by omega), if_pos (by omega), ← u8_of_toNat (b := b) (by omega), ← u8_of_toNat (b := b1) (by omega)])
      exact ⟨c, s, by rw [← hc]; rfl, h.2, by simp⟩
    · rw [if_neg h1] at h
      simp only [UInt8.le_iff_toNat_le, c2, c3] at h1
      rcases s with _ | ⟨b2, s⟩
      · simp at h
      simp only at h
      have hb2 := b2.toNat_lt
      by_cases h2 : 0xE0 ≤ b ∧ b ≤ 0xEF
      · rw [if_pos h2] at h
        have hE : b = 0xE0 ↔ b.toNat = 0xe0 := by rw [← UInt8.toNat_inj, c5]
        have hD : b = 0xED ↔ b.toNat = 0xed := by rw [← UInt8.toNat_inj, c9]
        simp only [Bool.and_eq_true, decide_eq_true_eq, UInt8.le_iff_toNat_le, c1, c4, c5, c6, hE, hD] at h h2
        have k1 : 0x80 ≤ b1.toNat ∧ (b.toNat = 0xe0 → 0xa0 ≤ b1.toNat) := by
          have := h.1.1.1
          split at this <;> simp at this <;> omega
        have k2 : b1.toNat ≤ 0xbf ∧ (b.toNat = 0xed → b1.toNat ≤ 0x9f) := by
          have := h.1.1.2
          split at this <;> simp at this <;> omega
        have k3 := h.1.2
        obtain ⟨c, hc⟩ := utf8EncodeChar_of (n := (b.toNat - 0xe0) * 4096 + (b1.toNat - 0x80) * 64 + (b2.toNat - 0x80)) (by omega) (s := [b, b1, b2]) (by
          rw [Json.utf8, if_neg (by omega), if_neg (by omega), if_pos (by omega), ← u8_of_toNat (b := b) (by omega), ← u8_of_toNat (b := b1) (by omega),
            ← u8_of_toNat (b := b2) (by omega)])
        exact ⟨c, s, by rw [← hc]; rfl, h.2, by simp; omega⟩
      · rw [if_neg h2] at h
        simp only [UInt8.le_iff_toNat_le, c5, c6] at h2
        rcases s with _ | ⟨b3, s⟩
        · simp at h
        simp only at h
        have hb3 := b3.toNat_lt
        have hE : b = 0xF0 ↔ b.toNat = 0xf0 := by rw [← UInt8.toNat_inj, d1]
        have hD : b = 0xF4 ↔ b.toNat = 0xf4 := by rw [← UInt8.toNat_inj, d2]
        simp only [Bool.and_eq_true, decide_eq_true_eq, UInt8.le_iff_toNat_le, c1, c4, d1, d2, hE, hD] at h
        obtain ⟨⟨⟨⟨⟨k0, h3⟩, h4⟩, k3⟩, k4⟩, h5⟩ := h
        have k1 : 0x80 ≤ b1.toNat ∧ (b.toNat = 0xf0 → 0x90 ≤ b1.toNat) := by
          split at h3 <;> simp at h3 <;> omega
        have k2 : b1.toNat ≤ 0xbf ∧ (b.toNat = 0xf4 → b1.toNat ≤ 0x8f) := by
          split at h4 <;> simp at h4 <;> omega
        obtain ⟨c, hc⟩ := utf8EncodeChar_of (n := (b.toNat - 0xf0) * 262144 + (b1.toNat - 0x80) * 4096 + (b2.toNat - 0x80) * 64 + (b3.toNat - 0x80)) (by omega) (s := [b, b1, b2, b3]) (by
          rw [Json.utf8, if_neg (by omega), if_neg (by omega), if_neg (by omega), ← u8_of_toNat (b := b) (by omega), ← u8_of_toNat (b := b1) (by omega),
            ← u8_of_toNat (b := b2) (by omega), ← u8_of_toNat (b := b3) (by omega)])
        exact ⟨c, s, by rw [← hc]; rfl, h5, by simp; omega⟩

theorem validUtf8_iff (s : Bytes) : validUtf8 s = true ↔ Utf8 s := by
  constructor
  · generalize hn : s.length = n
    induction n using Nat.strongRecOn generalizing s with
    | _ n ih =>
      intro h
      rcases s with _ | ⟨b, s⟩
      · exact ⟨[], rfl⟩
      · obtain ⟨c, r, e, hr, hl⟩ := validUtf8_split h
        obtain ⟨l, rfl⟩ := ih r.length (by rw [← hn, List.length_cons]; omega) r rfl hr
        exact ⟨c :: l, by rw [e, List.flatMap_cons]⟩
  · rintro ⟨l, rfl⟩
    induction l with
    | nil => rfl
    | cons c l ih => rw [List.flatMap_cons, validUtf8_encode, ih]

end CB
