import Verif.Model.Selection
/-!
# Protobuf decoding inverts encoding
-/

namespace CB

theorem varintDec_enc (f n : Nat) (h : n < 128 ^ (f + 1)) (r : Bytes) : varintDec (f + 1) (varintEnc (f + 1) n ++ r) = some (n, r) := by
  induction f generalizing n with
  | zero =>
    have hn : n < 128 := by simpa using h
    have e : (UInt8.ofNat n).toNat = n := by rw [UInt8.toNat_ofNat']; exact Nat.mod_eq_of_lt (by omega)
    simp only [varintEnc, if_pos hn, List.cons_append, List.nil_append, varintDec]
    rw [if_pos (by rw [UInt8.lt_iff_toNat_lt, e]; exact hn), e]
  | succ f ih =>
    unfold varintEnc
    split
    · rename_i hn
      have e : (UInt8.ofNat n).toNat = n := by rw [UInt8.toNat_ofNat']; exact Nat.mod_eq_of_lt (by omega)
      simp only [List.cons_append, List.nil_append, varintDec]
      rw [if_pos (by rw [UInt8.lt_iff_toNat_lt, e]; exact hn), e]
    · rename_i hn
      have e : (UInt8.ofNat (n % 128 + 128)).toNat = n % 128 + 128 := by rw [UInt8.toNat_ofNat']; exact Nat.mod_eq_of_lt (by omega)
      simp only [List.cons_append, varintDec]
      rw [if_neg (by rw [UInt8.lt_iff_toNat_lt, e]; simp), ih (n / 128) (by rw [Nat.div_lt_iff_lt_mul (by omega)]; rw [Nat.pow_succ] at h; exact h)]
      simp only [e, Option.some.injEq, Prod.mk.injEq, and_true]
      omega

theorem decodeVarint_enc {n : Nat} (h : n < 2 ^ 64) (r : Bytes) : decodeVarint (encodeVarint n ++ r) = some (n, r) := by
  unfold decodeVarint encodeVarint
  rw [varintDec_enc 9 n (Nat.lt_of_lt_of_le h (by decide))]
  simp only [Option.map_some, Option.some.injEq, Prod.mk.injEq, and_true]
  exact Nat.mod_eq_of_lt h

theorem encodeVarint_ne_nil (n : Nat) : encodeVarint n ≠ [] := by
  unfold encodeVarint varintEnc; split <;> simp

namespace Selection

theorem merge_mono {f f' : Nat} {s x : Selection} {bs : Bytes} (h : merge f s bs = some x) (hf : f ≤ f') : merge f' s bs = some x := by
  induction f generalizing f' s bs with
  | zero =>
    cases bs with
    | nil => cases f' <;> simpa [merge] using h
    | cons b bs => simp [merge] at h
  | succ f ih =>
    cases bs with
    | nil => cases f' <;> simpa [merge] using h
    | cons b bs =>
      obtain ⟨k, rfl⟩ : ∃ k, f' = k + 1 := ⟨f' - 1, by omega⟩
      unfold merge at h ⊢
      split at h
      · cases h
      · split at h
        · rename_i hm
          exact ih h (by omega)
        · cases h

theorem merge_nil (f : Nat) (s : Selection) : merge f s [] = some s := by cases f <;> rfl

theorem takeBytes_append (b r : Bytes) : takeBytes b.length (b ++ r) = some (b, r) := by simp [takeBytes]

theorem decodeVarint_byte {b : UInt8} (hb : b.toNat < 128) (bs : Bytes) : decodeVarint (b :: bs) = some (b.toNat, bs) := by
  have h1 : b < 128 := by rw [UInt8.lt_iff_toNat_lt]; exact hb
  simp only [decodeVarint, varintDec, if_pos h1, Option.map_some, Option.some.injEq, Prod.mk.injEq, and_true]
  omega

theorem decodeKey_byte {b : UInt8} {t w : Nat} (hb : b.toNat < 128) (h : b.toNat / 8 = t ∧ b.toNat % 8 = w) (ht : 0 < t) (hw : w ≤ 5) (bs : Bytes) :
    decodeKey (b :: bs) = some ((t, w), bs) := by
  rw [decodeKey, decodeVarint_byte hb]
  simp only
  rw [if_neg (by omega), h.1, h.2]

theorem merge_writeIn (f : Nat) (s : Selection) (r : Bytes) : merge (f + 1) s ([0x08, 0x01] ++ r) = merge f { s with writeIn := true } r := by
  simp only [List.cons_append, List.nil_append, merge]
  rw [decodeKey_byte (t := 1) (w := 0) (by decide) (by decide) (by decide) (by decide)]
  simp only [mergeField]
  rw [decodeVarint_byte (by decide)]
  rfl

theorem merge_score (f : Nat) (s : Selection) (n : UInt32) (r : Bytes) :
    merge (f + 1) s ((0x10 :: encodeVarint n.toNat) ++ r) = merge f { s with score := n } r := by
  simp only [List.cons_append, merge]
  rw [decodeKey_byte (t := 2) (w := 0) (by decide) (by decide) (by decide) (by decide)]
  simp only [mergeField]
  rw [decodeVarint_enc (Nat.lt_trans n.toNat_lt (by decide))]
  simp

theorem merge_selection (f : Nat) (s : Selection) (t : Str) (ht : validUtf8 t = true) (hl : t.length < 2 ^ 64) (r : Bytes) :
    merge (f + 1) s ((0x1a :: encodeVarint t.length ++ t) ++ r) = merge f { s with selection := t } r := by
  simp only [List.cons_append, List.append_assoc, merge]
  rw [decodeKey_byte (t := 3) (w := 2) (by decide) (by decide) (by decide) (by decide)]
  simp only [mergeField]
  rw [decodeVarint_enc hl]
  simp [takeBytes_append, ht]

theorem decode_encode (s : Selection) (ht : validUtf8 s.selection = true) (hl : s.selection.length < 2 ^ 64) : decode (encode s) = some s := by
  obtain ⟨w, n, t⟩ := s
  simp only at ht hl
  have h3 : ∀ (b : Bool) (m : UInt32), merge (if t = [] then 0 else 1) ⟨b, m, []⟩ (if t = [] then [] else 0x1a :: encodeVarint t.length ++ t) = some ⟨b, m, t⟩ := by
    intro b m
    split
    · rename_i h; subst h; rfl
    · have := merge_selection 0 ⟨b, m, []⟩ t ht hl []
      rw [List.append_nil] at this
      rw [this, merge_nil]
  have h2 : ∀ (b : Bool), merge ((if n = 0 then 0 else 1) + (if t = [] then 0 else 1)) ⟨b, 0, []⟩
      ((if n = 0 then [] else 0x10 :: encodeVarint n.toNat) ++ (if t = [] then [] else 0x1a :: encodeVarint t.length ++ t)) = some ⟨b, n, t⟩ := by
    intro b
    by_cases hn : n = 0
    · subst hn
      rw [if_pos rfl, if_pos rfl, List.nil_append, Nat.zero_add]
      exact h3 b 0
    · rw [if_neg hn, if_neg hn, Nat.add_comm, merge_score]
      exact h3 b n
  have h1 : merge ((if w then 1 else 0) + ((if n = 0 then 0 else 1) + (if t = [] then 0 else 1))) ⟨false, 0, []⟩ (encode ⟨w, n, t⟩) = some ⟨w, n, t⟩ := by
    unfold encode
    simp only [List.append_assoc]
    cases w
    · simp only [Bool.false_eq_true, if_false, List.nil_append, Nat.zero_add]
      exact h2 false
    · rw [if_pos rfl, if_pos rfl, Nat.add_comm, merge_writeIn]
      exact h2 true
  refine merge_mono h1 ?_
  unfold encode
  have hv := encodeVarint_ne_nil n.toNat
  cases w <;> by_cases hn : n = 0 <;> by_cases hs : t = [] <;> simp [hn, hs] <;> omega

end Selection
end CB
