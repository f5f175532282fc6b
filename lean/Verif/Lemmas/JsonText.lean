import Verif.Lemmas.Json
import Verif.Lemmas.Utf8
import Mathlib.Data.List.Induction
/-!
# The JSON reader accepts exactly the grammar
-/

namespace CB
namespace Json
open Spec

/-! ## White space -/

theorem isWs_iff (b : UInt8) : isWs b = true ↔ b ∈ str " \n\r\t" := by
  have : str " \n\r\t" = [0x20, 0x0a, 0x0d, 0x09] := by decide +kernel
  rw [this]
  simp only [isWs, Bool.or_eq_true, beq_iff_eq, List.mem_cons, List.not_mem_nil, or_false]
  constructor
  · rintro (((h | h) | h) | h) <;> simp [h]
  · rintro (h | h | h | h) <;> simp [h]

theorem white_iff (w : Bytes) : White w ↔ ∀ b ∈ w, isWs b = true := by
  constructor
  · intro h b hb; exact (isWs_iff b).2 (h b hb)
  · intro h b hb; exact (isWs_iff b).1 (h b hb)

theorem White.nil : White [] := by intro b hb; cases hb
theorem White.append {w w' : Bytes} (h : White w) (h' : White w') : White (w ++ w') := by
  intro b hb
  rcases List.mem_append.1 hb with hb | hb
  · exact h b hb
  · exact h' b hb

theorem skipWs_split (bs : Bytes) : ∃ w, White w ∧ bs = w ++ skipWs bs := by
  refine ⟨bs.takeWhile isWs, ?_, (List.takeWhile_append_dropWhile).symm⟩
  rw [white_iff]
  intro b hb
  have := List.all_takeWhile (p := isWs) (l := bs)
  rw [List.all_eq_true] at this
  exact this b hb

theorem skipWs_white {w : Bytes} (h : White w) (bs : Bytes) : skipWs (w ++ bs) = skipWs bs := skipWs_append ((white_iff w).1 h) bs

theorem Sep.white {w r : Bytes} (h : White w) (hr : Sep r) : Sep (w ++ r) := .ws ((white_iff w).1 h) hr

/-! ## Strings -/

theorem readHex4_sound {bs : Bytes} {n : Nat} {r : Bytes} (h : readHex4 bs = some (n, r)) : ∃ t, bs = t ++ r ∧ Hex4 t n := by
  unfold readHex4 at h
  split at h
  · rename_i a b c d r'
    split at h
    · rename_i i j k l h1 h2 h3 h4
      cases h
      have := Hex4.mk ((hexVal_iff _ _).1 h1) ((hexVal_iff _ _).1 h2) ((hexVal_iff _ _).1 h3) ((hexVal_iff _ _).1 h4)
      refine ⟨[a, b, c, d], rfl, ?_⟩
      rwa [show ((i * 16 + j) * 16 + k) * 16 + l = 4096 * i + 256 * j + 16 * k + l by omega]
    · cases h
  · cases h

theorem readHex4_complete {t : Bytes} {n : Nat} (h : Hex4 t n) (r : Bytes) : readHex4 (t ++ r) = some (n, r) := by
  cases h with
  | @mk a b c d i j k l h1 h2 h3 h4 =>
    simp only [List.cons_append, List.nil_append, readHex4, (hexVal_iff _ _).2 h1, (hexVal_iff _ _).2 h2, (hexVal_iff _ _).2 h3, (hexVal_iff _ _).2 h4]
    rw [show ((i * 16 + j) * 16 + k) * 16 + l = 4096 * i + 256 * j + 16 * k + l by omega]

theorem Hex4.lt {t : Bytes} {n : Nat} (h : Hex4 t n) : n < 0x10000 := by
  cases h with
  | mk h1 h2 h3 h4 =>
    obtain ⟨h1, -⟩ := h1
    obtain ⟨h2, -⟩ := h2
    obtain ⟨h3, -⟩ := h3
    obtain ⟨h4, -⟩ := h4
    omega

theorem readEscape_sound {bs c r : Bytes} (h : readEscape bs = some (c, r)) : ∃ e, bs = e ++ r ∧ Escape e c := by
  unfold readEscape at h
  split at h
  · cases h
  rename_i b r'
  have one : ∀ {x y : UInt8}, some ([y], r') = some (c, r) → (x, y) ∈ ([(0x22, 0x22), (0x5c, 0x5c), (0x2f, 0x2f), (0x62, 0x08), (0x66, 0x0c), (0x6e, 0x0a), (0x72, 0x0d), (0x74, 0x09)] : List (UInt8 × UInt8)) →
      ∃ e, x :: r' = e ++ r ∧ Escape e c := by
    intro x y h hm
    cases h
    exact ⟨[x], rfl, .short hm⟩
  by_cases k0 : b = 0x22
  · rw [if_pos k0] at h; subst k0; exact one h (by decide)
  rw [if_neg k0] at h
  by_cases k1 : b = 0x5c
  · rw [if_pos k1] at h; subst k1; exact one h (by decide)
  rw [if_neg k1] at h
  by_cases k2 : b = 0x2f
  · rw [if_pos k2] at h; subst k2; exact one h (by decide)
  rw [if_neg k2] at h
  by_cases k3 : b = 0x62
  · rw [if_pos k3] at h; subst k3; exact one h (by decide)
  rw [if_neg k3] at h
  by_cases k4 : b = 0x66
  · rw [if_pos k4] at h; subst k4; exact one h (by decide)
  rw [if_neg k4] at h
  by_cases k5 : b = 0x6e
  · rw [if_pos k5] at h; subst k5; exact one h (by decide)
  rw [if_neg k5] at h
  by_cases k6 : b = 0x72
  · rw [if_pos k6] at h; subst k6; exact one h (by decide)
  rw [if_neg k6] at h
  by_cases k7 : b = 0x74
  · rw [if_pos k7] at h; subst k7; exact one h (by decide)
  rw [if_neg k7] at h
  by_cases k8 : b = 0x75
  · rw [if_pos k8] at h
    subst k8
    rw [Option.bind_eq_some_iff] at h
    obtain ⟨⟨n, r1⟩, h1, h2⟩ := h
    obtain ⟨t, rfl, ht⟩ := readHex4_sound h1
    have hlt := Hex4.lt ht
    simp only at h2
    split at h2
    · cases h2
    split at h2
    · split at h2
      · rename_i r2
        rw [Option.bind_eq_some_iff] at h2
        obtain ⟨⟨m, r3⟩, h3, h4⟩ := h2
        obtain ⟨t', rfl, ht'⟩ := readHex4_sound h3
        simp only at h4
        split at h4
        · simp only [Option.some.injEq, Prod.mk.injEq] at h4
          obtain ⟨rfl, rfl⟩ := h4
          have e1 : Hex4 t (0xd800 + (n - 0xd800)) := by rwa [Nat.add_sub_cancel' (by omega)]
          have e2 : Hex4 t' (0xdc00 + (m - 0xdc00)) := by rwa [Nat.add_sub_cancel' (by omega)]
          have e3 := Escape.pair e1 (by omega) e2 (by omega)
          rw [Nat.mul_comm 1024, ← utf8_eq (.inr ⟨by omega, by omega⟩)] at e3
          exact ⟨_, by simp, e3⟩
        · cases h4
      · cases h2
    · cases h2
      have hv : n.isValidChar := by
        by_cases h : n < 0xd800
        · exact .inl h
        · exact .inr ⟨by omega, by omega⟩
      refine ⟨0x75 :: t, rfl, ?_⟩
      rw [utf8_eq hv]
      exact .unicode ht hv
  · rw [if_neg k8] at h; cases h

theorem readEscape_complete {e c : Bytes} (h : Escape e c) (r : Bytes) : readEscape (e ++ r) = some (c, r) := by
  cases h with
  | @short b c h =>
    simp only [List.mem_cons, List.not_mem_nil, or_false, Prod.mk.injEq] at h
    rcases h with ⟨rfl, rfl⟩ | ⟨rfl, rfl⟩ | ⟨rfl, rfl⟩ | ⟨rfl, rfl⟩ | ⟨rfl, rfl⟩ | ⟨rfl, rfl⟩ | ⟨rfl, rfl⟩ | ⟨rfl, rfl⟩ <;> rfl
  | @unicode h n hh hv =>
    have hv' : n < 0xd800 ∨ (0xdfff < n ∧ n < 0x110000) := hv
    rw [List.cons_append, readEscape]
    rw [if_neg (by decide), if_neg (by decide), if_neg (by decide), if_neg (by decide), if_neg (by decide), if_neg (by decide), if_neg (by decide), if_neg (by decide), if_pos rfl,
      readHex4_complete hh]
    simp only [Option.bind_some]
    rw [if_neg (by omega), if_neg (by omega), utf8_eq hv]
  | @pair h h' m n hh hm hh' hn =>
    rw [List.cons_append, readEscape]
    rw [if_neg (by decide), if_neg (by decide), if_neg (by decide), if_neg (by decide), if_neg (by decide), if_neg (by decide), if_neg (by decide), if_neg (by decide), if_pos rfl,
      List.append_assoc, readHex4_complete hh]
    simp only [Option.bind_some, List.cons_append]
    rw [if_neg (by omega), if_pos (by omega), readHex4_complete hh']
    simp only [Option.bind_some]
    rw [if_pos (by omega), Nat.add_sub_cancel_left, Nat.add_sub_cancel_left, utf8_eq (.inr ⟨by omega, by omega⟩), Nat.mul_comm m]

theorem readChars_sound (f : Nat) : ∀ {bs s r : Bytes}, readChars f bs = some (s, r) → ∃ t, bs = t ++ 0x22 :: r ∧ Chars t s := by
  induction f with
  | zero => intro bs s r h; cases h
  | succ f ih =>
    intro bs s r h
    rcases bs with _ | ⟨b, bs⟩
    · cases h
    rw [readChars] at h
    split at h
    · subst b; cases h; exact ⟨[], rfl, .nil⟩
    rename_i hq
    split at h
    · subst b
      rw [Option.bind_eq_some_iff] at h
      obtain ⟨⟨c, r1⟩, h1, h2⟩ := h
      simp only [Option.map_eq_some_iff] at h2
      obtain ⟨⟨s1, r2⟩, h2, h3⟩ := h2
      cases h3
      obtain ⟨e, rfl, he⟩ := readEscape_sound h1
      obtain ⟨t, rfl, ht⟩ := ih h2
      exact ⟨0x5c :: (e ++ t), by simp, .escape he ht⟩
    rename_i hb
    split at h
    · cases h
    rename_i hc
    simp only [Option.map_eq_some_iff] at h
    obtain ⟨⟨s1, r2⟩, h2, h3⟩ := h
    cases h3
    obtain ⟨t, rfl, ht⟩ := ih h2
    exact ⟨b :: t, rfl, .plain hq hb (UInt8.not_lt.1 hc) ht⟩

theorem readChars_complete {t s : Bytes} (h : Chars t s) (r : Bytes) : ∀ f, t.length < f → readChars f (t ++ 0x22 :: r) = some (s, r) := by
  induction h with
  | nil =>
    intro f hf
    obtain ⟨f, rfl⟩ : ∃ k, f = k + 1 := ⟨f - 1, by omega⟩
    rfl
  | @plain b t s h1 h2 h3 _ ih =>
    intro f hf
    obtain ⟨f, rfl⟩ : ∃ k, f = k + 1 := ⟨f - 1, by omega⟩
    rw [List.cons_append, readChars, if_neg h1, if_neg h2, if_neg (UInt8.not_lt.2 h3), ih f (by simp at hf; omega)]
    rfl
  | @escape e c t s he _ ih =>
    intro f hf
    obtain ⟨f, rfl⟩ : ∃ k, f = k + 1 := ⟨f - 1, by omega⟩
    rw [List.cons_append, readChars, if_neg (by decide), if_pos rfl, List.append_assoc, readEscape_complete he]
    simp only [Option.bind_some]
    rw [ih f (by simp at hf; omega)]
    rfl

theorem readStr_sound {bs s r : Bytes} (h : readStr bs = some (s, r)) : ∃ t, bs = t ++ 0x22 :: r ∧ Chars t s ∧ Utf8 s := by
  unfold readStr at h
  rw [Option.bind_eq_some_iff] at h
  obtain ⟨⟨s1, r1⟩, h1, h2⟩ := h
  simp only at h2
  split at h2
  · rename_i hv
    cases h2
    obtain ⟨t, e, ht⟩ := readChars_sound _ h1
    exact ⟨t, e, ht, (validUtf8_iff _).1 hv⟩
  · cases h2

theorem readStr_complete {t s : Bytes} (h : Chars t s) (hu : Utf8 s) (r : Bytes) : readStr (t ++ 0x22 :: r) = some (s, r) := by
  unfold readStr
  rw [readChars_complete h r _ (by simp; omega)]
  simp [(validUtf8_iff s).2 hu]

/-! ## Numbers -/

theorem digit_of {b : UInt8} (h : isDigit b = true) : ∃ d, d < 10 ∧ b = UInt8.ofNat (48 + d) ∧ b.toNat - 48 = d := by
  simp only [isDigit, Bool.and_eq_true, decide_eq_true_eq, UInt8.le_iff_toNat_le] at h
  have h1 : (0x30 : UInt8).toNat = 48 := rfl
  have h2 : (0x39 : UInt8).toNat = 57 := rfl
  refine ⟨b.toNat - 48, by omega, ?_, rfl⟩
  rw [show 48 + (b.toNat - 48) = b.toNat by omega, UInt8.ofNat_toNat]

theorem of_digit {d : Nat} (h : d < 10) : isDigit (UInt8.ofNat (48 + d)) = true ∧ (UInt8.ofNat (48 + d)).toNat - 48 = d ∧ (UInt8.ofNat (48 + d) = 0x30 → d = 0) := by
  revert d; decide

theorem ofDigits_snoc (ds : Bytes) (b : UInt8) : ofDigits (ds ++ [b]) = 10 * ofDigits ds + (b.toNat - 48) := by
  rw [ofDigits, List.foldl_append]; rfl

theorem le_ofDigits (ds : Bytes) : ∀ x, x ≤ ds.foldl (fun n d => 10 * n + (d.toNat - 48)) x := by
  induction ds with
  | nil => intro x; exact Nat.le_refl _
  | cons d ds ih => intro x; exact Nat.le_trans (by show x ≤ 10 * x + _; omega) (ih _)

/-- Digits without a leading zero spell their value. -/
theorem decimal_of {ds : Bytes} (hd : ∀ b ∈ ds, isDigit b = true) (h0 : ds ≠ []) (hz : ds.head? = some 0x30 → ds.length = 1) : Decimal ds (ofDigits ds) := by
  induction ds using List.reverseRecOn with
  | nil => exact absurd rfl h0
  | append_singleton ds b ih =>
    obtain ⟨d, hlt, rfl, hv⟩ := digit_of (hd b (by simp))
    rw [ofDigits_snoc, hv]
    rcases ds with _ | ⟨c, cs⟩
    · simpa [ofDigits] using Decimal.digit hlt
    · have hc : c ≠ 0x30 := by
        rintro rfl
        have := hz rfl
        simp at this
      refine .more (ih (fun b hb => hd b (List.mem_append_left _ hb)) (by simp) (fun h => absurd (Option.some.inj h) hc)) ?_ hlt
      obtain ⟨k, hk, rfl, hv⟩ := digit_of (hd c (by simp))
      have hk0 : 0 < k := by
        rcases Nat.eq_zero_or_pos k with rfl | h
        · exact absurd rfl hc
        · exact h
      have := le_ofDigits cs (10 * 0 + ((UInt8.ofNat (48 + k)).toNat - 48))
      rw [hv] at this
      rw [ofDigits, List.foldl_cons, hv]
      omega

theorem of_decimal {ds : Bytes} {n : Nat} (h : Decimal ds n) : (∀ b ∈ ds, isDigit b = true) ∧ ds ≠ [] ∧ (ds.head? = some 0x30 → ds.length = 1 ∧ n = 0) ∧ ofDigits ds = n := by
  induction h with
  | @digit d h =>
    refine ⟨?_, by simp, ?_, ?_⟩
    · intro b hb
      rw [List.mem_singleton] at hb
      rw [hb]; exact (of_digit h).1
    · intro hh; exact ⟨rfl, (of_digit h).2.2 (Option.some.inj hh)⟩
    · have := (of_digit h).2.1
      simpa [ofDigits] using this
  | @more ds n d hn hp hd ih =>
    obtain ⟨i1, i2, i3, i4⟩ := ih
    refine ⟨?_, by simp, ?_, ?_⟩
    · intro b hb
      rcases List.mem_append.1 hb with hb | hb
      · exact i1 b hb
      · rw [List.mem_singleton] at hb
        rw [hb]; exact (of_digit hd).1
    · intro hh
      have : ds.head? = some 0x30 := by
        rcases ds with _ | ⟨c, cs⟩
        · exact absurd rfl i2
        · exact hh
      have := (i3 this).2
      omega
    · rw [ofDigits_snoc, i4, (of_digit hd).2.1]

theorem Decimal.head {ds : Bytes} {n : Nat} (h : Decimal ds n) : ∃ b bs, ds = b :: bs ∧ isDigit b = true := by
  obtain ⟨h1, h2, -, -⟩ := of_decimal h
  rcases ds with _ | ⟨b, bs⟩
  · exact absurd rfl h2
  · exact ⟨b, bs, rfl, h1 b List.mem_cons_self⟩

theorem readDigits_sound {bs : Bytes} {n : Nat} {r : Bytes} (h : readDigits bs = some (n, r)) : ∃ ds, bs = ds ++ r ∧ Decimal ds n := by
  unfold readDigits at h
  have hd : ∀ b ∈ bs.takeWhile isDigit, isDigit b = true := by
    have := List.all_takeWhile (p := isDigit) (l := bs)
    rwa [List.all_eq_true] at this
  simp only at h
  split at h
  · cases h
  rename_i h1
  split at h
  · cases h
  rename_i h2
  have key := decimal_of hd (by simpa using h1) (fun hh => by
    by_contra hc
    exact h2 ⟨hh, hc⟩)
  have e : bs = bs.takeWhile isDigit ++ bs.dropWhile isDigit := (List.takeWhile_append_dropWhile).symm
  split at h
  · rename_i hr
    cases h
    exact ⟨_, by rw [← hr]; exact e, key⟩
  · rename_i b r' hr
    split at h
    · cases h
    · cases h
      exact ⟨_, by rw [← hr]; exact e, key⟩

theorem readDigits_complete {ds : Bytes} {n : Nat} (h : Decimal ds n) {r : Bytes} (hr : Sep r) : readDigits (ds ++ r) = some (n, r) := by
  obtain ⟨h2, h3, h5, hv⟩ := of_decimal h
  have hnd : ∀ b, r.head? = some b → isDigit b = false ∧ ¬ (b = 0x2e ∨ b = 0x65 ∨ b = 0x45) := by
    intro b hb
    have key : ∀ b : UInt8, (isWs b = true ∨ b = 0x2c ∨ b = 0x5d ∨ b = 0x7d) → isDigit b = false ∧ ¬ (b = 0x2e ∨ b = 0x65 ∨ b = 0x45) := by
      intro b hb
      simp only [isWs, Bool.or_eq_true, beq_iff_eq] at hb
      rcases hb with ((((rfl | rfl) | rfl) | rfl) | rfl | rfl | rfl) <;> decide
    exact key b (hr b hb)
  have ht : (ds ++ r).takeWhile isDigit = ds := by
    rw [List.takeWhile_append_of_pos h2]
    cases r with
    | nil => simp
    | cons b r => simp [(hnd b rfl).1]
  have hd : (ds ++ r).dropWhile isDigit = r := by
    rw [List.dropWhile_append_of_pos h2]
    cases r with
    | nil => simp
    | cons b r => simp [(hnd b rfl).1]
  unfold readDigits
  simp only [ht, hd, hv]
  rw [if_neg (by simp [h3]), if_neg (by rintro ⟨h, h'⟩; exact h' (h5 h).1)]
  cases r with
  | nil => rfl
  | cons b r => simp only [(hnd b rfl).2, if_false]

theorem readNumber_sound {bs : Bytes} {c : Cbor} {r : Bytes} (h : readNumber bs = some (c, r)) : ∃ t, bs = t ++ r ∧ SimpleValue t c := by
  rcases bs with _ | ⟨b, bs⟩
  · cases h
  rw [readNumber] at h
  split at h
  · subst b
    rw [Option.bind_eq_some_iff] at h
    obtain ⟨⟨n, r1⟩, h1, h2⟩ := h
    simp only at h2
    split at h2
    · rename_i hn
      cases h2
      obtain ⟨ds, rfl, hd⟩ := readDigits_sound h1
      refine ⟨0x2d :: ds, rfl, .negative (n := n - 1) ?_ (by omega)⟩
      rwa [show n - 1 + 1 = n by omega]
    · cases h2
  · rw [Option.bind_eq_some_iff] at h
    obtain ⟨⟨n, r1⟩, h1, h2⟩ := h
    simp only at h2
    split at h2
    · rename_i hn
      cases h2
      obtain ⟨ds, e, hd⟩ := readDigits_sound h1
      exact ⟨ds, e, .number hd hn⟩
    · cases h2

/-! ## Values -/

/-- The reader accepts exactly white space followed by what `P` describes. -/
structure Reads {α : Type} (item : Bytes → Option (α × Bytes)) (P : Bytes → α → Prop) : Prop where
  sound : ∀ {bs a r}, item bs = some (a, r) → ∃ w t, White w ∧ bs = w ++ (t ++ r) ∧ P t a
  complete : ∀ {w t a r}, White w → P t a → Sep r → item (w ++ (t ++ r)) = some (a, r)
  head : ∀ {t a}, P t a → ∃ b bs, t = b :: bs ∧ isWs b = false ∧ b ≠ 0x5d ∧ b ≠ 0x7d

section
variable {α : Type} {item : Bytes → Option (α × Bytes)} {P : Bytes → α → Prop}

theorem Commas.white {t : Bytes} {l : List α} (h : Commas P t l) {w : Bytes} (hw : White w) : Commas P (w ++ t) l := by
  cases h with
  | @one w1 t w' a h1 h2 h3 =>
    have := Commas.one (White.append hw h1) h2 h3
    simpa using this
  | @more w1 t w' u a l h1 h2 h3 h4 =>
    have := Commas.more (White.append hw h1) h2 h3 h4
    simpa using this

/-- Where the first item begins. -/
theorem Commas.start (h : Reads item P) {t : Bytes} {l : List α} (hc : Commas P t l) :
    ∃ w b bs, White w ∧ t = w ++ b :: bs ∧ Commas P (b :: bs) l ∧ isWs b = false ∧ b ≠ 0x5d ∧ b ≠ 0x7d := by
  cases hc with
  | @one w1 t w' a h1 h2 h3 =>
    obtain ⟨b, bs, rfl, k1, k2⟩ := h.head h2
    refine ⟨w1, b, bs ++ w', h1, rfl, ?_, k1, k2⟩
    exact Commas.one (w := []) White.nil h2 h3
  | @more w1 t w' u a l h1 h2 h3 h4 =>
    obtain ⟨b, bs, rfl, k1, k2⟩ := h.head h2
    refine ⟨w1, b, bs ++ (w' ++ 0x2c :: u), h1, rfl, ?_, k1, k2⟩
    exact Commas.more (w := []) White.nil h2 h3 h4

theorem readItems_sound (h : Reads item P) {close : UInt8} (f : Nat) : ∀ {bs l r}, readItems close item f bs = some (l, r) → ∃ t, bs = t ++ close :: r ∧ Commas P t l := by
  induction f with
  | zero => intro bs l r e; cases e
  | succ f ih =>
    intro bs l r e
    rw [readItems, Option.bind_eq_some_iff] at e
    obtain ⟨⟨a, r1⟩, h1, h2⟩ := e
    obtain ⟨w, t, hw, rfl, ht⟩ := h.sound h1
    obtain ⟨w', hw', e'⟩ := skipWs_split r1
    simp only at h2
    split at h2
    · cases h2
    rename_i b r2 hr
    rw [hr] at e'
    split at h2
    · subst b
      cases h2
      exact ⟨w ++ (t ++ w'), by rw [e']; simp, .one hw ht hw'⟩
    · split at h2
      · subst b
        rw [Option.map_eq_some_iff] at h2
        obtain ⟨⟨l', r3⟩, h3, h4⟩ := h2
        cases h4
        obtain ⟨u, rfl, hu⟩ := ih h3
        exact ⟨w ++ (t ++ (w' ++ 0x2c :: u)), by rw [e']; simp, .more hw ht hw' hu⟩
      · cases h2

theorem readItems_complete (h : Reads item P) {close : UInt8} (hclose : close = 0x5d ∨ close = 0x7d) {t : Bytes} {l : List α} (hc : Commas P t l) (r : Bytes) :
    ∀ f, t.length < f → readItems close item f (t ++ close :: r) = some (l, r) := by
  have hcw : isWs close = false := by rcases hclose with rfl | rfl <;> rfl
  have hcc : close ≠ 0x2c := by rcases hclose with rfl | rfl <;> decide
  have hs : Sep (close :: r) := .cons (by rcases hclose with rfl | rfl <;> simp) _
  induction hc with
  | @one w t w' a h1 h2 h3 =>
    intro f hf
    obtain ⟨f, rfl⟩ : ∃ k, f = k + 1 := ⟨f - 1, by omega⟩
    rw [List.append_assoc, List.append_assoc, readItems, h.complete h1 h2 (.white h3 hs)]
    simp only [Option.bind_some]
    rw [skipWs_white h3, skipWs_cons hcw]
    simp
  | @more w t w' u a l h1 h2 h3 h4 ih =>
    intro f hf
    obtain ⟨f, rfl⟩ : ∃ k, f = k + 1 := ⟨f - 1, by omega⟩
    rw [List.append_assoc, List.append_assoc, readItems, List.append_assoc, List.cons_append, h.complete h1 h2 (.white h3 (.cons (by simp) _))]
    simp only [Option.bind_some]
    rw [skipWs_white h3, skipWs_cons (by rfl)]
    simp only [hcc.symm, if_false, if_true]
    rw [ih f (by simp at hf; omega)]
    rfl

theorem readContainer_sound (h : Reads item P) {close : UInt8} {bs : Bytes} {l : List α} {r : Bytes} (e : readContainer close item bs = some (l, r)) :
    (∃ w, White w ∧ bs = w ++ close :: r ∧ l = []) ∨ ∃ t, bs = t ++ close :: r ∧ Commas P t l := by
  unfold readContainer at e
  obtain ⟨w, hw, e'⟩ := skipWs_split bs
  split at e
  · cases e
  rename_i b r1 hr
  rw [hr] at e'
  split at e
  · subst b
    cases e
    exact .inl ⟨w, hw, e', rfl⟩
  · obtain ⟨t, e2, ht⟩ := readItems_sound h _ e
    exact .inr ⟨w ++ t, by rw [e', e2]; simp, Commas.white ht hw⟩

theorem readContainer_empty {close : UInt8} (hclose : close = 0x5d ∨ close = 0x7d) {w : Bytes} (hw : White w) (r : Bytes) :
    readContainer close item (w ++ close :: r) = some ([], r) := by
  have hcw : isWs close = false := by rcases hclose with rfl | rfl <;> rfl
  unfold readContainer
  rw [skipWs_white hw, skipWs_cons hcw]
  simp

theorem readContainer_complete (h : Reads item P) {close : UInt8} (hclose : close = 0x5d ∨ close = 0x7d) {t : Bytes} {l : List α} (hc : Commas P t l) (r : Bytes) :
    readContainer close item (t ++ close :: r) = some (l, r) := by
  obtain ⟨w, b, bs, hw, rfl, hc', hb, h1, h2⟩ := Commas.start h hc
  unfold readContainer
  rw [List.append_assoc, skipWs_white hw, List.cons_append, skipWs_cons hb]
  simp only
  rw [if_neg (by rcases hclose with rfl | rfl <;> assumption), ← List.cons_append]
  exact readItems_complete h hclose hc' r _ (by simp; omega)

end

theorem Quoted.head {t : Bytes} {s : Str} (h : Quoted t s) : ∃ bs, t = 0x22 :: bs := by
  cases h with
  | mk => exact ⟨_, rfl⟩

theorem readKey_sound {bs : Bytes} {s : Str} {r : Bytes} (h : readKey bs = some (s, r)) : ∃ w t, White w ∧ bs = w ++ (t ++ r) ∧ Quoted t s := by
  unfold readKey at h
  obtain ⟨w, hw, e⟩ := skipWs_split bs
  split at h
  · rename_i r1 hr
    rw [hr] at e
    obtain ⟨t, rfl, ht, hu⟩ := readStr_sound h
    exact ⟨w, _, hw, by rw [e]; simp, .mk ht hu⟩
  · cases h

theorem readKey_complete {w t : Bytes} {s : Str} (hw : White w) (h : Quoted t s) (r : Bytes) : readKey (w ++ (t ++ r)) = some (s, r) := by
  unfold readKey
  rw [skipWs_white hw]
  cases h with
  | @mk t s h hu =>
    rw [List.cons_append, skipWs_cons rfl, List.append_assoc]
    exact readStr_complete h hu r

theorem reads_entry {item : Bytes → Option (Cbor × Bytes)} {P : Bytes → Cbor → Prop} (h : Reads item P) : Reads (readEntry item) (Member P) where
  sound := by
    intro bs a r e
    unfold readEntry at e
    rw [Option.bind_eq_some_iff] at e
    obtain ⟨⟨k, r1⟩, h1, h2⟩ := e
    obtain ⟨w, q, hw, rfl, hq⟩ := readKey_sound h1
    obtain ⟨w', hw', e'⟩ := skipWs_split r1
    simp only at h2
    split at h2
    · rename_i r2 hr
      rw [hr] at e'
      rw [Option.map_eq_some_iff] at h2
      obtain ⟨⟨v, r3⟩, h3, h4⟩ := h2
      cases h4
      obtain ⟨w2, t, hw2, rfl, ht⟩ := h.sound h3
      exact ⟨w, _, hw, by rw [e']; simp, .mk hq hw' hw2 ht⟩
    · cases h2
  complete := by
    intro w t a r hw ht hr
    cases ht with
    | @mk k w1 w2 t s c hq hw1 hw2 ht =>
      unfold readEntry
      rw [List.append_assoc, readKey_complete hw hq]
      simp only [Option.bind_some]
      rw [List.append_assoc, skipWs_white hw1, List.cons_append, skipWs_cons (by rfl), List.append_assoc]
      simp only
      rw [h.complete hw2 ht hr]
      rfl
  head := by
    intro t a ht
    cases ht with
    | @mk k w1 w2 t s c hq hw1 hw2 ht =>
      obtain ⟨bs, rfl⟩ := Quoted.head hq
      exact ⟨0x22, _, rfl, rfl, by decide, by decide⟩

theorem word_sound {w : Str} {c d : Cbor} {bs r : Bytes} (h : readWord w c bs = some (d, r)) : bs = w ++ r ∧ d = c := by
  unfold readWord at h
  split at h
  · rename_i hp
    cases h
    rw [List.isPrefixOf_iff_prefix] at hp
    exact ⟨(List.prefix_iff_eq_append.1 hp).symm, rfl⟩
  · cases h

theorem digit_ne {b c : UInt8} (h : isDigit b = true) (hc : isDigit c = false) : b ≠ c := by
  rintro rfl
  rw [h] at hc
  cases hc

theorem SimpleValue.head {t : Bytes} {c : Cbor} (h : SimpleValue t c) : ∃ b bs, t = b :: bs ∧ isWs b = false ∧ b ≠ 0x5d ∧ b ≠ 0x7d := by
  cases h with
  | null => exact ⟨_, _, rfl, rfl, by decide, by decide⟩
  | true => exact ⟨_, _, rfl, rfl, by decide, by decide⟩
  | false => exact ⟨_, _, rfl, rfl, by decide, by decide⟩
  | number h _ =>
    obtain ⟨b, bs, e, hb⟩ := Decimal.head h
    refine ⟨b, bs, e, ?_, digit_ne hb rfl, digit_ne hb rfl⟩
    cases hw : isWs b with
    | false => rfl
    | true =>
      simp only [isWs, Bool.or_eq_true, beq_iff_eq] at hw
      rcases hw with (((rfl | rfl) | rfl) | rfl) <;> cases hb
  | negative => exact ⟨_, _, rfl, rfl, by decide, by decide⟩
  | text h =>
    obtain ⟨bs, e⟩ := Quoted.head h
    exact ⟨_, _, e, rfl, by decide, by decide⟩

/-- A value without others inside is read whatever the nesting. -/
theorem readStep_scalar (inner : Option (Bytes → Option (Cbor × Bytes))) {w t r : Bytes} {c : Cbor} (hw : White w) (h : SimpleValue t c) (hr : Sep r) :
    readStep inner (w ++ (t ++ r)) = some (c, r) := by
  unfold readStep
  rw [skipWs_white hw]
  cases h with
  | null => rfl
  | true => rfl
  | false => rfl
  | @number ds n h hn =>
    obtain ⟨b, bs, e, hb⟩ := Decimal.head h
    have hrd := readDigits_complete h hr
    rw [e, List.cons_append] at hrd ⊢
    have hws : isWs b = false := by
      cases hw : isWs b with
      | false => rfl
      | true =>
        simp only [isWs, Bool.or_eq_true, beq_iff_eq] at hw
        rcases hw with (((rfl | rfl) | rfl) | rfl) <;> cases hb
    rw [skipWs_cons hws]
    simp only [digit_ne hb (show isDigit 0x6e = false from rfl), digit_ne hb (show isDigit 0x74 = false from rfl), digit_ne hb (show isDigit 0x66 = false from rfl),
      digit_ne hb (show isDigit 0x22 = false from rfl), digit_ne hb (show isDigit 0x5b = false from rfl), digit_ne hb (show isDigit 0x7b = false from rfl), if_false]
    rw [readNumber, if_neg (digit_ne hb rfl), hrd]
    simp only [Option.bind_some]
    rw [if_pos hn]
  | @negative ds n h hn =>
    rw [List.cons_append, skipWs_cons rfl]
    simp only [show ((0x2d : UInt8) = 0x6e) = False by decide, show ((0x2d : UInt8) = 0x74) = False by decide, show ((0x2d : UInt8) = 0x66) = False by decide,
      show ((0x2d : UInt8) = 0x22) = False by decide, show ((0x2d : UInt8) = 0x5b) = False by decide, show ((0x2d : UInt8) = 0x7b) = False by decide, if_false]
    rw [readNumber, if_pos rfl, readDigits_complete h hr]
    simp only [Option.bind_some]
    rw [if_pos ⟨by omega, by omega⟩, Nat.add_sub_cancel]
  | @text t s h =>
    cases h with
    | @mk t s h hu =>
      rw [List.cons_append, skipWs_cons rfl, List.append_assoc]
      simp only [show ((0x22 : UInt8) = 0x6e) = False by decide, show ((0x22 : UInt8) = 0x74) = False by decide, show ((0x22 : UInt8) = 0x66) = False by decide, if_false, if_true,
        List.cons_append, List.nil_append]
      rw [readStr_complete h hu r]
      rfl

/-- What a step reads. -/
theorem readStep_sound {inner : Option (Bytes → Option (Cbor × Bytes))} {P : Bytes → Cbor → Prop} (hin : ∀ item, inner = some item → Reads item P) {bs r : Bytes} {c : Cbor}
    (e : readStep inner bs = some (c, r)) : ∃ w t, White w ∧ bs = w ++ (t ++ r) ∧ (SimpleValue t c ∨ (inner ≠ none ∧ Container P t c)) := by
  unfold readStep at e
  obtain ⟨w, hw, e'⟩ := skipWs_split bs
  split at e
  · cases e
  rename_i b r1 hr
  rw [hr] at e'
  clear hr
  subst e'
  split at e
  · obtain ⟨h1, rfl⟩ := word_sound e
    exact ⟨w, _, hw, by rw [h1], .inl .null⟩
  split at e
  · obtain ⟨h1, rfl⟩ := word_sound e
    exact ⟨w, _, hw, by rw [h1], .inl .true⟩
  split at e
  · obtain ⟨h1, rfl⟩ := word_sound e
    exact ⟨w, _, hw, by rw [h1], .inl .false⟩
  split at e
  · subst b
    rw [Option.map_eq_some_iff] at e
    obtain ⟨⟨s, r2⟩, h1, h2⟩ := e
    cases h2
    obtain ⟨t, rfl, ht, hu⟩ := readStr_sound h1
    exact ⟨w, 0x22 :: (t ++ [0x22]), hw, by simp, .inl (.text (.mk ht hu))⟩
  split at e
  · subst b
    rw [Option.bind_eq_some_iff] at e
    obtain ⟨item, hi, e⟩ := e
    rw [Option.map_eq_some_iff] at e
    obtain ⟨⟨l, r2⟩, h1, h2⟩ := e
    cases h2
    have hne : inner ≠ none := by rw [hi]; simp
    rcases readContainer_sound (hin item hi) h1 with ⟨w', hw', rfl, rfl⟩ | ⟨t, rfl, ht⟩
    · exact ⟨w, 0x5b :: (w' ++ [0x5d]), hw, by simp, .inr ⟨hne, .emptyArray hw'⟩⟩
    · exact ⟨w, 0x5b :: (t ++ [0x5d]), hw, by simp, .inr ⟨hne, .array ht⟩⟩
  split at e
  · subst b
    rw [Option.bind_eq_some_iff] at e
    obtain ⟨item, hi, e⟩ := e
    rw [Option.map_eq_some_iff] at e
    obtain ⟨⟨l, r2⟩, h1, h2⟩ := e
    cases h2
    have hne : inner ≠ none := by rw [hi]; simp
    rcases readContainer_sound (reads_entry (hin item hi)) h1 with ⟨w', hw', rfl, rfl⟩ | ⟨t, rfl, ht⟩
    · exact ⟨w, 0x7b :: (w' ++ [0x7d]), hw, by simp, .inr ⟨hne, .emptyObject hw'⟩⟩
    · exact ⟨w, 0x7b :: (t ++ [0x7d]), hw, by simp, .inr ⟨hne, .object ht⟩⟩
  obtain ⟨t, e2, ht⟩ := readNumber_sound e
  exact ⟨w, t, hw, by rw [e2], .inl ht⟩

theorem readStep_container {item : Bytes → Option (Cbor × Bytes)} {P : Bytes → Cbor → Prop} (h : Reads item P) {w t r : Bytes} {c : Cbor} (hw : White w) (hc : Container P t c) :
    readStep (some item) (w ++ (t ++ r)) = some (c, r) := by
  unfold readStep
  rw [skipWs_white hw]
  cases hc with
  | @emptyArray w' hw' =>
    rw [List.cons_append, skipWs_cons rfl, List.append_assoc, List.singleton_append]
    simp only [show ((0x5b : UInt8) = 0x6e) = False by decide, show ((0x5b : UInt8) = 0x74) = False by decide, show ((0x5b : UInt8) = 0x66) = False by decide,
      show ((0x5b : UInt8) = 0x22) = False by decide, if_false, if_true, Option.bind_some]
    rw [readContainer_empty (.inl rfl) hw']
    rfl
  | @array t l ht =>
    rw [List.cons_append, skipWs_cons rfl, List.append_assoc, List.singleton_append]
    simp only [show ((0x5b : UInt8) = 0x6e) = False by decide, show ((0x5b : UInt8) = 0x74) = False by decide, show ((0x5b : UInt8) = 0x66) = False by decide,
      show ((0x5b : UInt8) = 0x22) = False by decide, if_false, if_true, Option.bind_some]
    rw [readContainer_complete h (.inl rfl) ht]
    rfl
  | @emptyObject w' hw' =>
    rw [List.cons_append, skipWs_cons rfl, List.append_assoc, List.singleton_append]
    simp only [show ((0x7b : UInt8) = 0x6e) = False by decide, show ((0x7b : UInt8) = 0x74) = False by decide, show ((0x7b : UInt8) = 0x66) = False by decide,
      show ((0x7b : UInt8) = 0x22) = False by decide, show ((0x7b : UInt8) = 0x5b) = False by decide, if_false, if_true, Option.bind_some]
    rw [readContainer_empty (.inr rfl) hw']
    rfl
  | @object t l ht =>
    rw [List.cons_append, skipWs_cons rfl, List.append_assoc, List.singleton_append]
    simp only [show ((0x7b : UInt8) = 0x6e) = False by decide, show ((0x7b : UInt8) = 0x74) = False by decide, show ((0x7b : UInt8) = 0x66) = False by decide,
      show ((0x7b : UInt8) = 0x22) = False by decide, show ((0x7b : UInt8) = 0x5b) = False by decide, if_false, if_true, Option.bind_some]
    rw [readContainer_complete (reads_entry h) (.inr rfl) ht]
    rfl

theorem Container.head {P : Bytes → Cbor → Prop} {t : Bytes} {c : Cbor} (h : Container P t c) : ∃ b bs, t = b :: bs ∧ isWs b = false ∧ b ≠ 0x5d ∧ b ≠ 0x7d := by
  cases h <;> exact ⟨_, _, rfl, rfl, by decide, by decide⟩

theorem reads_value (d : Nat) : Reads (readValue d) (JsonText d) := by
  induction d with
  | zero =>
    refine ⟨?_, ?_, ?_⟩
    · intro bs a r e
      obtain ⟨w, t, hw, e', h⟩ := readStep_sound (inner := none) (P := SimpleValue) (by intro item h; cases h) e
      rcases h with h | ⟨h, _⟩
      · exact ⟨w, t, hw, e', h⟩
      · exact absurd rfl h
    · intro w t a r hw ht hr
      exact readStep_scalar none hw ht hr
    · intro t a ht
      exact SimpleValue.head ht
  | succ d ih =>
    refine ⟨?_, ?_, ?_⟩
    · intro bs a r e
      obtain ⟨w, t, hw, e', h⟩ := readStep_sound (inner := some (readValue d)) (by intro item h; cases h; exact ih) e
      exact ⟨w, t, hw, e', h.imp id And.right⟩
    · rintro w t a r hw (ht | ht) hr
      · exact readStep_scalar _ hw ht hr
      · exact readStep_container ih hw ht
    · rintro t a (ht | ht)
      · exact SimpleValue.head ht
      · exact Container.head ht

theorem parse_iff (bs : Bytes) (c : Cbor) : parse bs = some c ↔ JsonDocument bs c := by
  unfold parse
  rw [Option.bind_eq_some_iff]
  constructor
  · rintro ⟨⟨c', r⟩, h1, h2⟩
    simp only at h2
    split at h2
    · rename_i hr
      cases h2
      obtain ⟨w, t, hw, e, ht⟩ := (reads_value 127).sound h1
      obtain ⟨w', hw', e'⟩ := skipWs_split r
      rw [List.isEmpty_iff.1 hr, List.append_nil] at e'
      exact ⟨w, t, r, hw, by rw [e']; exact hw', ht, by rw [e, List.append_assoc]⟩
    · cases h2
  · rintro ⟨w, t, w', hw, hw', ht, rfl⟩
    refine ⟨(c, w'), ?_, ?_⟩
    · rw [List.append_assoc]
      exact (reads_value 127).complete hw ht (by simpa using Sep.white hw' Sep.nil)
    · have : skipWs w' = [] := by simpa [skipWs] using skipWs_white hw' []
      simp [this]

end Json
end CB
