import Verif.Lemmas.Identifier
/-!
# C01–C03: identifiers
-/

namespace CB
open Spec

theorem cmpBytes_lt_iff_lex (a b : Bytes) : cmpBytes a b = .lt ↔ BytesLt a b := by
  unfold BytesLt
  induction a generalizing b with
  | nil =>
    cases b with
    | nil => simp [cmpBytes]
    | cons y ys => simp [cmpBytes]
  | cons x xs ih =>
    cases b with
    | nil => simp [cmpBytes]
    | cons y ys =>
      rw [List.cons_lex_cons_iff, ← ih, cmpBytes]
      by_cases h1 : x < y
      · simp [h1]
      · by_cases h2 : y < x
        · have : ¬ x = y := by rintro rfl; exact h1 h2
          simp [h1, h2, this]
        · have := u8_trichotomy x y h1 h2
          subst this
          simp

theorem isArrayOf_toArray (i : Identifier) : IsArrayOf i.toArray i := by
  obtain ⟨⟨e, he⟩, t, ⟨u, hu⟩⟩ := i
  refine ⟨Identifier.toArray_length _, fun k h => ?_, ?_, fun k h => ?_⟩
  · simp only [Identifier.toArray, List.append_assoc]
    rw [List.getElem?_append_left (by omega), List.getElem?_eq_getElem]
  · simp only [Identifier.toArray, List.append_assoc]
    rw [List.getElem?_append_right (by omega), he]
    simp
  · simp only [Identifier.toArray, List.append_assoc]
    rw [List.getElem?_append_right (by omega), he, show 16 + k - 15 = k + 1 by omega]
    simp only [List.cons_append, List.nil_append, List.getElem?_cons_succ]
    rw [List.getElem?_eq_getElem]

theorem hexDigit_mem : ∀ n : Fin 16, hexDigit n.val ∈ str "0123456789abcdef" := by decide +kernel

theorem hexEncode_lowerHexChar (b : Bytes) : ∀ c ∈ hexEncode b, LowerHexChar c := by
  induction b with
  | nil => simp [hexEncode]
  | cons x xs ih =>
    intro c hc
    have hx := x.toNat_lt
    simp only [hexEncode, List.mem_cons] at hc
    rcases hc with rfl | rfl | hc
    · exact hexDigit_mem ⟨x.toNat / 16, by omega⟩
    · exact hexDigit_mem ⟨x.toNat % 16, by omega⟩
    · exact ih c hc

/-- **C01** Printing any identifier gives 64 lowercase hexadecimal characters spelling its 32 bytes; parsing the text gives the
identifier back; different identifiers print differently. -/
theorem C01_identifier_text_roundtrip (i : Identifier) :
    Identifier.fromStr i.toString = .ok i ∧
    i.toString.length = 64 ∧ (∀ c ∈ i.toString, LowerHexChar c) ∧
    (∃ b, IsArrayOf b i ∧ HexOf i.toString b) ∧
    (∀ j : Identifier, i.toString = j.toString → i = j) :=
  ⟨Identifier.fromStr_of_decode (hexDecode_hexEncode _), Identifier.toString_length i, hexEncode_lowerHexChar _,
    ⟨i.toArray, isArrayOf_toArray i, (hexDecode_iff _ _).1 (hexDecode_hexEncode _)⟩, fun _ => Identifier.toString_injective⟩

/-- The text of an identifier is made of the texts of its parts: the election's, the type's, the unique information's.  So the transactions of an election are those whose text
begins with the election's text, and those of one type those whose text goes on with the type's. -/
theorem C01_identifier_text_parts (i j : Identifier) :
    (∃ u, i.toString = i.electionIdString ++ i.txType.hexString ++ u ∧ HexOf u i.uniqueInfo.val) ∧
    i.electionIdString.length = 30 ∧ i.txType.hexString.length = 2 ∧
    (i.electionIdString <+: j.toString ↔ i.electionId = j.electionId) ∧
    (i.electionIdString ++ i.txType.hexString <+: j.toString ↔ i.electionId = j.electionId ∧ i.txType = j.txType) := by
  have hp : ∀ i : Identifier, i.toString = i.electionIdString ++ i.txType.hexString ++ hexEncode i.uniqueInfo.val := by
    intro i
    have : hexEncode [i.txType.toU8] = i.txType.hexString := by
      generalize i.txType = t
      cases t <;> decide +kernel
    unfold Identifier.toString Identifier.toArray Identifier.electionIdString
    rw [hexEncode_append, hexEncode_append, this]
  have hl : ∀ i : Identifier, i.electionIdString.length = 30 := fun i => by
    unfold Identifier.electionIdString
    rw [hexEncode_length, i.electionId.property]
  have ht : ∀ i : Identifier, i.txType.hexString.length = 2 := fun i => by
    generalize i.txType = t
    cases t <;> decide +kernel
  have hinj : ∀ t t' : TxType, t.hexString = t'.hexString → t = t' := by
    intro t t' h
    cases t <;> cases t' <;> first | rfl | (exact absurd h (by decide +kernel))
  have hei : i.electionIdString = j.electionIdString → i.electionId = j.electionId := fun h => Subtype.ext (hexEncode_injective h)
  refine ⟨⟨_, hp i, (hexDecode_iff _ _).1 (hexDecode_hexEncode _)⟩, hl i, ht i, ?_, ?_⟩
  · constructor
    · rintro ⟨u, h⟩
      rw [hp j, List.append_assoc] at h
      exact hei (List.append_inj h (by rw [hl, hl])).1
    · intro h
      refine ⟨j.txType.hexString ++ hexEncode j.uniqueInfo.val, ?_⟩
      rw [hp j, List.append_assoc, Identifier.electionIdString, h]; rfl
  · constructor
    · rintro ⟨u, h⟩
      rw [hp j] at h
      obtain ⟨h1, _⟩ := List.append_inj h (by simp only [List.length_append, hl, ht])
      obtain ⟨h1, h2⟩ := List.append_inj h1 (by rw [hl, hl])
      exact ⟨hei h1, hinj _ _ h2⟩
    · rintro ⟨h1, h2⟩
      refine ⟨hexEncode j.uniqueInfo.val, ?_⟩
      rw [hp j, Identifier.electionIdString, h1, h2]; rfl

/-- A concrete identifier (vote of election 01..01) and its text. -/
example : (Identifier.toString ⟨BArr.fill 15 1, .vote, BArr.fill 16 0xab⟩) =
    str "01010101010101010101010101010106abababababababababababababababab" := by decide +kernel

theorem isArrayOf_unique {b : Bytes} {i : Identifier} (h : IsArrayOf b i) : b = i.toArray := by
  obtain ⟨hl, h1, h2, h3⟩ := h
  obtain ⟨_, g1, g2, g3⟩ := isArrayOf_toArray i
  apply List.ext_getElem?
  intro k
  by_cases hk : k < 15
  · rw [h1 k hk, g1 k hk]
  · by_cases hk' : k = 15
    · subst hk'; rw [h2, g2]
    · by_cases hk'' : k < 32
      · have e : k = 16 + (k - 16) := by omega
        rw [e, h3 (k - 16) (by omega), g3 (k - 16) (by omega)]
      · rw [List.getElem?_eq_none (by omega), List.getElem?_eq_none (by rw [Identifier.toArray_length]; omega)]

/-- **C02 (partial)** Exact behaviour of parsing on every text: it succeeds with `i` exactly when the text spells `i`'s 32 bytes in hexadecimal of
either case; it *crashes* exactly when the text spells 16 bytes, or 32 bytes whose 16th is not 1..10; otherwise it returns an error.
What is missing for the full C02 is that the crashing texts should be errors, see `C02_parse_never_crashes_false`. -/
theorem C02_parse_partial (s : Str) :
    (∀ i, Identifier.fromStr s = .ok i ↔ ∃ b, IsArrayOf b i ∧ HexOf s b) ∧
    ((∃ p, Identifier.fromStr s = .panic p) ↔
      ∃ b, HexOf s b ∧ (b.length = 16 ∨ (b.length = 32 ∧ ∃ c, b[15]? = some c ∧ ¬ (1 ≤ c.toNat ∧ c.toNat ≤ 10)))) ∧
    ((∃ e, Identifier.fromStr s = .err e) ↔ ¬ ∃ b, HexOf s b ∧ (b.length = 16 ∨ b.length = 32)) := by
  have hpan : ((∃ p, Identifier.fromStr s = .panic p) ↔
      ∃ b, HexOf s b ∧ (b.length = 16 ∨ (b.length = 32 ∧ ∃ c, b[15]? = some c ∧ ¬ (1 ≤ c.toNat ∧ c.toNat ≤ 10)))) := by
    rw [Identifier.fromStr_panic_iff]
    simp only [hexDecode_iff, TxType.ofU8?_eq_none]
  refine ⟨fun i => ?_, hpan, ?_⟩
  · constructor
    · intro h
      exact ⟨_, isArrayOf_toArray i, (hexDecode_iff _ _).1 (Identifier.decode_of_fromStr h)⟩
    · rintro ⟨b, hb, h⟩
      rw [isArrayOf_unique hb, ← hexDecode_iff] at h
      exact Identifier.fromStr_of_decode h
  · constructor
    · rintro ⟨e, he⟩ ⟨b, hb, hl⟩
      rw [← hexDecode_iff] at hb
      unfold Identifier.fromStr at he
      rw [hb] at he
      simp only at he
      rw [dif_neg (by omega)] at he
      split at he
      · cases he
      · split at he
        · cases he
        · split at he <;> cases he
    · intro h
      cases hr : Identifier.fromStr s with
      | ok i =>
        exact absurd ⟨_, (hexDecode_iff _ _).1 (Identifier.decode_of_fromStr hr), .inr (Identifier.toArray_length i)⟩ h
      | err e => exact ⟨e, rfl⟩
      | panic p =>
        obtain ⟨b, hb, hl⟩ := hpan.1 ⟨p, hr⟩
        exact absurd ⟨b, hb, by omega⟩ h

/-- **C02 is false of the code**: parsing crashes on 32 hexadecimal zeros (16 bytes), and on 64 zeros (type byte 0). -/
theorem C02_parse_never_crashes_false :
    ¬ ∀ s : Str, ∀ p, Identifier.fromStr s ≠ .panic p := by
  intro h
  exact h (List.replicate 64 48) .unwrapFailed (by decide +kernel)

example : Identifier.fromStr (List.replicate 32 48) = .panic .unwrapFailed := by decide +kernel
/-- upper-case text is accepted too -/
example : ∃ i, Identifier.fromStr (str "ABababababababababababababababab06" |>.drop 2 |>.append (List.replicate 32 48)) = .ok i :=
  ⟨⟨BArr.fill 15 0xab, .vote, BArr.fill 16 0⟩, by decide +kernel⟩
example : Identifier.fromStr (str "zz") = .err .identifierBadHex := by decide +kernel

/-- **C03** `cmp` is a total order on identifiers which `partial_cmp` agrees with, equal to the lexicographic order of the 32 bytes and
to the byte order of the printed text. -/
theorem C03_identifier_order (i j k : Identifier) :
    (∃ a b, IsArrayOf a i ∧ IsArrayOf b j ∧ (i.cmp j = .lt ↔ BytesLt a b) ∧ (i.cmp j = .gt ↔ BytesLt b a)) ∧
    (i.cmp j = .lt ↔ BytesLt i.toString j.toString) ∧
    (i.cmp j = .gt ↔ j.cmp i = .lt) ∧
    (i.cmp j = .eq ↔ i = j) ∧
    (i.cmp j = .lt → j.cmp k = .lt → i.cmp k = .lt) ∧
    i.partialCmp j = some (i.cmp j) := by
  refine ⟨⟨i.toArray, j.toArray, isArrayOf_toArray i, isArrayOf_toArray j, ?_, ?_⟩, ?_, ?_, Identifier.cmp_eq_iff i j, ?_,
    Identifier.partialCmp_eq i j⟩
  · rw [Identifier.cmp_eq_cmpBytes, cmpBytes_lt_iff_lex]
  · rw [Identifier.cmp_eq_cmpBytes, cmpBytes_gt_iff, cmpBytes_lt_iff_lex]
  · rw [Identifier.cmp_eq_cmpText, cmpBytes_lt_iff_lex]
  · rw [Identifier.cmp_eq_cmpBytes, Identifier.cmp_eq_cmpBytes, cmpBytes_gt_iff]
  · simp only [Identifier.cmp_eq_cmpBytes]
    exact cmpBytes_lt_trans

example : Identifier.cmp ⟨BArr.fill 15 1, .vote, BArr.fill 16 255⟩ ⟨BArr.fill 15 1, .votingEnd, BArr.fill 16 0⟩ = .lt := by
  decide +kernel

end CB
