import Verif.Lemmas.Bytes
import Verif.Lemmas.Res
import Verif.Spec.Text
/-!
# Lemmas about identifiers
-/

namespace CB
open Spec

theorem hexVal_fwd : ∀ c : Fin 256, ∀ n, hexVal (UInt8.ofNat c.val) = some n →
    n < 16 ∧ ((str "0123456789abcdef")[n]? = some (UInt8.ofNat c.val) ∨ (str "0123456789ABCDEF")[n]? = some (UInt8.ofNat c.val)) := by
  intro c n h
  have key : ∀ c : Fin 256, ((hexVal (UInt8.ofNat c.val)).all fun n =>
      decide (n < 16) && (((str "0123456789abcdef")[n]? == some (UInt8.ofNat c.val)) || ((str "0123456789ABCDEF")[n]? == some (UInt8.ofNat c.val)))) = true := by
    decide +kernel
  have := key c
  rw [h] at this
  simpa using this

theorem hexVal_bwd_lower : ∀ n : Fin 16, hexVal ((str "0123456789abcdef")[n.val]'(by simp [str])) = some n.val := by
  decide +kernel

theorem hexVal_bwd_upper : ∀ n : Fin 16, hexVal ((str "0123456789ABCDEF")[n.val]'(by simp [str])) = some n.val := by
  decide +kernel

theorem hexVal_iff (c : UInt8) (n : Nat) : hexVal c = some n ↔ HexDigitOf c n := by
  constructor
  · revert n
    refine forall_u8 (P := fun c => ∀ n, hexVal c = some n → HexDigitOf c n) (fun k n h => ?_) c
    obtain ⟨hn, h'⟩ := hexVal_fwd k n h
    refine ⟨hn, ?_⟩
    rcases h' with h' | h'
    · left; rw [List.getElem?_eq_some_iff] at h'; exact h'.2.symm
    · right; rw [List.getElem?_eq_some_iff] at h'; exact h'.2.symm
  · rintro ⟨hn, h | h⟩
    · rw [h]; exact hexVal_bwd_lower ⟨n, hn⟩
    · rw [h]; exact hexVal_bwd_upper ⟨n, hn⟩

theorem hexDecode_iff (s : Str) (b : Bytes) : hexDecode s = some b ↔ HexOf s b := by
  constructor
  · intro h
    induction s using hexDecode.induct generalizing b with
    | case1 => simp [hexDecode] at h; subst h; exact .nil
    | case2 => simp [hexDecode] at h
    | case3 c d cs hi lo bs h3 h2 h1 ih =>
      rw [hexDecode, h1, h2, h3] at h
      simp only [Option.some.injEq] at h
      subst h
      exact .cons ((hexVal_iff _ _).1 h1) ((hexVal_iff _ _).1 h2) (ih _ h3)
    | case4 c d cs hn ih =>
      rw [hexDecode] at h
      split at h
      · rename_i h1 h2 h3
        exact absurd h3 (hn _ _ _ h1 h2)
      · cases h
  · intro h
    induction h with
    | nil => rfl
    | cons h1 h2 _ ih => rw [hexDecode, (hexVal_iff _ _).2 h1, (hexVal_iff _ _).2 h2, ih]

namespace TxType

theorem ofU8?_toU8 (t : TxType) : ofU8? t.toU8 = some t := by cases t <;> rfl

theorem toU8_injective {s t : TxType} (h : s.toU8 = t.toU8) : s = t := by
  have := congrArg ofU8? h
  simpa [ofU8?_toU8] using this

theorem ofU8?_some_fin : ∀ n : Fin 256, (ofU8? (UInt8.ofNat n.val)).all (fun t => t.toU8 == UInt8.ofNat n.val) = true := by
  decide +kernel

theorem ofU8?_eq_some (b : UInt8) (t : TxType) : ofU8? b = some t ↔ b = t.toU8 := by
  constructor
  · intro h
    have := forall_u8 (P := fun b => (ofU8? b).all (fun t => t.toU8 == b) = true) ofU8?_some_fin b
    rw [h] at this
    simp only [Option.all_some, beq_iff_eq] at this
    exact this.symm
  · rintro rfl; exact ofU8?_toU8 t

theorem ofU8?_isNone_fin : ∀ n : Fin 256, (ofU8? (UInt8.ofNat n.val)).isNone = (!(1 ≤ n.val && n.val ≤ 10)) := by
  decide +kernel

theorem ofU8?_eq_none (b : UInt8) : ofU8? b = none ↔ ¬ (1 ≤ b.toNat ∧ b.toNat ≤ 10) := by
  have := ofU8?_isNone_fin ⟨b.toNat, b.toNat_lt⟩
  rw [← Option.isNone_iff_eq_none]
  simp at this
  rw [this]
  simp
  omega

end TxType

namespace Identifier

theorem toArray_length (i : Identifier) : i.toArray.length = 32 := by
  simp [toArray, i.electionId.property, i.uniqueInfo.property]

theorem toArray_injective {i j : Identifier} (h : i.toArray = j.toArray) : i = j := by
  obtain ⟨⟨e, he⟩, t, ⟨u, hu⟩⟩ := i
  obtain ⟨⟨e', he'⟩, t', ⟨u', hu'⟩⟩ := j
  simp only [toArray, List.append_assoc] at h
  obtain ⟨h1, h2⟩ := List.append_inj h (by rw [he, he'])
  simp only [List.cons_append, List.nil_append, List.cons.injEq] at h2
  have := TxType.toU8_injective h2.1
  simp [h1, this, h2.2]

theorem toString_length (i : Identifier) : i.toString.length = 64 := by
  simp [toString, hexEncode_length, toArray_length]

theorem toString_injective {i j : Identifier} (h : i.toString = j.toString) : i = j :=
  toArray_injective (hexEncode_injective h)

theorem toString_inj {i j : Identifier} : i.toString = j.toString ↔ i = j :=
  ⟨toString_injective, fun h => by rw [h]⟩

theorem take_toArray (i : Identifier) : i.toArray.take 15 = i.electionId.val := by
  rw [toArray, List.append_assoc, List.take_append_of_le_length (by rw [i.electionId.property]; omega), List.take_of_length_le (by rw [i.electionId.property]; omega)]

theorem drop_toArray (i : Identifier) : i.toArray.drop 15 = i.txType.toU8 :: i.uniqueInfo.val := by
  rw [toArray, List.append_assoc, List.drop_append, List.drop_of_length_le (by rw [i.electionId.property]; omega), i.electionId.property]
  simp

/-- What `from_str` does on text that spells an identifier's bytes. -/
theorem fromStr_of_decode {s : Str} {i : Identifier} (h : hexDecode s = some i.toArray) : fromStr s = .ok i := by
  have hl := toArray_length i
  unfold fromStr
  split
  · rename_i h0; rw [h0] at h; cases h
  · rename_i bytes hb
    rw [h, Option.some.injEq] at hb
    subst hb
    rw [dif_neg (by omega)]
    split
    · rename_i h0
      rw [drop_toArray] at h0; cases h0
    · rename_i b rest hbr
      rw [drop_toArray] at hbr
      obtain ⟨rfl, rfl⟩ := hbr
      rw [TxType.ofU8?_toU8]
      simp only [i.uniqueInfo.property, ↓reduceDIte, take_toArray]

theorem decode_of_fromStr {s : Str} {i : Identifier} (h : fromStr s = .ok i) : hexDecode s = some i.toArray := by
  unfold fromStr at h
  split at h
  · cases h
  · rename_i bytes hb
    split at h
    · cases h
    · rename_i hlen
      split at h
      · cases h
      · rename_i b rest hbr
        split at h
        · cases h
        · rename_i t ht
          split at h
          · rename_i hr
            cases h
            rw [hb, toArray]
            simp only [Option.some.injEq, List.append_assoc, List.cons_append, List.nil_append]
            rw [← (TxType.ofU8?_eq_some b t).1 ht, ← hbr, List.take_append_drop]
          · cases h

theorem fromStr_panic_iff {s : Str} : (∃ p, fromStr s = .panic p) ↔
    ∃ b, hexDecode s = some b ∧ (b.length = 16 ∨ (b.length = 32 ∧ ∃ c, b[15]? = some c ∧ TxType.ofU8? c = none)) := by
  cases hd : hexDecode s with
  | none =>
    constructor
    · rintro ⟨p, h⟩; simp [fromStr, hd] at h
    · rintro ⟨b, h, _⟩; cases h
  | some bytes =>
    have key : (∃ p, fromStr s = .panic p) ↔
        (bytes.length = 16 ∨ (bytes.length = 32 ∧ ∃ c, bytes[15]? = some c ∧ TxType.ofU8? c = none)) := by
      unfold fromStr
      rw [hd]
      simp only
      by_cases hlen : bytes.length ≠ 32 ∧ bytes.length ≠ 16
      · rw [dif_pos hlen]
        simp; omega
      · rw [dif_neg hlen]
        have h15 : 15 < bytes.length := by omega
        have hdr : bytes.drop 15 = bytes[15] :: bytes.drop 16 := by
          rw [List.drop_eq_getElem_cons h15]
        rw [hdr]
        simp only [List.getElem?_eq_getElem h15, Option.some.injEq, exists_eq_left']
        cases hT : TxType.ofU8? bytes[15] with
        | none => simp; omega
        | some t =>
          simp only [List.length_drop]
          by_cases hr : bytes.length - 16 = 16
          · rw [dif_pos hr]; simp; omega
          · rw [dif_neg hr]; simp; omega
    rw [key]
    simp

theorem cmp_u8 (a b : UInt8) : compare a b = cmpBytes [a] [b] := by
  simp only [cmpBytes, compare, compareOfLessAndEq]
  split
  · rfl
  · rename_i h
    split
    · rename_i h'; subst h'; rw [if_neg h]
    · rename_i h'
      rw [if_pos]
      by_cases hb : b < a
      · exact hb
      · exact absurd (u8_trichotomy a b h hb) h'

theorem cmp_eq_cmpBytes (i j : Identifier) : i.cmp j = cmpBytes i.toArray j.toArray := by
  unfold toArray cmp
  rw [cmpBytes_append _ _ _ _ (by simp [i.electionId.property, j.electionId.property]), cmpBytes_append _ _ _ _ (by simp [i.electionId.property, j.electionId.property]), ← cmp_u8]
  cases cmpBytes i.electionId.val j.electionId.val <;> simp [Ordering.then] <;> cases compare i.txType.toU8 j.txType.toU8 <;> simp

theorem cmp_eq_cmpText (i j : Identifier) : i.cmp j = cmpBytes i.toString j.toString := by
  rw [cmp_eq_cmpBytes, toString, toString, cmpBytes_hexEncode _ _ (by simp [toArray_length])]

theorem partialCmp_eq (i j : Identifier) : i.partialCmp j = some (i.cmp j) := by
  unfold partialCmp cmp
  split
  · split <;> simp_all
  · rfl

theorem cmp_eq_iff (i j : Identifier) : i.cmp j = .eq ↔ i = j := by
  rw [cmp_eq_cmpBytes, cmpBytes_eq_iff]
  exact ⟨toArray_injective, fun h => by rw [h]⟩

end Identifier
end CB
