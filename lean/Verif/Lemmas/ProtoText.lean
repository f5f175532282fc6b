import Verif.Lemmas.Proto
import Verif.Lemmas.Utf8
import Verif.Spec.Selection
/-!
# The decoder of selections accepts exactly the described bytes
-/

namespace CB
open Spec

theorem varintDec_sound (f : Nat) : ∀ {bs r : Bytes} {n : Nat}, varintDec f bs = some (n, r) → ∃ t, bs = t ++ r ∧ t.length ≤ f ∧ Base128 t n := by
  induction f with
  | zero => intro bs r n h; cases h
  | succ f ih =>
    intro bs r n h
    rcases bs with _ | ⟨b, bs⟩
    · cases h
    rw [varintDec] at h
    split at h
    · rename_i hb
      cases h
      exact ⟨[b], rfl, by simp, .last (by simpa using UInt8.lt_iff_toNat_lt.1 hb)⟩
    · rename_i hb
      split at h
      · rename_i v r' hv
        cases h
        obtain ⟨t, rfl, hl, ht⟩ := ih hv
        exact ⟨b :: t, rfl, by simpa using hl, .more (by simpa using UInt8.not_lt.1 hb |> UInt8.le_iff_toNat_le.1) ht⟩
      · cases h

theorem varintDec_complete {t : Bytes} {n : Nat} (h : Base128 t n) (r : Bytes) : ∀ f, t.length ≤ f → varintDec f (t ++ r) = some (n, r) := by
  induction h with
  | @last b hb =>
    intro f hf
    obtain ⟨f, rfl⟩ : ∃ k, f = k + 1 := ⟨f - 1, by simp at hf; omega⟩
    rw [List.singleton_append, varintDec, if_pos (UInt8.lt_iff_toNat_lt.2 hb)]
  | @more b t n hb _ ih =>
    intro f hf
    obtain ⟨f, rfl⟩ : ∃ k, f = k + 1 := ⟨f - 1, by simp at hf; omega⟩
    rw [List.cons_append, varintDec, if_neg (fun h => absurd (UInt8.lt_iff_toNat_lt.1 h) (by simpa using hb)), ih f (by simpa using hf)]

theorem decodeVarint_sound {bs r : Bytes} {n : Nat} (h : decodeVarint bs = some (n, r)) : ∃ t, bs = t ++ r ∧ Varint t n ∧ t ≠ [] := by
  unfold decodeVarint at h
  rw [Option.map_eq_some_iff] at h
  obtain ⟨⟨m, r'⟩, h1, h2⟩ := h
  cases h2
  obtain ⟨t, e, hl, ht⟩ := varintDec_sound 10 h1
  exact ⟨t, e, ⟨hl, m, ht, rfl⟩, by cases ht <;> simp⟩

theorem decodeVarint_complete {t : Bytes} {n : Nat} (h : Varint t n) (r : Bytes) : decodeVarint (t ++ r) = some (n, r) := by
  obtain ⟨hl, m, hm, rfl⟩ := h
  unfold decodeVarint
  rw [varintDec_complete hm r 10 hl]
  rfl

theorem Varint.lt {t : Bytes} {n : Nat} (h : Varint t n) : n < 2 ^ 64 := by
  obtain ⟨_, m, _, rfl⟩ := h
  exact Nat.mod_lt _ (by decide)

theorem Varint.ne_nil {t : Bytes} {n : Nat} (h : Varint t n) : t ≠ [] := by
  obtain ⟨_, m, hm, _⟩ := h
  cases hm <;> simp

namespace Selection

theorem takeBytes_sound {n : Nat} {bs b r : Bytes} (h : takeBytes n bs = some (b, r)) : bs = b ++ r ∧ b.length = n := by
  unfold takeBytes at h
  split at h
  · cases h
  · rename_i hl
    cases h
    exact ⟨(List.take_append_drop n bs).symm, by rw [List.length_take]; omega⟩

theorem decodeKey_sound {bs r : Bytes} {f w : Nat} (h : decodeKey bs = some ((f, w), r)) : ∃ t, bs = t ++ r ∧ FieldKey t f w ∧ t ≠ [] := by
  unfold decodeKey at h
  split at h
  · cases h
  · rename_i key r' hk
    split at h
    · cases h
    · rename_i hc
      cases h
      obtain ⟨t, e, ht, hn⟩ := decodeVarint_sound hk
      refine ⟨t, e, ⟨?_, by omega, by omega, by omega⟩, hn⟩
      rwa [Nat.div_add_mod]

theorem decodeKey_complete {t : Bytes} {f w : Nat} (h : FieldKey t f w) (r : Bytes) : decodeKey (t ++ r) = some ((f, w), r) := by
  obtain ⟨h1, h2, h3, h4⟩ := h
  unfold decodeKey
  rw [decodeVarint_complete h1]
  simp only
  rw [if_neg (by omega), show (8 * f + w) / 8 = f by omega, show (8 * f + w) % 8 = w by omega]

theorem FieldKey.ne_nil {t : Bytes} {f w : Nat} (h : FieldKey t f w) : t ≠ [] := Varint.ne_nil h.1

/-- The skipper skips exactly what `P` describes. -/
structure Skips (skip : Nat → Nat → Bytes → Option Bytes) (P : Nat → Nat → Bytes → Prop) : Prop where
  sound : ∀ {wire tag bs r}, skip wire tag bs = some r → ∃ t, bs = t ++ r ∧ P wire tag t
  complete : ∀ {wire tag t r}, P wire tag t → skip wire tag (t ++ r) = some r
  noEnd : ∀ {tag t}, ¬ P 4 tag t

theorem skipGroup_sound {skip : Nat → Nat → Bytes → Option Bytes} {P : Nat → Nat → Bytes → Prop} (h : Skips skip P) {tag : Nat} (f : Nat) :
    ∀ {bs r : Bytes}, skipGroup skip tag f bs = some r → ∃ t e, bs = t ++ e ++ r ∧ Fields P t ∧ FieldKey e tag 4 := by
  induction f with
  | zero => intro bs r e; cases e
  | succ f ih =>
    intro bs r e
    rw [skipGroup] at e
    split at e
    · cases e
    · rename_i t wire r1 hk
      obtain ⟨k, rfl, hkey, -⟩ := decodeKey_sound hk
      split at e
      · rename_i hw
        subst hw
        split at e
        · rename_i ht
          subst ht
          cases e
          exact ⟨[], k, by simp, .nil, hkey⟩
        · cases e
      · split at e
        · rename_i r' hs
          obtain ⟨u, rfl, hu⟩ := h.sound hs
          obtain ⟨t', e', rfl, ht', he'⟩ := ih e
          exact ⟨k ++ (u ++ t'), e', by simp, .cons hkey hu ht', he'⟩
        · cases e

theorem skipGroup_complete {skip : Nat → Nat → Bytes → Option Bytes} {P : Nat → Nat → Bytes → Prop} (h : Skips skip P) {tag : Nat} {t e : Bytes} (ht : Fields P t)
    (he : FieldKey e tag 4) (r : Bytes) : ∀ f, t.length < f → skipGroup skip tag f (t ++ (e ++ r)) = some r := by
  induction ht with
  | nil =>
    intro f hf
    obtain ⟨f, rfl⟩ : ∃ k, f = k + 1 := ⟨f - 1, by omega⟩
    rw [List.nil_append, skipGroup, decodeKey_complete he]
    simp
  | @cons k t u field wire hk hp hu ih =>
    intro f hf
    obtain ⟨f, rfl⟩ : ∃ k, f = k + 1 := ⟨f - 1, by omega⟩
    have hne : wire ≠ 4 := by rintro rfl; exact h.noEnd hp
    have hkn : 0 < k.length := List.length_pos_iff.2 (FieldKey.ne_nil hk)
    rw [List.append_assoc, skipGroup, decodeKey_complete hk]
    simp only
    rw [if_neg hne, List.append_assoc, h.complete hp]
    exact ih f (by simp at hf; omega)

theorem skips (d : Nat) : Skips (skipField d) (Ignored d) := by
  induction d with
  | zero =>
    refine ⟨?_, ?_, ?_⟩
    · intro wire tag bs r h; cases h
    · intro wire tag t r h; cases h
    · intro tag t h; cases h
  | succ d ih =>
    refine ⟨?_, ?_, ?_⟩
    · intro wire tag bs r h
      unfold skipField at h
      split at h
      · rw [Option.map_eq_some_iff] at h
        obtain ⟨⟨n, r'⟩, h1, rfl⟩ := h
        obtain ⟨t, e, ht, -⟩ := decodeVarint_sound h1
        exact ⟨t, e, .number ht⟩
      · rw [Option.map_eq_some_iff] at h
        obtain ⟨⟨b, r'⟩, h1, rfl⟩ := h
        obtain ⟨e, hl⟩ := takeBytes_sound h1
        exact ⟨b, e, .eight hl⟩
      · split at h
        · rename_i n r' hn
          rw [Option.map_eq_some_iff] at h
          obtain ⟨⟨b, r''⟩, h1, rfl⟩ := h
          obtain ⟨t, rfl, ht, -⟩ := decodeVarint_sound hn
          obtain ⟨rfl, rfl⟩ := takeBytes_sound h1
          exact ⟨t ++ b, by simp, .sized (.mk ht)⟩
        · cases h
      · obtain ⟨t, e, rfl, ht, he⟩ := skipGroup_sound ih _ h
        exact ⟨t ++ e, rfl, .group ht he⟩
      · rw [Option.map_eq_some_iff] at h
        obtain ⟨⟨b, r'⟩, h1, rfl⟩ := h
        obtain ⟨e, hl⟩ := takeBytes_sound h1
        exact ⟨b, e, .four hl⟩
      · cases h
    · intro wire tag t r h
      cases h with
      | number h => simp only [skipField, decodeVarint_complete h]; rfl
      | eight h => simp only [skipField]; rw [← h, takeBytes_append]; rfl
      | sized h =>
        cases h with
        | @mk l b h =>
          simp only [skipField]
          rw [List.append_assoc, decodeVarint_complete h]
          simp only
          rw [takeBytes_append]; rfl
      | @group _ t e ht he =>
        simp only [skipField]
        rw [List.append_assoc]
        exact skipGroup_complete ih ht he r _ (by simp; omega)
      | four h => simp only [skipField]; rw [← h, takeBytes_append]; rfl
    · intro tag t h
      cases h

theorem mergeField_sound {s s' : Selection} {tag wire : Nat} {bs r k : Bytes} (hk : FieldKey k tag wire) (h : mergeField s tag wire bs = some (s', r)) :
    ∃ t f, bs = t ++ r ∧ Sets (k ++ t) f ∧ s' = f s := by
  unfold mergeField at h
  split at h
  · split at h
    · rename_i hw
      subst hw
      rw [Option.map_eq_some_iff] at h
      obtain ⟨⟨n, r'⟩, h1, h2⟩ := h
      obtain ⟨t, rfl, ht, -⟩ := decodeVarint_sound h1
      cases h2
      exact ⟨t, _, rfl, .writeIn hk ht, by by_cases e : n = 0 <;> simp [e]⟩
    · cases h
  · split at h
    · rename_i hw
      subst hw
      rw [Option.map_eq_some_iff] at h
      obtain ⟨⟨n, r'⟩, h1, h2⟩ := h
      obtain ⟨t, rfl, ht, -⟩ := decodeVarint_sound h1
      cases h2
      exact ⟨t, _, rfl, .score hk ht, rfl⟩
    · cases h
  · split at h
    · rename_i hw
      subst hw
      split at h
      · rename_i n r' hn
        split at h
        · rename_i b r'' hb
          split at h
          · rename_i hu
            cases h
            obtain ⟨t, rfl, ht, -⟩ := decodeVarint_sound hn
            obtain ⟨rfl, rfl⟩ := takeBytes_sound hb
            exact ⟨t ++ b, _, by simp, .selection hk (.mk ht) ((validUtf8_iff _).1 hu), rfl⟩
          · cases h
        · cases h
      · cases h
    · cases h
  · rename_i h1 h2 h3
    rw [Option.map_eq_some_iff] at h
    obtain ⟨r', hs, h4⟩ := h
    cases h4
    obtain ⟨t, rfl, ht⟩ := (skips 100).sound hs
    have := hk.2.1
    have h1' : tag ≠ 1 := h1
    have h2' : tag ≠ 2 := h2
    have h3' : tag ≠ 3 := h3
    exact ⟨t, id, rfl, .unknown hk (by omega) ht, rfl⟩

theorem Sets.ne_nil {t : Bytes} {f : Selection → Selection} (h : Sets t f) : t ≠ [] := by
  cases h with
  | writeIn h => exact fun e => FieldKey.ne_nil h (List.append_eq_nil_iff.1 e).1
  | score h => exact fun e => FieldKey.ne_nil h (List.append_eq_nil_iff.1 e).1
  | selection h => exact fun e => FieldKey.ne_nil h (List.append_eq_nil_iff.1 e).1
  | unknown h => exact fun e => FieldKey.ne_nil h (List.append_eq_nil_iff.1 e).1

/-- One field. -/
theorem merge_field {t : Bytes} {g : Selection → Selection} (h : Sets t g) (s : Selection) (f : Nat) (r : Bytes) : merge (f + 1) s (t ++ r) = merge f (g s) r := by
  obtain ⟨b, m, e⟩ := List.exists_cons_of_ne_nil (Sets.ne_nil h)
  have unfold_merge : merge (f + 1) s (t ++ r) = match decodeKey (t ++ r) with
      | none => none
      | some ((tag, wire), r) =>
        match mergeField s tag wire r with
        | some (s', r') => merge f s' r'
        | none => none := by rw [e]; rfl
  rw [unfold_merge]
  clear unfold_merge e
  cases h with
  | @writeIn k t n hk ht =>
    rw [List.append_assoc, decodeKey_complete hk]
    simp only [mergeField, if_true]
    rw [decodeVarint_complete ht]
    have e : (n != 0) = decide (n ≠ 0) := by by_cases e : n = 0 <;> simp [e]
    simp only [Option.map, e]
  | @score k t n hk ht =>
    rw [List.append_assoc, decodeKey_complete hk]
    simp only [mergeField, if_true]
    rw [decodeVarint_complete ht]
    rfl
  | @selection k t b hk ht hu =>
    cases ht with
    | @mk l b hl =>
      rw [List.append_assoc, decodeKey_complete hk]
      simp only [mergeField, if_true]
      rw [List.append_assoc, decodeVarint_complete hl]
      simp only
      rw [takeBytes_append]
      simp [(validUtf8_iff b).2 hu]
  | @unknown k t field wire hk hf ht =>
    rw [List.append_assoc, decodeKey_complete hk]
    have hm : mergeField s field wire (t ++ r) = some (s, r) := by
      unfold mergeField
      split
      · omega
      · omega
      · omega
      · rw [(skips 100).complete ht]; rfl
    simp only [hm]
    rfl

theorem merge_sound (f : Nat) : ∀ {s s' : Selection} {bs : Bytes}, merge f s bs = some s' → Updates s bs s' := by
  induction f with
  | zero =>
    intro s s' bs h
    rcases bs with _ | ⟨b, bs⟩
    · cases h; exact .nil
    · cases h
  | succ f ih =>
    intro s s' bs h
    rcases bs with _ | ⟨b, bs⟩
    · cases h; exact .nil
    · rw [merge] at h
      split at h
      · cases h
      · rename_i tag wire r hk
        split at h
        · rename_i s1 r' hm
          obtain ⟨k, e, hkey, -⟩ := decodeKey_sound hk
          obtain ⟨t, g, rfl, hs, rfl⟩ := mergeField_sound hkey hm
          rw [e, ← List.append_assoc]
          exact .cons hs (ih h)
        · cases h

theorem merge_complete {s s' : Selection} {bs : Bytes} (h : Updates s bs s') : ∀ f, bs.length ≤ f → merge f s bs = some s' := by
  induction h with
  | nil => intro f _; exact merge_nil f _
  | @cons s s' t u g ht _ ih =>
    intro f hf
    have : 0 < t.length := List.length_pos_iff.2 (Sets.ne_nil ht)
    obtain ⟨f, rfl⟩ : ∃ k, f = k + 1 := ⟨f - 1, by simp at hf; omega⟩
    rw [merge_field ht]
    exact ih f (by simp at hf; omega)

theorem decode_iff (bs : Bytes) (s : Selection) : decode bs = some s ↔ Says bs s :=
  ⟨fun h => merge_sound _ h, fun h => merge_complete h _ (Nat.le_refl _)⟩

end Selection
end CB
