import Verif.Spec.Cbor
import Verif.Lemmas.Res
/-!
# CBOR decoding inverts encoding
-/

namespace CB
open Spec

theorem ofBe_beBytes (k n acc : Nat) : ofBe (beBytes k n) acc = acc * 256 ^ k + n % 256 ^ k := by
  induction k generalizing acc with
  | zero => simp [beBytes, ofBe, Nat.mod_one]
  | succ k ih =>
    simp only [beBytes, ofBe, ih, UInt8.toNat_ofNat', Nat.reducePow]
    have : n % 256 ^ (k + 1) = n / 256 ^ k % 256 * 256 ^ k + n % 256 ^ k := by
      rw [Nat.pow_succ, Nat.mod_mul, Nat.mul_comm, Nat.add_comm]
    rw [this, Nat.pow_succ, Nat.add_mul, Nat.mul_assoc, Nat.mul_comm 256, Nat.add_assoc]

theorem length_beBytes (k n : Nat) : (beBytes k n).length = k := by
  induction k with
  | zero => rfl
  | succ k ih => simp [beBytes, ih]

theorem splitBytes_append (b r : Bytes) : splitBytes b.length (b ++ r) = some (b, r) := by
  simp [splitBytes]

theorem splitBytes_append' {k : Nat} {b : Bytes} (h : b.length = k) (r : Bytes) : splitBytes k (b ++ r) = some (b, r) := by
  subst h; exact splitBytes_append b r

theorem readHead_cborHead {m n : Nat} (hm : m < 8) (hn : n < 2 ^ 64) (r : Bytes) : readHead (cborHead m n ++ r) = some (m, n, r) := by
  unfold cborHead
  split
  · rename_i h
    have e : (UInt8.ofNat (m * 32 + n)).toNat = m * 32 + n := by
      rw [UInt8.toNat_ofNat']; exact Nat.mod_eq_of_lt (by omega)
    simp only [List.cons_append, List.nil_append, readHead, e]
    rw [if_pos (by omega)]
    simp only [Option.some.injEq, Prod.mk.injEq, and_true]
    omega
  · have aux : ∀ (i k : Nat), 24 ≤ i → i < 28 → n < 256 ^ k → (k = 1 ∧ i = 24 ∨ k = 2 ∧ i = 25 ∨ k = 4 ∧ i = 26 ∨ k = 8 ∧ i = 27) →
        readHead (UInt8.ofNat (m * 32 + i) :: beBytes k n ++ r) = some (m, n, r) := by
      intro i k h1 h2 hk hc
      have e : (UInt8.ofNat (m * 32 + i)).toNat = m * 32 + i := by
        rw [UInt8.toNat_ofNat']; exact Nat.mod_eq_of_lt (by omega)
      have e1 : (m * 32 + i) % 32 = i := by omega
      have e2 : (m * 32 + i) / 32 = m := by omega
      have hs := splitBytes_append' (length_beBytes k n) r
      have hb : ofBe (beBytes k n) 0 = n := by rw [ofBe_beBytes, Nat.zero_mul, Nat.zero_add, Nat.mod_eq_of_lt hk]
      simp only [List.cons_append, readHead, e, e1, e2]
      rw [if_neg (by omega)]
      rcases hc with ⟨rfl, rfl⟩ | ⟨rfl, rfl⟩ | ⟨rfl, rfl⟩ | ⟨rfl, rfl⟩ <;> simp [hs, hb]
    split
    · exact aux 24 1 (by omega) (by omega) (by omega) (by omega)
    split
    · exact aux 25 2 (by omega) (by omega) (by omega) (by omega)
    split
    · exact aux 26 4 (by omega) (by omega) (by omega) (by omega)
    · exact aux 27 8 (by omega) (by omega) (by omega) (by omega)

theorem decodeN_list {α : Type} {f : Bytes → Option (α × Bytes)} {enc : α → Bytes} (l : List α)
    (h : ∀ a ∈ l, ∀ r, f (enc a ++ r) = some (a, r)) (r : Bytes) :
    decodeN f l.length ((l.map enc).flatten ++ r) = some (l, r) := by
  induction l with
  | nil => simp [decodeN]
  | cons a as ih =>
    simp only [List.length_cons, List.map_cons, List.flatten_cons, List.append_assoc, decodeN]
    rw [h a List.mem_cons_self]
    simp [ih fun x hx => h x (List.mem_cons_of_mem _ hx)]

theorem encodeList_eq (l : List Cbor) : Cbor.encodeList l = (l.map Cbor.encode).flatten := by
  induction l with
  | nil => rw [Cbor.encodeList]; rfl
  | cons c cs ih => rw [Cbor.encodeList, ih]; rfl

theorem encodeMap_eq (l : List (Str × Cbor)) :
    Cbor.encodeMap l = (l.map fun e => (cborHead 3 e.1.length ++ e.1) ++ e.2.encode).flatten := by
  induction l with
  | nil => rw [Cbor.encodeMap]; rfl
  | cons c cs ih => obtain ⟨k, v⟩ := c; rw [Cbor.encodeMap, ih]; rfl

theorem decodeText_encode {s : Str} (h : IsText s) (r : Bytes) : decodeText (cborHead 3 s.length ++ s ++ r) = some (s, r) := by
  unfold decodeText
  rw [List.append_assoc, readHead_cborHead (by omega) h.2]
  simp [splitBytes_append, checkText, h.1]

theorem decodeEntry_encode {item : Bytes → Option (Cbor × Bytes)} {e : Str × Cbor} (hk : IsText e.1) (h : ∀ r, item (e.2.encode ++ r) = some (e.2, r)) (r : Bytes) :
    decodeEntry item ((cborHead 3 e.1.length ++ e.1) ++ e.2.encode ++ r) = some (e, r) := by
  unfold decodeEntry
  rw [List.append_assoc, decodeText_encode hk]
  simp [h]

theorem narrowFloat_some {eb mb x y : Nat} (h : narrowFloat eb mb x = some y) : y < 2 ^ (eb + mb + 1) ∧ widenFloat eb mb y = x := by
  unfold narrowFloat at h
  split at h
  · rename_i hc
    cases h
    exact hc
  · cases h

theorem readHead_short (b : UInt8) (k n : Nat) (r : Bytes) (hn : n < 256 ^ k) (hk : k = 2 ∧ b = 0xf9 ∨ k = 4 ∧ b = 0xfa ∨ k = 8 ∧ b = 0xfb) :
    readHead (b :: (beBytes k n ++ r)) = some (7, n, r) := by
  have hs := splitBytes_append' (length_beBytes k n) r
  have hb : ofBe (beBytes k n) 0 = n := by rw [ofBe_beBytes, Nat.zero_mul, Nat.zero_add, Nat.mod_eq_of_lt hn]
  rcases hk with ⟨rfl, rfl⟩ | ⟨rfl, rfl⟩ | ⟨rfl, rfl⟩ <;> simp [readHead, hs, hb]

/-- A finite float is read as written. -/
theorem decodeStep_float {inner : Option (Bytes → Option (Cbor × Bytes))} {n : UInt64} (hn : finiteFloat n = true) (r : Bytes) :
    decodeStep inner (encodeFloat n ++ r) = some (.float n, r) := by
  unfold encodeFloat
  rw [if_pos hn]
  split
  · rename_i h hh
    obtain ⟨h1, h2⟩ := narrowFloat_some hh
    unfold decodeStep
    rw [List.cons_append, readHead_short _ 2 h r (by simpa using h1) (by simp)]
    simp [h2]
  · split
    · rename_i h hh
      obtain ⟨h1, h2⟩ := narrowFloat_some hh
      unfold decodeStep
      rw [List.cons_append, readHead_short _ 4 h r (by simpa using h1) (by simp)]
      simp [h2]
    · unfold decodeStep
      rw [List.cons_append, readHead_short _ 8 n.toNat r (by simpa using n.toNat_lt) (by simp)]
      simp

theorem decodeItem_eq (d : Nat) (bs : Bytes) : ∃ inner, decodeItem d bs = decodeStep inner bs := by
  cases d
  · exact ⟨_, rfl⟩
  · exact ⟨_, rfl⟩

/-- Decoding inverts encoding, whatever follows. -/
theorem decodeItem_encode {d : Nat} {c : Cbor} (h : Fits d c) : ∀ r, decodeItem d (c.encode ++ r) = some (c, r) := by
  induction h with
  | @uint d n =>
    intro r
    obtain ⟨inner, e⟩ := decodeItem_eq d (Cbor.encode (.uint n) ++ r)
    rw [e]; unfold decodeStep; rw [Cbor.encode, readHead_cborHead (by omega) n.toNat_lt]
    simp
  | @nint d n h =>
    intro r
    obtain ⟨inner, e⟩ := decodeItem_eq d (Cbor.encode (.nint n) ++ r)
    rw [e]; unfold decodeStep; rw [Cbor.encode, readHead_cborHead (by omega) n.toNat_lt]
    simp [h]
  | @bool d b =>
    intro r
    obtain ⟨inner, e⟩ := decodeItem_eq d (Cbor.encode (.bool b) ++ r)
    rw [e]; unfold decodeStep; cases b <;> simp [Cbor.encode, readHead]
  | @null d =>
    intro r
    obtain ⟨inner, e⟩ := decodeItem_eq d (Cbor.encode .null ++ r)
    rw [e]; unfold decodeStep; simp [Cbor.encode, readHead]
  | @float d n h =>
    intro r
    obtain ⟨inner, e⟩ := decodeItem_eq d (Cbor.encode (.float n) ++ r)
    rw [e, Cbor.encode, decodeStep_float h]
  | @bytes d b h =>
    intro r
    obtain ⟨inner, e⟩ := decodeItem_eq d (Cbor.encode (.bytes b) ++ r)
    rw [e]; unfold decodeStep; rw [Cbor.encode, List.append_assoc, readHead_cborHead (by omega) h]
    simp [splitBytes_append]
  | @text d s h =>
    intro r
    obtain ⟨inner, e⟩ := decodeItem_eq d (Cbor.encode (.text s) ++ r)
    rw [e]; unfold decodeStep; rw [Cbor.encode, List.append_assoc, readHead_cborHead (by omega) h.2]
    simp [splitBytes_append, checkText, h.1]
  | @array d l h _ ih =>
    intro r
    rw [decodeItem]; unfold decodeStep; rw [Cbor.encode, List.append_assoc, readHead_cborHead (by omega) h, encodeList_eq]
    simp [decodeN_list l ih]
  | @map d l h hk _ ih =>
    intro r
    rw [decodeItem]; unfold decodeStep; rw [Cbor.encode, List.append_assoc, readHead_cborHead (by omega) h, encodeMap_eq]
    have := decodeN_list (f := decodeEntry (decodeItem d)) (enc := fun e : Str × Cbor => (cborHead 3 e.1.length ++ e.1) ++ e.2.encode) l
      (fun e he r => decodeEntry_encode (hk e he) (ih e he) r) r
    show Option.map _ (decodeN _ _ _) = _
    rw [this]
    rfl

theorem Cbor.decode_encode {c : Cbor} (h : Fits 127 c) : Cbor.decode c.encode = some c := by
  have := decodeItem_encode h []
  rw [List.append_nil] at this
  simp [Cbor.decode, this]

/-- Encoding is injective on values of Rust data. -/
theorem Cbor.encode_inj {c c' : Cbor} {d : Nat} (h : Fits d c) (h' : Fits d c') (e : c.encode = c'.encode) : c = c' := by
  have h1 := decodeItem_encode h []
  have h2 := decodeItem_encode h' []
  rw [e, h2] at h1
  simpa using h1.symm

theorem Spec.Fits.mono {d d' : Nat} {c : Cbor} (h : Fits d c) (hd : d ≤ d') : Fits d' c := by
  induction h generalizing d' with
  | uint => exact .uint
  | nint h => exact .nint h
  | bool => exact .bool
  | null => exact .null
  | float h => exact .float h
  | bytes h => exact .bytes h
  | text h => exact .text h
  | array h _ ih =>
    obtain ⟨k, rfl⟩ : ∃ k, d' = k + 1 := ⟨d' - 1, by omega⟩
    exact .array h fun c hc => ih c hc (by omega)
  | map h hk _ ih =>
    obtain ⟨k, rfl⟩ : ∃ k, d' = k + 1 := ⟨d' - 1, by omega⟩
    exact .map h hk fun c hc => ih c hc (by omega)

end CB
