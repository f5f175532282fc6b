import Verif.Spec.Encoding
import Verif.Lemmas.SerdeFits
/-!
# The decoder reads exactly the encodings
-/

namespace CB
open Spec

theorem ofBe_eq (b : Bytes) (acc : Nat) : ofBe b acc = b.foldl (fun acc x => acc * 256 + x.toNat) acc := by
  induction b generalizing acc with
  | nil => rfl
  | cons x xs ih => rw [ofBe, ih]; rfl

theorem ofBe_zero (b : Bytes) : ofBe b 0 = bigEndian b := ofBe_eq b 0

theorem toNat_initial {m i : Nat} (hm : m < 8) (hi : i < 32) : (UInt8.ofNat (32 * m + i)).toNat = 32 * m + i := by
  rw [UInt8.toNat_ofNat']; exact Nat.mod_eq_of_lt (by omega)

theorem readHead_of_head {m n : Nat} {h : Bytes} (hm : m < 8) (hh : Head m n h) (r : Bytes) : readHead (h ++ r) = some (m, n, r) := by
  have key : ∀ i, i < 32 → ∀ t, readHead (UInt8.ofNat (32 * m + i) :: t) =
      if i < 24 then some (m, i, t) else
      if i = 24 then (splitBytes 1 t).map (fun (b, r) => (m, ofBe b 0, r)) else
      if i = 25 then (splitBytes 2 t).map (fun (b, r) => (m, ofBe b 0, r)) else
      if i = 26 then (splitBytes 4 t).map (fun (b, r) => (m, ofBe b 0, r)) else
      if i = 27 then (splitBytes 8 t).map (fun (b, r) => (m, ofBe b 0, r)) else none := by
    intro i hi t
    have h1 : (32 * m + i) / 32 = m := by omega
    have h2 : (32 * m + i) % 32 = i := by omega
    simp only [readHead, toNat_initial hm hi, h1, h2]
  cases hh with
  | short hn => rw [List.cons_append, key n (by omega), if_pos hn]; rfl
  | one hl hv => rw [List.cons_append, key 24 (by omega), splitBytes_append' hl r]; simp [ofBe_zero, hv]
  | two hl hv => rw [List.cons_append, key 25 (by omega), splitBytes_append' hl r]; simp [ofBe_zero, hv]
  | four hl hv => rw [List.cons_append, key 26 (by omega), splitBytes_append' hl r]; simp [ofBe_zero, hv]
  | eight hl hv => rw [List.cons_append, key 27 (by omega), splitBytes_append' hl r]; simp [ofBe_zero, hv]

theorem splitBytes_some' {k : Nat} {bs a r : Bytes} (h : splitBytes k bs = some (a, r)) : bs = a ++ r ∧ a.length = k := by
  refine ⟨?_, splitBytes_some h⟩
  unfold splitBytes at h
  split at h
  · cases h
  · simp only [Option.some.injEq, Prod.mk.injEq] at h
    rw [← h.1, ← h.2, List.take_append_drop]

theorem initial_eq (b : UInt8) : b = UInt8.ofNat (32 * (b.toNat / 32) + b.toNat % 32) := by
  rw [Nat.div_add_mod, UInt8.ofNat_toNat]

theorem head_of_readHead {bs r : Bytes} {m n : Nat} (h : readHead bs = some (m, n, r)) : m < 8 ∧ ∃ p, bs = p ++ r ∧ Head m n p := by
  cases bs with
  | nil => cases h
  | cons b bs =>
    have hb : b.toNat / 32 < 8 := by have := b.toNat_lt; omega
    have big : ∀ k i, b.toNat % 32 = i → ((splitBytes k bs).map fun (x : Bytes × Bytes) => (b.toNat / 32, ofBe x.1 0, x.2)) = some (m, n, r) →
        m < 8 ∧ ∃ a, b :: bs = UInt8.ofNat (32 * m + i) :: (a ++ r) ∧ a.length = k ∧ bigEndian a = n := by
      intro k i hi h
      rw [Option.map_eq_some_iff] at h
      obtain ⟨⟨a, r'⟩, h1, h2⟩ := h
      simp only [Prod.mk.injEq] at h2
      obtain ⟨rfl, rfl, rfl⟩ := h2
      obtain ⟨rfl, hl⟩ := splitBytes_some' h1
      refine ⟨hb, a, ?_, hl, (ofBe_zero a).symm⟩
      rw [← hi, ← initial_eq]
    simp only [readHead] at h
    split at h
    · rename_i hi
      simp only [Option.some.injEq, Prod.mk.injEq] at h
      obtain ⟨rfl, rfl, rfl⟩ := h
      refine ⟨hb, [b], rfl, ?_⟩
      have := Head.short (m := b.toNat / 32) hi
      rwa [← initial_eq] at this
    split at h
    · obtain ⟨hm, a, he, hl, hv⟩ := big 1 24 (by assumption) h
      exact ⟨hm, _ :: a, he, .one hl hv⟩
    split at h
    · obtain ⟨hm, a, he, hl, hv⟩ := big 2 25 (by assumption) h
      exact ⟨hm, _ :: a, he, .two hl hv⟩
    split at h
    · obtain ⟨hm, a, he, hl, hv⟩ := big 4 26 (by assumption) h
      exact ⟨hm, _ :: a, he, .four hl hv⟩
    split at h
    · obtain ⟨hm, a, he, hl, hv⟩ := big 8 27 (by assumption) h
      exact ⟨hm, _ :: a, he, .eight hl hv⟩
    · cases h

theorem head_lt {m n : Nat} {h : Bytes} (hm : m < 8) (hh : Head m n h) : n < 2 ^ 64 := readHead_lt (readHead_of_head hm hh [])

/-- The first byte of an initial sequence: its major type, and information below 28. -/
theorem head_first {m n : Nat} {h : Bytes} (hm : m < 8) (hh : Head m n h) : ∃ b t, h = b :: t ∧ b.toNat / 32 = m ∧ b.toNat % 32 < 28 := by
  have key : ∀ i, i < 28 → (UInt8.ofNat (32 * m + i)).toNat / 32 = m ∧ (UInt8.ofNat (32 * m + i)).toNat % 32 < 28 := by
    intro i hi
    rw [toNat_initial hm (by omega)]; omega
  cases hh with
  | short hn => exact ⟨_, _, rfl, key _ (by omega)⟩
  | one => exact ⟨_, _, rfl, key _ (by omega)⟩
  | two => exact ⟨_, _, rfl, key _ (by omega)⟩
  | four => exact ⟨_, _, rfl, key _ (by omega)⟩
  | eight => exact ⟨_, _, rfl, key _ (by omega)⟩

/-- Bytes that begin with something else than the break byte. -/
def Starts (p : Bytes) : Prop := ∃ b t, p = b :: t ∧ b ≠ 0xff

theorem starts_head {m n : Nat} {h : Bytes} (hm : m < 8) (hh : Head m n h) (t : Bytes) : Starts (h ++ t) := by
  obtain ⟨b, t', rfl, _, hi⟩ := head_first hm hh
  refine ⟨b, t' ++ t, rfl, ?_⟩
  rintro rfl
  revert hi; decide

/-- The reader `f` reads exactly the byte strings that stand for `a` by `P`. -/
structure Exact {α : Type} (f : Bytes → Option (α × Bytes)) (P : Bytes → α → Prop) : Prop where
  sound : ∀ bs a r, f bs = some (a, r) → ∃ p, bs = p ++ r ∧ P p a
  complete : ∀ p a r, P p a → f (p ++ r) = some (a, r)
  starts : ∀ p a, P p a → Starts p

section
variable {α : Type} {f : Bytes → Option (α × Bytes)} {P : Bytes → α → Prop}

theorem decodeN_sound (h : Exact f P) {n : Nat} {bs r : Bytes} {l : List α} (hd : decodeN f n bs = some (l, r)) :
    ∃ ps : List (Bytes × α), ps.length = n ∧ (∀ x ∈ ps, P x.1 x.2) ∧ l = ps.map Prod.snd ∧ bs = (ps.map Prod.fst).flatten ++ r := by
  induction n generalizing bs l with
  | zero => cases hd; exact ⟨[], rfl, by simp, rfl, rfl⟩
  | succ n ih =>
    simp only [decodeN, Option.bind_eq_some_iff, Option.map_eq_some_iff, Prod.exists, Prod.mk.injEq] at hd
    obtain ⟨a, r1, h1, as, r2, h2, rfl, rfl⟩ := hd
    obtain ⟨p, rfl, hp⟩ := h.sound _ _ _ h1
    obtain ⟨ps, e1, e2, rfl, rfl⟩ := ih h2
    exact ⟨(p, a) :: ps, by simp [e1], List.forall_mem_cons.2 ⟨hp, e2⟩, rfl, by simp⟩

theorem decodeN_complete (h : Exact f P) (ps : List (Bytes × α)) (hp : ∀ x ∈ ps, P x.1 x.2) (r : Bytes) :
    decodeN f ps.length ((ps.map Prod.fst).flatten ++ r) = some (ps.map Prod.snd, r) := by
  induction ps with
  | nil => rfl
  | cons x xs ih =>
    simp only [List.length_cons, List.map_cons, List.flatten_cons, List.append_assoc, decodeN]
    rw [h.complete _ _ _ (hp x (by simp))]
    simp [ih fun y hy => hp y (by simp [hy])]

theorem decodeUntil_sound (h : Exact f P) {n : Nat} {bs r : Bytes} {l : List α} (hd : decodeUntil f n bs = some (l, r)) :
    ∃ ps : List (Bytes × α), ps.length ≤ n ∧ (∀ x ∈ ps, P x.1 x.2) ∧ l = ps.map Prod.snd ∧ bs = (ps.map Prod.fst).flatten ++ 0xff :: r := by
  induction n generalizing bs l with
  | zero =>
    unfold decodeUntil at hd
    split at hd
    · cases hd; exact ⟨[], by simp, by simp, rfl, rfl⟩
    · cases hd
  | succ n ih =>
    unfold decodeUntil at hd
    split at hd
    · cases hd; exact ⟨[], by simp, by simp, rfl, rfl⟩
    · simp only [Option.bind_eq_some_iff, Option.map_eq_some_iff, Prod.exists, Prod.mk.injEq] at hd
      obtain ⟨a, r1, h1, as, r2, h2, rfl, rfl⟩ := hd
      obtain ⟨p, rfl, hp⟩ := h.sound _ _ _ h1
      obtain ⟨ps, e1, e2, rfl, rfl⟩ := ih h2
      exact ⟨(p, a) :: ps, by simp [e1], List.forall_mem_cons.2 ⟨hp, e2⟩, rfl, by simp⟩

theorem decodeUntil_step {n : Nat} {p : Bytes} (hs : Starts p) : decodeUntil f (n + 1) p = (f p).bind fun (a, r) => (decodeUntil f n r).map fun (as, r') => (a :: as, r') := by
  obtain ⟨b, t, rfl, hb⟩ := hs
  rw [decodeUntil]
  rintro r he
  exact hb (List.cons.inj he).1

theorem decodeUntil_complete (h : Exact f P) (ps : List (Bytes × α)) (hp : ∀ x ∈ ps, P x.1 x.2) (n : Nat) (hn : ps.length ≤ n) (r : Bytes) :
    decodeUntil f n ((ps.map Prod.fst).flatten ++ 0xff :: r) = some (ps.map Prod.snd, r) := by
  induction ps generalizing n with
  | nil =>
    rw [List.map_nil, List.flatten_nil, List.nil_append, decodeUntil]
    rfl
  | cons x xs ih =>
    obtain ⟨k, rfl⟩ : ∃ k, n = k + 1 := ⟨n - 1, by rw [List.length_cons] at hn; omega⟩
    have hst := h.starts _ _ (hp x (by simp))
    obtain ⟨b, t, he, hb⟩ := hst
    simp only [List.map_cons, List.flatten_cons, List.append_assoc]
    rw [decodeUntil_step ⟨b, _, by rw [he]; rfl, hb⟩, h.complete _ _ _ (hp x (by simp))]
    simp [ih (fun y hy => hp y (by simp [hy])) k (by rw [List.length_cons] at hn; omega)]

theorem length_le_flatten (h : Exact f P) (ps : List (Bytes × α)) (hp : ∀ x ∈ ps, P x.1 x.2) : ps.length ≤ ((ps.map Prod.fst).flatten).length := by
  induction ps with
  | nil => simp
  | cons x xs ih =>
    obtain ⟨b, t, he, _⟩ := h.starts _ _ (hp x (by simp))
    have := ih fun y hy => hp y (by simp [hy])
    simp only [List.length_cons, List.map_cons, List.flatten_cons, List.length_append, he] at this ⊢
    omega

/-- With the fuel that the decoder gives it. -/
theorem until_complete (h : Exact f P) (ps : List (Bytes × α)) (hp : ∀ x ∈ ps, P x.1 x.2) (hl : ps.length < 2 ^ 64) (r : Bytes) :
    decodeUntil f (fuelOf ((ps.map Prod.fst).flatten ++ 0xff :: r)) ((ps.map Prod.fst).flatten ++ 0xff :: r) = some (ps.map Prod.snd, r) := by
  refine decodeUntil_complete h ps hp _ ?_ r
  have := length_le_flatten h ps hp
  unfold fuelOf
  rw [List.length_append]
  omega

theorem until_sound (h : Exact f P) {bs r : Bytes} {l : List α} (hd : decodeUntil f (fuelOf bs) bs = some (l, r)) :
    ∃ ps : List (Bytes × α), ps.length < 2 ^ 64 ∧ (∀ x ∈ ps, P x.1 x.2) ∧ l = ps.map Prod.snd ∧ bs = (ps.map Prod.fst).flatten ++ 0xff :: r := by
  obtain ⟨ps, h1, h2⟩ := decodeUntil_sound h hd
  exact ⟨ps, Nat.lt_of_le_of_lt h1 (fuelOf_lt _), h2⟩

end

theorem exact_chunk {m : Nat} (hm : m < 8) : Exact (decodeChunk m) (Chunk m) where
  sound := by
    intro bs a r h
    simp only [decodeChunk, Option.bind_eq_some_iff] at h
    obtain ⟨⟨m', n, r1⟩, h1, h⟩ := h
    dsimp only at h
    split at h
    · rename_i he
      subst he
      obtain ⟨_, p, rfl, hp⟩ := head_of_readHead h1
      obtain ⟨rfl, rfl⟩ := splitBytes_some' h
      exact ⟨p ++ a, by simp, .mk hp⟩
    · cases h
  complete := by
    rintro p a r ⟨hh⟩
    simp only [decodeChunk]
    rw [List.append_assoc, readHead_of_head hm hh]
    simp [splitBytes_append]
  starts := by
    rintro p a ⟨hh⟩
    exact starts_head hm hh _

theorem readHead_open {m : Nat} (hm : m < 8) (r : Bytes) : readHead (UInt8.ofNat (32 * m + 31) :: r) = none := by
  simp only [readHead, toNat_initial hm (show 31 < 32 by omega)]
  rw [if_neg (by omega), if_neg (by omega), if_neg (by omega), if_neg (by omega), if_neg (by omega)]

theorem decodeChunks_complete {m : Nat} (hm : m < 8) {cs : List (Bytes × Bytes)} (hc : ∀ c ∈ cs, Chunk m c.1 c.2) (hl : cs.length < 2 ^ 64)
    (hf : (cs.map Prod.snd).flatten.length < 2 ^ 64) (r : Bytes) :
    decodeChunks m ((cs.map Prod.fst).flatten ++ 0xff :: r) = some ((cs.map Prod.snd).flatten, r) := by
  unfold decodeChunks
  rw [until_complete (exact_chunk hm) cs hc hl r]
  simp only [Option.bind_some]
  rw [if_pos hf]

theorem decodeChunks_sound {m : Nat} (hm : m < 8) {bs s r : Bytes} (h : decodeChunks m bs = some (s, r)) :
    ∃ p, bs = p ++ r ∧ StringEnc m (UInt8.ofNat (32 * m + 31) :: p) s := by
  simp only [decodeChunks, Option.bind_eq_some_iff, Prod.exists] at h
  obtain ⟨l, r', h1, h⟩ := h
  split at h
  · rename_i hl
    cases h
    obtain ⟨ps, e1, e2, rfl, rfl⟩ := until_sound (exact_chunk hm) h1
    exact ⟨(ps.map Prod.fst).flatten ++ [0xff], by simp, .chunks e2 e1 hl⟩
  · cases h

theorem starts_string {m : Nat} (hm : m < 7) {p b : Bytes} (h : StringEnc m p b) : Starts p := by
  cases h with
  | definite hc => exact (exact_chunk (by omega)).starts _ _ hc
  | chunks =>
    refine ⟨_, _, rfl, fun he => ?_⟩
    have := congrArg UInt8.toNat he
    rw [toNat_initial (by omega) (by omega)] at this
    have e : (0xff : UInt8).toNat = 255 := rfl
    rw [e] at this
    omega

theorem checkText_eq {x : Bytes × Bytes} {s : Str} {r : Bytes} : checkText x = some (s, r) ↔ x = (s, r) ∧ validUtf8 s = true := by
  refine ⟨checkText_some, ?_⟩
  rintro ⟨rfl, h⟩
  simp [checkText, h]

theorem exact_text : Exact decodeText (fun p s => StringEnc 3 p s ∧ validUtf8 s = true) where
  sound := by
    intro bs s r h
    unfold decodeText at h
    split at h
    · rename_i m n r1 h1
      split at h
      · rename_i hm
        subst hm
        rw [Option.bind_eq_some_iff] at h
        obtain ⟨x, h2, h⟩ := h
        obtain ⟨rfl, hu⟩ := checkText_eq.1 h
        obtain ⟨_, p, rfl, hp⟩ := head_of_readHead h1
        obtain ⟨rfl, rfl⟩ := splitBytes_some' h2
        exact ⟨p ++ s, by simp, .definite (.mk hp), hu⟩
      · cases h
    · split at h
      · rw [Option.bind_eq_some_iff] at h
        obtain ⟨x, h2, h⟩ := h
        obtain ⟨rfl, hu⟩ := checkText_eq.1 h
        obtain ⟨p, rfl, hp⟩ := decodeChunks_sound (by decide) h2
        exact ⟨_ :: p, rfl, hp, hu⟩
      · cases h
  complete := by
    rintro p s r ⟨hp, hu⟩
    unfold decodeText
    cases hp with
    | definite hc =>
      obtain ⟨hh⟩ := hc
      rw [List.append_assoc, readHead_of_head (by decide) hh]
      simp [splitBytes_append, checkText, hu]
    | chunks hc hl hf =>
      rw [List.cons_append, readHead_open (by decide), List.append_assoc]
      simp only
      rw [show (UInt8.ofNat (32 * 3 + 31)) = 0x7f from rfl]
      simp only [List.cons_append, List.nil_append]
      rw [decodeChunks_complete (by decide) hc hl hf]
      simp [checkText, hu]
  starts := fun _ _ h => starts_string (by decide) h.1

/-- The encodings of a map entry. -/
def EntryEnc (P : Bytes → Cbor → Prop) (p : Bytes) (e : Str × Cbor) : Prop :=
  ∃ k v, p = k ++ v ∧ (StringEnc 3 k e.1 ∧ validUtf8 e.1 = true) ∧ P v e.2

theorem exact_entry {f : Bytes → Option (Cbor × Bytes)} {P : Bytes → Cbor → Prop} (h : Exact f P) : Exact (decodeEntry f) (EntryEnc P) where
  sound := by
    intro bs e r hd
    simp only [decodeEntry, Option.bind_eq_some_iff, Option.map_eq_some_iff, Prod.exists, Prod.mk.injEq] at hd
    obtain ⟨k, z, hk, v, w, hv, rfl, rfl⟩ := hd
    obtain ⟨p, rfl, hp⟩ := exact_text.sound _ _ _ hk
    obtain ⟨q, rfl, hq⟩ := h.sound _ _ _ hv
    exact ⟨p ++ q, by simp, p, q, rfl, hp, hq⟩
  complete := by
    rintro p ⟨k, v⟩ r ⟨a, b, rfl, ha, hb⟩
    unfold decodeEntry
    rw [List.append_assoc, exact_text.complete _ _ _ ha]
    simp [h.complete _ _ _ hb]
  starts := by
    rintro p ⟨k, v⟩ ⟨a, b, rfl, ha, hb⟩
    obtain ⟨x, t, rfl, hx⟩ := exact_text.starts _ _ ha
    exact ⟨x, t ++ b, rfl, hx⟩

/-- A list of entry encodings, in the form of the specification. -/
theorem entries_split {P : Bytes → Cbor → Prop} (ps : List (Bytes × (Str × Cbor))) (h : ∀ x ∈ ps, EntryEnc P x.1 x.2) :
    ∃ qs : List ((Bytes × Bytes) × (Str × Cbor)), qs.length = ps.length ∧ qs.map Prod.snd = ps.map Prod.snd ∧ (qs.map fun x => x.1.1 ++ x.1.2) = ps.map Prod.fst ∧
      (∀ x ∈ qs, StringEnc 3 x.1.1 x.2.1 ∧ validUtf8 x.2.1 = true) ∧ ∀ x ∈ qs, P x.1.2 x.2.2 := by
  induction ps with
  | nil => exact ⟨[], by simp⟩
  | cons x xs ih =>
    obtain ⟨qs, h1, h2, h3, h4, h5⟩ := ih fun y hy => h y (by simp [hy])
    obtain ⟨k, v, hx, hk, hv⟩ := h x (by simp)
    refine ⟨((k, v), x.2) :: qs, by simp [h1], by simp [h2], by simp [h3, hx], ?_, ?_⟩
    · exact List.forall_mem_cons.2 ⟨hk, h4⟩
    · exact List.forall_mem_cons.2 ⟨hv, h5⟩

theorem entries_join {P : Bytes → Cbor → Prop} (qs : List ((Bytes × Bytes) × (Str × Cbor))) (h4 : ∀ x ∈ qs, StringEnc 3 x.1.1 x.2.1 ∧ validUtf8 x.2.1 = true)
    (h5 : ∀ x ∈ qs, P x.1.2 x.2.2) : ∃ ps : List (Bytes × (Str × Cbor)), ps.length = qs.length ∧ ps.map Prod.snd = qs.map Prod.snd ∧
      ps.map Prod.fst = (qs.map fun x => x.1.1 ++ x.1.2) ∧ ∀ x ∈ ps, EntryEnc P x.1 x.2 := by
  refine ⟨qs.map fun x => (x.1.1 ++ x.1.2, x.2), by simp, by simp, by simp, ?_⟩
  intro x hx
  obtain ⟨y, hy, rfl⟩ := List.mem_map.1 hx
  exact ⟨y.1.1, y.1.2, rfl, h4 y hy, h5 y hy⟩

/-- One level of `Encodes`, with `none` where no container is allowed. -/
theorem decodeStep_complete {d : Nat} {inner : Option (Bytes → Option (Cbor × Bytes))}
    (hin : ∀ d', d = d' + 1 → ∃ f, inner = some f ∧ Exact f (Encodes d')) {p : Bytes} {c : Cbor} (h : Encodes d p c) (r : Bytes) :
    decodeStep inner (p ++ r) = some (c, r) := by
  cases h with
  | uint hh => unfold decodeStep; rw [readHead_of_head (by decide) hh]; rfl
  | nint hh hn => unfold decodeStep; rw [readHead_of_head (by decide) hh]; simp [hn]
  | bytes hs =>
    cases hs with
    | definite hc =>
      obtain ⟨hh⟩ := hc
      unfold decodeStep
      rw [List.append_assoc, readHead_of_head (by decide) hh]
      simp [splitBytes_append]
    | chunks hc hl hf =>
      unfold decodeStep
      rw [List.cons_append, readHead_open (by decide), List.append_assoc]
      rw [show (UInt8.ofNat (32 * 2 + 31)) = 0x5f from rfl]
      simp only [decodeIndefinite, List.cons_append, List.nil_append]
      rw [decodeChunks_complete (by decide) hc hl hf]
      rfl
  | text hs hu =>
    cases hs with
    | definite hc =>
      obtain ⟨hh⟩ := hc
      unfold decodeStep
      rw [List.append_assoc, readHead_of_head (by decide) hh]
      simp [splitBytes_append, checkText, hu]
    | chunks hc hl hf =>
      unfold decodeStep
      rw [List.cons_append, readHead_open (by decide), List.append_assoc]
      rw [show (UInt8.ofNat (32 * 3 + 31)) = 0x7f from rfl]
      simp only [decodeIndefinite, List.cons_append, List.nil_append]
      rw [decodeChunks_complete (by decide) hc hl hf]
      simp [checkText, hu]
  | @array d' h ps hh hp =>
    obtain ⟨f, rfl, hf⟩ := hin d' rfl
    unfold decodeStep
    rw [List.append_assoc, readHead_of_head (by decide) hh]
    simp [decodeN_complete hf ps hp]
  | @openArray d' ps hl hp =>
    obtain ⟨f, rfl, hf⟩ := hin d' rfl
    unfold decodeStep
    rw [List.cons_append, show readHead (0x9f :: _) = none from readHead_open (m := 4) (by decide) _, List.append_assoc]
    simp only [decodeIndefinite, List.cons_append, List.nil_append, Option.bind_some]
    rw [until_complete hf ps hp hl]
    rfl
  | @map d' h qs hh h4 h5 =>
    obtain ⟨f, rfl, hf⟩ := hin d' rfl
    obtain ⟨ps, e1, e2, e3, e4⟩ := entries_join qs h4 h5
    unfold decodeStep
    rw [List.append_assoc, readHead_of_head (by decide) hh, ← e1, ← e2, ← e3]
    have := decodeN_complete (exact_entry hf) ps e4 r
    show Option.map _ (decodeN _ _ _) = _
    rw [this]
    rfl
  | @openMap d' qs hl h4 h5 =>
    obtain ⟨f, rfl, hf⟩ := hin d' rfl
    obtain ⟨ps, e1, e2, e3, e4⟩ := entries_join qs h4 h5
    unfold decodeStep
    rw [List.cons_append, show readHead (0xbf :: _) = none from readHead_open (m := 5) (by decide) _, List.append_assoc, ← e2, ← e3]
    simp only [decodeIndefinite, List.cons_append, List.nil_append, Option.bind_some]
    rw [until_complete (exact_entry hf) ps e4 (by rw [e1]; exact hl)]
    rfl
  | @tag d' h n p c hh hp =>
    obtain ⟨f, rfl, hf⟩ := hin d' rfl
    unfold decodeStep
    rw [List.append_assoc, readHead_of_head (by decide) hh]
    exact hf.complete _ _ _ hp
  | false => simp only [List.cons_append, List.nil_append]; rw [show (0xf4 : UInt8) :: r = [UInt8.ofNat (32 * 7 + 20)] ++ r from rfl]; unfold decodeStep; rw [readHead_of_head (by decide) (.short (by decide))]; rfl
  | true => simp only [List.cons_append, List.nil_append]; rw [show (0xf5 : UInt8) :: r = [UInt8.ofNat (32 * 7 + 21)] ++ r from rfl]; unfold decodeStep; rw [readHead_of_head (by decide) (.short (by decide))]; rfl
  | null => simp only [List.cons_append, List.nil_append]; rw [show (0xf6 : UInt8) :: r = [UInt8.ofNat (32 * 7 + 22)] ++ r from rfl]; unfold decodeStep; rw [readHead_of_head (by decide) (.short (by decide))]; rfl
  | undefined => simp only [List.cons_append, List.nil_append]; rw [show (0xf7 : UInt8) :: r = [UInt8.ofNat (32 * 7 + 23)] ++ r from rfl]; unfold decodeStep; rw [readHead_of_head (by decide) (.short (by decide))]; rfl
  | @half _ a hl =>
    unfold decodeStep
    rw [show readHead (0xf9 :: a ++ r) = some (7, bigEndian a, r) from readHead_of_head (m := 7) (by decide) (Head.two hl rfl) r]
    rfl
  | @single _ a hl =>
    unfold decodeStep
    rw [show readHead (0xfa :: a ++ r) = some (7, bigEndian a, r) from readHead_of_head (m := 7) (by decide) (Head.four hl rfl) r]
    rfl
  | @double _ a hl =>
    unfold decodeStep
    rw [show readHead (0xfb :: a ++ r) = some (7, bigEndian a, r) from readHead_of_head (m := 7) (by decide) (Head.eight hl rfl) r]
    rfl

theorem decodeStep_sound {d : Nat} {inner : Option (Bytes → Option (Cbor × Bytes))}
    (hin : ∀ f, inner = some f → ∃ d', d = d' + 1 ∧ Exact f (Encodes d')) {bs r : Bytes} {c : Cbor} (h : decodeStep inner bs = some (c, r)) :
    ∃ p, bs = p ++ r ∧ Encodes d p c := by
  unfold decodeStep at h
  split at h
  · unfold decodeIndefinite at h
    split at h
    · rw [Option.map_eq_some_iff] at h
      obtain ⟨⟨b, r'⟩, h1, h⟩ := h
      cases h
      obtain ⟨p, rfl, hp⟩ := decodeChunks_sound (by decide) h1
      exact ⟨_ :: p, rfl, .bytes hp⟩
    · rw [Option.map_eq_some_iff] at h
      obtain ⟨⟨s, r'⟩, h1, h⟩ := h
      cases h
      rw [Option.bind_eq_some_iff] at h1
      obtain ⟨x, h2, h1⟩ := h1
      obtain ⟨rfl, hu⟩ := checkText_eq.1 h1
      obtain ⟨p, rfl, hp⟩ := decodeChunks_sound (by decide) h2
      exact ⟨_ :: p, rfl, .text hp hu⟩
    · simp only [Option.bind_eq_some_iff, Option.map_eq_some_iff, Prod.exists, Prod.mk.injEq] at h
      obtain ⟨f, hf, l, r2, h2, rfl, rfl⟩ := h
      obtain ⟨d', rfl, hd'⟩ := hin f hf
      obtain ⟨ps, e1, e2, rfl, rfl⟩ := until_sound hd' h2
      exact ⟨_, by simp, .openArray e1 e2⟩
    · simp only [Option.bind_eq_some_iff, Option.map_eq_some_iff, Prod.exists, Prod.mk.injEq] at h
      obtain ⟨f, hf, l, r2, h2, rfl, rfl⟩ := h
      obtain ⟨d', rfl, hd'⟩ := hin f hf
      obtain ⟨ps, e1, e2, rfl, rfl⟩ := until_sound (exact_entry hd') h2
      obtain ⟨qs, g1, g2, g3, g4, g5⟩ := entries_split ps e2
      refine ⟨0xbf :: ((qs.map fun x => x.1.1 ++ x.1.2).flatten ++ [0xff]), by rw [g3]; simp, ?_⟩
      rw [← g2]
      exact .openMap (by rw [g1]; exact e1) g4 g5
    · cases h
  rename_i m n r1 h1
  obtain ⟨hm8, p, rfl, hp⟩ := head_of_readHead h1
  split at h
  · cases h; exact ⟨p, rfl, .uint hp⟩
  · split at h
    · cases h; exact ⟨p, rfl, .nint hp (by assumption)⟩
    · cases h
  · rw [Option.map_eq_some_iff] at h
    obtain ⟨⟨b, r'⟩, h2, h⟩ := h
    cases h
    obtain ⟨rfl, rfl⟩ := splitBytes_some' h2
    exact ⟨p ++ b, by simp, .bytes (.definite (.mk hp))⟩
  · rw [Option.map_eq_some_iff] at h
    obtain ⟨⟨s, r'⟩, h2, h⟩ := h
    cases h
    rw [Option.bind_eq_some_iff] at h2
    obtain ⟨x, h3, h2⟩ := h2
    obtain ⟨rfl, hu⟩ := checkText_eq.1 h2
    obtain ⟨rfl, rfl⟩ := splitBytes_some' h3
    exact ⟨p ++ s, by simp, .text (.definite (.mk hp)) hu⟩
  · simp only [Option.bind_eq_some_iff, Option.map_eq_some_iff, Prod.exists, Prod.mk.injEq] at h
    obtain ⟨f, hf, l, r2, h2, rfl, rfl⟩ := h
    obtain ⟨d', rfl, hd'⟩ := hin f hf
    obtain ⟨ps, rfl, e2, rfl, rfl⟩ := decodeN_sound hd' h2
    exact ⟨_, by rw [← List.append_assoc], .array hp e2⟩
  · simp only [Option.bind_eq_some_iff, Option.map_eq_some_iff, Prod.exists, Prod.mk.injEq] at h
    obtain ⟨f, hf, l, r2, h2, rfl, rfl⟩ := h
    obtain ⟨d', rfl, hd'⟩ := hin f hf
    obtain ⟨ps, rfl, e2, rfl, rfl⟩ := decodeN_sound (exact_entry hd') h2
    obtain ⟨qs, g1, g2, g3, g4, g5⟩ := entries_split ps e2
    refine ⟨p ++ (qs.map fun x => x.1.1 ++ x.1.2).flatten, by rw [g3]; simp, ?_⟩
    rw [← g2]
    exact .map (by rw [g1]; exact hp) g4 g5
  · rw [Option.bind_eq_some_iff] at h
    obtain ⟨f, hf, h⟩ := h
    obtain ⟨d', rfl, hd'⟩ := hin f hf
    obtain ⟨q, rfl, hq⟩ := hd'.sound _ _ _ h
    exact ⟨p ++ q, by simp, .tag hp hq⟩
  · rename_i hm0 hm1 hm2 hm3 hm4 hm5 hm6
    obtain rfl : m = 7 := by
      have e0 : m ≠ 0 := hm0
      have e1 : m ≠ 1 := hm1
      have e2 : m ≠ 2 := hm2
      have e3 : m ≠ 3 := hm3
      have e4 : m ≠ 4 := hm4
      have e5 : m ≠ 5 := hm5
      have e6 : m ≠ 6 := hm6
      omega
    cases hp with
    | short hn =>
      rcases (by omega : n < 20 ∨ n = 20 ∨ n = 21 ∨ n = 22 ∨ n = 23) with hn | rfl | rfl | rfl | rfl
      · exfalso
        have : ∀ n, n < 20 → ∀ b ∈ [(0xf4 : UInt8), 0xf5, 0xf6, 0xf7, 0xf9, 0xfa, 0xfb], UInt8.ofNat (32 * 7 + n) ≠ b := by decide
        have := this n hn
        generalize UInt8.ofNat (32 * 7 + n) = b at h this
        simp only [List.cons_append, List.nil_append] at h
        split at h <;> first | (cases h; done) | (rename_i he; exact this _ (by decide) (List.cons.inj he).1)
      · cases h; exact ⟨[0xf4], rfl, .false⟩
      · cases h; exact ⟨[0xf5], rfl, .true⟩
      · cases h; exact ⟨[0xf6], rfl, .null⟩
      · cases h; exact ⟨[0xf7], rfl, .undefined⟩
    | one => cases h
    | two hl hv => cases h; exact ⟨_, rfl, hv ▸ .half hl⟩
    | four hl hv => cases h; exact ⟨_, rfl, hv ▸ .single hl⟩
    | eight hl hv => cases h; exact ⟨_, rfl, hv ▸ .double hl⟩

theorem starts_encodes {d : Nat} {p : Bytes} {c : Cbor} (h : Encodes d p c) : Starts p := by
  have key : ∀ (b : UInt8) (t : Bytes), b ≠ 0xff → Starts (b :: t) := fun b t hb => ⟨b, t, rfl, hb⟩
  cases h with
  | uint hh => have := starts_head (by decide) hh []; rwa [List.append_nil] at this
  | nint hh => have := starts_head (by decide) hh []; rwa [List.append_nil] at this
  | bytes hs => exact starts_string (by decide) hs
  | text hs => exact starts_string (by decide) hs
  | array hh => exact starts_head (by decide) hh _
  | openArray => exact key _ _ (by decide)
  | map hh => exact starts_head (by decide) hh _
  | openMap => exact key _ _ (by decide)
  | tag hh => exact starts_head (by decide) hh _
  | false => exact key _ _ (by decide)
  | true => exact key _ _ (by decide)
  | null => exact key _ _ (by decide)
  | undefined => exact key _ _ (by decide)
  | half => exact key _ _ (by decide)
  | single => exact key _ _ (by decide)
  | double => exact key _ _ (by decide)

/-- The decoder reads exactly the encodings. -/
theorem exact_item (d : Nat) : Exact (decodeItem d) (Encodes d) := by
  induction d with
  | zero =>
    refine ⟨fun bs a r h => ?_, fun p a r h => ?_, fun _ _ => starts_encodes⟩
    · exact decodeStep_sound (fun f hf => by cases hf) h
    · exact decodeStep_complete (fun d' hd' => by cases hd') h r
  | succ d ih =>
    refine ⟨fun bs a r h => ?_, fun p a r h => ?_, fun _ _ => starts_encodes⟩
    · exact decodeStep_sound (fun f hf => ⟨d, rfl, by cases hf; exact ih⟩) h
    · exact decodeStep_complete (fun d' hd' => ⟨_, rfl, by cases hd'; exact ih⟩) h r

theorem decode_iff {bs : Bytes} {c : Cbor} : Cbor.decode bs = some c ↔ Encodes 127 bs c := by
  unfold Cbor.decode
  constructor
  · intro h
    split at h
    · rename_i c' hd
      cases h
      obtain ⟨p, rfl, hp⟩ := (exact_item 127).sound _ _ _ hd
      rwa [List.append_nil]
    · cases h
  · intro h
    have := (exact_item 127).complete _ _ [] h
    rw [List.append_nil] at this
    rw [this]

end CB
