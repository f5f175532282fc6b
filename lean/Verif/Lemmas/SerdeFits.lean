import Verif.Lemmas.Serde
/-!
# What is decoded can be encoded and decoded again
-/

namespace CB
open Spec

theorem splitBytes_some {k : Nat} {bs a r : Bytes} (h : splitBytes k bs = some (a, r)) : a.length = k := by
  unfold splitBytes at h
  split at h
  · cases h
  · simp only [Option.some.injEq, Prod.mk.injEq] at h
    rw [← h.1, List.length_take]; omega

theorem ofBe_lt (b : Bytes) (acc : Nat) : ofBe b acc < (acc + 1) * 256 ^ b.length := by
  induction b generalizing acc with
  | nil => simp [ofBe]
  | cons x xs ih =>
    have := ih (acc * 256 + x.toNat)
    have hx := x.toNat_lt
    simp only [ofBe, List.length_cons, Nat.pow_succ]
    refine Nat.lt_of_lt_of_le this ?_
    rw [Nat.mul_comm (256 ^ xs.length) 256, ← Nat.mul_assoc]
    apply Nat.mul_le_mul_right
    omega

theorem readHead_lt {bs r : Bytes} {m n : Nat} (h : readHead bs = some (m, n, r)) : n < 2 ^ 64 := by
  cases bs with
  | nil => cases h
  | cons b bs =>
    have big : ∀ k, k ≤ 8 → ((splitBytes k bs).map fun (x : Bytes × Bytes) => (b.toNat / 32, ofBe x.1 0, x.2)) = some (m, n, r) → n < 2 ^ 64 := by
      intro k hk h
      rw [Option.map_eq_some_iff] at h
      obtain ⟨⟨a, r'⟩, h1, h2⟩ := h
      simp only [Prod.mk.injEq] at h2
      rw [← h2.2.1]
      have := ofBe_lt a 0
      rw [splitBytes_some h1] at this
      refine Nat.lt_of_lt_of_le this ?_
      rw [Nat.zero_add, Nat.one_mul]
      calc 256 ^ k ≤ 256 ^ 8 := Nat.pow_le_pow_right (by decide) hk
        _ = 2 ^ 64 := by decide
    simp only [readHead] at h
    split at h
    · simp only [Option.some.injEq, Prod.mk.injEq] at h
      omega
    split at h
    · exact big 1 (by decide) h
    split at h
    · exact big 2 (by decide) h
    split at h
    · exact big 4 (by decide) h
    split at h
    · exact big 8 (by decide) h
    · cases h

theorem decodeN_mem {α : Type} {f : Bytes → Option (α × Bytes)} {n : Nat} {bs r : Bytes} {l : List α} (h : decodeN f n bs = some (l, r)) :
    l.length = n ∧ ∀ a ∈ l, ∃ x y, f x = some (a, y) := by
  induction n generalizing bs l with
  | zero => simp only [decodeN, Option.some.injEq, Prod.mk.injEq] at h; rw [← h.1]; simp
  | succ n ih =>
    simp only [decodeN, Option.bind_eq_some_iff, Option.map_eq_some_iff, Prod.exists, Prod.mk.injEq] at h
    obtain ⟨a, r1, h1, as, r2, h2, rfl, rfl⟩ := h
    obtain ⟨e1, e2⟩ := ih h2
    refine ⟨by simp [e1], ?_⟩
    intro x hx
    rcases List.mem_cons.1 hx with rfl | hx
    · exact ⟨_, _, h1⟩
    · exact e2 x hx

theorem decodeUntil_mem {α : Type} {f : Bytes → Option (α × Bytes)} {n : Nat} {bs r : Bytes} {l : List α} (h : decodeUntil f n bs = some (l, r)) :
    l.length ≤ n ∧ ∀ a ∈ l, ∃ x y, f x = some (a, y) := by
  induction n generalizing bs l with
  | zero =>
    unfold decodeUntil at h
    split at h
    · cases h; simp
    · cases h
  | succ n ih =>
    unfold decodeUntil at h
    split at h
    · cases h; simp
    · simp only [Option.bind_eq_some_iff, Option.map_eq_some_iff, Prod.exists, Prod.mk.injEq] at h
      obtain ⟨a, r1, h1, as, r2, h2, rfl, rfl⟩ := h
      obtain ⟨e1, e2⟩ := ih h2
      refine ⟨by simp [e1], ?_⟩
      intro x hx
      rcases List.mem_cons.1 hx with rfl | hx
      · exact ⟨_, _, h1⟩
      · exact e2 x hx

theorem fuelOf_lt (bs : Bytes) : fuelOf bs < 2 ^ 64 := by
  unfold fuelOf
  omega

theorem decodeChunks_lt {m : Nat} {bs r : Bytes} {s : Bytes} (h : decodeChunks m bs = some (s, r)) : s.length < 2 ^ 64 := by
  unfold decodeChunks at h
  rw [Option.bind_eq_some_iff] at h
  obtain ⟨⟨l, r1⟩, _, h⟩ := h
  dsimp only at h
  split at h
  · cases h; assumption
  · cases h

theorem checkText_some {x : Bytes × Bytes} {s : Str} {r : Bytes} (h : checkText x = some (s, r)) : x = (s, r) ∧ validUtf8 s = true := by
  unfold checkText at h
  split at h
  · cases h; exact ⟨rfl, by assumption⟩
  · cases h

theorem chunks_isText {bs r : Bytes} {s : Str} (h : (decodeChunks 3 bs).bind checkText = some (s, r)) : IsText s := by
  rw [Option.bind_eq_some_iff] at h
  obtain ⟨x, h1, h⟩ := h
  obtain ⟨rfl, hu⟩ := checkText_some h
  exact ⟨hu, decodeChunks_lt h1⟩

theorem split_isText {n : Nat} {bs r : Bytes} {s : Str} (hn : n < 2 ^ 64) (h : (splitBytes n bs).bind checkText = some (s, r)) : IsText s := by
  rw [Option.bind_eq_some_iff] at h
  obtain ⟨x, h1, h⟩ := h
  obtain ⟨rfl, hu⟩ := checkText_some h
  exact ⟨hu, by rw [splitBytes_some h1]; exact hn⟩

theorem decodeText_isText {bs r : Bytes} {s : Str} (h : decodeText bs = some (s, r)) : IsText s := by
  unfold decodeText at h
  split at h
  · rename_i h1
    split at h
    · exact split_isText (readHead_lt h1) h
    · cases h
  · split at h
    · exact chunks_isText h
    · cases h

/-- What the decoder returns: as `Fits`, but floats need not be finite. -/
inductive Rough : Nat → Cbor → Prop
  | uint {d n} : Rough d (.uint n)
  | nint {d} {n : UInt64} : n.toNat < 2 ^ 63 → Rough d (.nint n)
  | bool {d b} : Rough d (.bool b)
  | null {d} : Rough d .null
  | float {d n} : Rough d (.float n)
  | bytes {d} {b : Bytes} : b.length < 2 ^ 64 → Rough d (.bytes b)
  | text {d} {s : Str} : IsText s → Rough d (.text s)
  | array {d} {l : List Cbor} : l.length < 2 ^ 64 → (∀ c ∈ l, Rough d c) → Rough (d + 1) (.array l)
  | map {d} {l : List (Str × Cbor)} : l.length < 2 ^ 64 → (∀ e ∈ l, IsText e.1) → (∀ e ∈ l, Rough d e.2) → Rough (d + 1) (.map l)

theorem rough_mono {d : Nat} {c : Cbor} (h : Rough d c) : ∀ {d'}, d ≤ d' → Rough d' c := by
  induction h with
  | uint => exact fun _ => .uint
  | nint h => exact fun _ => .nint h
  | bool => exact fun _ => .bool
  | null => exact fun _ => .null
  | float => exact fun _ => .float
  | bytes h => exact fun _ => .bytes h
  | text h => exact fun _ => .text h
  | array h1 _ ih =>
    intro d' hd
    obtain ⟨k, rfl⟩ : ∃ k, d' = k + 1 := ⟨d' - 1, by omega⟩
    exact .array h1 fun c hc => ih c hc (by omega)
  | map h1 h2 _ ih =>
    intro d' hd
    obtain ⟨k, rfl⟩ : ∃ k, d' = k + 1 := ⟨d' - 1, by omega⟩
    exact .map h1 h2 fun c hc => ih c hc (by omega)

theorem decodeEntry_fits {d : Nat} {item : Bytes → Option (Cbor × Bytes)} (hd : ∀ x c y, item x = some (c, y) → Rough d c) {x y : Bytes} {e : Str × Cbor}
    (h : decodeEntry item x = some (e, y)) : IsText e.1 ∧ Rough d e.2 := by
  simp only [decodeEntry, Option.bind_eq_some_iff, Option.map_eq_some_iff, Prod.exists, Prod.mk.injEq] at h
  obtain ⟨k, z, hk, v, w, hv, rfl, rfl⟩ := h
  exact ⟨decodeText_isText hk, hd _ _ _ hv⟩

theorem decodeIndefinite_fits {d : Nat} {inner : Option (Bytes → Option (Cbor × Bytes))}
    (hin : ∀ f, inner = some f → ∃ d', d = d' + 1 ∧ ∀ x c y, f x = some (c, y) → Rough d' c)
    {bs r : Bytes} {c : Cbor} (h : decodeIndefinite inner bs = some (c, r)) : Rough d c := by
  unfold decodeIndefinite at h
  split at h
  · simp only [Option.map_eq_some_iff, Prod.exists, Prod.mk.injEq] at h
    obtain ⟨b, r2, h2, rfl, rfl⟩ := h
    exact .bytes (decodeChunks_lt h2)
  · rw [Option.map_eq_some_iff] at h
    obtain ⟨⟨s, r2⟩, h2, h⟩ := h
    cases h
    exact .text (chunks_isText h2)
  · simp only [Option.bind_eq_some_iff, Option.map_eq_some_iff, Prod.exists, Prod.mk.injEq] at h
    obtain ⟨f, hf, l, r2, h2, rfl, rfl⟩ := h
    obtain ⟨d', rfl, hd'⟩ := hin f hf
    obtain ⟨e1, e2⟩ := decodeUntil_mem h2
    refine .array (Nat.lt_of_le_of_lt e1 (fuelOf_lt _)) fun c hc => ?_
    obtain ⟨x, y, hx⟩ := e2 c hc
    exact hd' _ _ _ hx
  · simp only [Option.bind_eq_some_iff, Option.map_eq_some_iff, Prod.exists, Prod.mk.injEq] at h
    obtain ⟨f, hf, l, r2, h2, rfl, rfl⟩ := h
    obtain ⟨d', rfl, hd'⟩ := hin f hf
    obtain ⟨e1, e2⟩ := decodeUntil_mem h2
    have e3 : ∀ e ∈ l, IsText e.1 ∧ Rough d' e.2 := by
      intro e he
      obtain ⟨x, y, hx⟩ := e2 e he
      exact decodeEntry_fits hd' hx
    exact .map (Nat.lt_of_le_of_lt e1 (fuelOf_lt _)) (fun e he => (e3 e he).1) fun e he => (e3 e he).2
  · cases h

theorem decodeStep_fits {d : Nat} {inner : Option (Bytes → Option (Cbor × Bytes))}
    (hin : ∀ f, inner = some f → ∃ d', d = d' + 1 ∧ ∀ x c y, f x = some (c, y) → Rough d' c)
    {bs r : Bytes} {c : Cbor} (h : decodeStep inner bs = some (c, r)) : Rough d c := by
  unfold decodeStep at h
  split at h
  · exact decodeIndefinite_fits hin h
  rename_i m n r1 h1
  have hn := readHead_lt h1
  split at h
  · cases h; exact .uint
  · split at h
    · rename_i hn'
      cases h
      refine .nint ?_
      rw [UInt64.toNat_ofNat', Nat.mod_eq_of_lt hn]; exact hn'
    · cases h
  · simp only [Option.map_eq_some_iff, Prod.exists, Prod.mk.injEq] at h
    obtain ⟨b, r2, h2, rfl, rfl⟩ := h
    exact .bytes (by rw [splitBytes_some h2]; exact hn)
  · rw [Option.map_eq_some_iff] at h
    obtain ⟨⟨s, r2⟩, h2, h⟩ := h
    cases h
    exact .text (split_isText hn h2)
  · simp only [Option.bind_eq_some_iff, Option.map_eq_some_iff, Prod.exists, Prod.mk.injEq] at h
    obtain ⟨f, hf, l, r2, h2, rfl, rfl⟩ := h
    obtain ⟨d', rfl, hd'⟩ := hin f hf
    obtain ⟨e1, e2⟩ := decodeN_mem h2
    refine .array (by rw [e1]; exact hn) fun c hc => ?_
    obtain ⟨x, y, hx⟩ := e2 c hc
    exact hd' _ _ _ hx
  · simp only [Option.bind_eq_some_iff, Option.map_eq_some_iff, Prod.exists, Prod.mk.injEq] at h
    obtain ⟨f, hf, l, r2, h2, rfl, rfl⟩ := h
    obtain ⟨d', rfl, hd'⟩ := hin f hf
    obtain ⟨e1, e2⟩ := decodeN_mem h2
    have e3 : ∀ e ∈ l, IsText e.1 ∧ Rough d' e.2 := by
      intro e he
      obtain ⟨x, y, hx⟩ := e2 e he
      exact decodeEntry_fits hd' hx
    exact .map (by rw [e1]; exact hn) (fun e he => (e3 e he).1) fun e he => (e3 e he).2
  · rw [Option.bind_eq_some_iff] at h
    obtain ⟨f, hf, h⟩ := h
    obtain ⟨d', rfl, hd'⟩ := hin f hf
    exact rough_mono (hd' _ _ _ h) (by omega)
  · split at h <;> cases h
    · exact .bool
    · exact .bool
    · exact .null
    · exact .null
    · exact .float
    · exact .float
    · exact .float

theorem decodeItem_fits {d : Nat} {bs r : Bytes} {c : Cbor} (h : decodeItem d bs = some (c, r)) : Rough d c := by
  induction d generalizing bs r c with
  | zero => exact decodeStep_fits (fun f hf => by cases hf) h
  | succ d ih => exact decodeStep_fits (fun f hf => by cases hf; exact ⟨d, rfl, fun _ _ _ h => ih h⟩) h

/-- Whatever the decoder returns is Rust data. -/
theorem Cbor.decode_fits {bs : Bytes} {c : Cbor} (h : Cbor.decode bs = some c) : Rough 127 c := by
  unfold Cbor.decode at h
  split at h
  · cases h
    exact decodeItem_fits (by assumption)
  · cases h

theorem hexDecode_length : ∀ {s : Str} {b : Bytes}, hexDecode s = some b → s.length = 2 * b.length
  | [], b, h => by simp only [hexDecode, Option.some.injEq] at h; rw [← h]; rfl
  | [_], b, h => by simp [hexDecode] at h
  | c :: d :: cs, b, h => by
    unfold hexDecode at h
    split at h
    · rename_i hcs
      cases h
      have := hexDecode_length hcs
      simp only [List.length_cons, this]; omega
    · cases h

theorem validUtf8_ascii {s : Str} (h : ∀ c ∈ s, c < 0x80) : validUtf8 s = true := by
  induction s with
  | nil => rfl
  | cons c cs ih =>
    unfold validUtf8
    rw [if_pos (h c (by simp))]
    exact ih fun x hx => h x (by simp [hx])

theorem lower_lt : ∀ c : UInt8, IsLowerHex c → c < 0x80 := by
  apply forall_u8
  decide +kernel

theorem isText_hexEncode {b : Bytes} (h : 2 * b.length < 2 ^ 64) : IsText (hexEncode b) := by
  refine ⟨validUtf8_ascii fun c hc => ?_, by rw [hexEncode_length]; exact h⟩
  exact lower_lt c (hexEncode_lower b c hc)

theorem fits_hexText {d : Nat} {s : Str} (h : IsText s) {b : Bytes} (hb : hexDecode s = some b) : Fits d (.text (hexEncode b)) := by
  refine .text (isText_hexEncode ?_)
  rw [← hexDecode_length hb]; exact h.2

namespace De

/-- The reader `f` returns only values whose serialized form `w` is Rust data, when it reads decoded data. -/
def Keeps {α : Type} (f : Cbor → DRes α) (w : α → Cbor) : Prop := ∀ d c a, Rough d c → f c = .ok a → Fits d (w a)

variable {α β : Type}

theorem keeps_find {d : Nat} {l : List (Str × Cbor)} {k : Str} {v : Cbor} (hl : ∀ e ∈ l, Rough d e.2) (h : find l k = .ok (some v)) : Rough d v := by
  unfold find at h
  split at h
  · cases h
  · rename_i e he
    cases h
    have : e ∈ l.filter fun e => e.1 == k := by rw [he]; simp
    exact hl e (List.mem_filter.1 this).1
  · cases h

theorem keeps_field {f : Cbor → DRes α} {w : α → Cbor} (hf : Keeps f w) {d : Nat} {l : List (Str × Cbor)} {k : String} {a : α}
    (hl : ∀ e ∈ l, Rough d e.2) (h : field l k f = .ok a) : Fits d (w a) := by
  simp only [field, Res.bind_eq_ok] at h
  obtain ⟨o, ho, h⟩ := h
  cases o with
  | none => cases h
  | some v => exact hf _ _ _ (keeps_find hl ho) h

theorem keeps_fieldOr {f : Cbor → DRes α} {w : α → Cbor} (hf : Keeps f w) {d : Nat} {l : List (Str × Cbor)} {k : String} {a dflt : α}
    (hd : Fits d (w dflt)) (hl : ∀ e ∈ l, Rough d e.2) (h : fieldOr l k dflt f = .ok a) : Fits d (w a) := by
  simp only [fieldOr, Res.bind_eq_ok] at h
  obtain ⟨o, ho, h⟩ := h
  cases o with
  | none => cases h; exact hd
  | some v => exact hf _ _ _ (keeps_find hl ho) h

theorem keeps_fields {d : Nat} {c : Cbor} {l : List (Str × Cbor)} {ns : List String} {k : Nat} (hc : Rough d c) (h : fields ns k c = .ok l) :
    ∃ d', d = d' + 1 ∧ ∀ e ∈ l, Rough d' e.2 := by
  cases c <;> simp only [fields, Res.ok.injEq] at h
  case map l' =>
    subst h
    cases hc with
    | map a b c => exact ⟨_, rfl, c⟩
  case array l' =>
    split at h
    · cases h
      cases hc with
      | array a b => exact ⟨_, rfl, fun e he => b _ (List.of_mem_zip he).2⟩
    · cases h
  all_goals cases h

theorem keeps_uint {n : Nat} {g : Nat → α} {w : α → UInt64} : Keeps (fun c => (uint n c).bind fun n => .ok (g n)) (fun a => .uint (w a)) :=
  fun _ _ _ _ _ => .uint
theorem keeps_u8 : Keeps u8 Cbor.u8 := fun _ _ _ _ _ => .uint
theorem keeps_u16 : Keeps u16 Cbor.u16 := fun _ _ _ _ _ => .uint
theorem keeps_u32 : Keeps u32 Cbor.u32 := fun _ _ _ _ _ => .uint
theorem keeps_u64 : Keeps u64 Cbor.uint := fun _ _ _ _ _ => .uint
theorem keeps_bool : Keeps bool Cbor.bool := fun _ _ _ _ _ => .bool
theorem keeps_text : Keeps text Cbor.text := by
  intro d c a hc h
  cases c <;> simp only [text] at h
  case text s =>
    cases h
    cases hc with
    | text h => exact .text h
  case bytes s =>
    split at h
    · rename_i hu
      cases h
      cases hc with
      | bytes hl => exact .text ⟨hu, hl⟩
    · cases h
  all_goals cases h
theorem keeps_hexBytes : Keeps hexBytes Cbor.bytes := by
  intro d c a hc h
  cases c <;> simp only [hexBytes, Res.ofOption_eq_ok] at h
  case bytes b =>
    cases h
    cases hc with
    | bytes h => exact .bytes h
  case text s =>
    cases hc with
    | text ht =>
      have := hexDecode_length h
      have := ht.2
      exact .bytes (by omega)
  all_goals cases h
theorem keeps_bytes : Keeps bytes Cbor.bytes := keeps_hexBytes
theorem keeps_arr {n : Nat} (hn : n < 2 ^ 64) : Keeps (arr n) (fun b => .bytes b.val) := fun _ _ a _ _ => .bytes (by rw [a.property]; exact hn)
theorem keeps_uuid : Keeps uuid (fun b => .bytes b.val) := fun _ _ a _ _ => .bytes (by rw [a.property]; decide)
theorem keeps_ident : Keeps ident Cbor.ident := fun _ _ a _ _ => .text (isText_hexEncode (by rw [Identifier.toArray_length]; decide))
theorem keeps_ciphertext : Keeps ciphertext (fun c => .bytes c.raw) := by
  intro d c a hc h
  simp only [ciphertext, Res.bind_eq_ok] at h
  obtain ⟨b, hb, h⟩ := h
  cases h
  exact keeps_bytes _ _ _ hc hb
theorem keeps_array {f : Cbor → DRes α} {w : α → Cbor} (hf : Keeps f w) : Keeps (array f) (fun l => .array (l.map w)) := by
  intro d c l hc h
  cases c <;> simp only [array] at h
  case array cs =>
    cases hc with
    | array h1 h2 =>
      rw [Res.mapM'_eq_ok] at h
      have hlen : cs.length = l.length := by simpa using congrArg List.length h
      refine .array (by rw [List.length_map, ← hlen]; exact h1) ?_
      intro c hc
      obtain ⟨a, ha, rfl⟩ := List.mem_map.1 hc
      have : Res.ok a ∈ cs.map f := by rw [h]; exact List.mem_map.2 ⟨a, ha, rfl⟩
      obtain ⟨x, hx, hxa⟩ := List.mem_map.1 this
      exact hf _ _ _ (h2 x hx) hxa
  all_goals cases h
theorem keeps_opt {f : Cbor → DRes α} {w : α → Cbor} (hf : Keeps f w) : Keeps (opt f) (Cbor.opt w) := by
  intro d c o hc h
  cases o with
  | none => exact .null
  | some a =>
    have hh : f c = .ok a := by
      unfold opt at h
      split at h
      · cases h
      · simp only [Res.bind_eq_ok] at h
        obtain ⟨x, hx, h⟩ := h
        cases h
        exact hx
    exact hf _ _ _ hc hh

theorem insertList_sub {κ ν : Type} [DecidableEq κ] (k : κ) (v : ν) (l : List (κ × ν)) :
    (IndexMap.insertList k v l).length ≤ l.length + 1 ∧ ∀ e ∈ IndexMap.insertList k v l, e = (k, v) ∨ e ∈ l := by
  induction l with
  | nil => simp [IndexMap.insertList]
  | cons x xs ih =>
    obtain ⟨k', v'⟩ := x
    unfold IndexMap.insertList
    split
    · refine ⟨by simp, fun e he => ?_⟩
      rcases List.mem_cons.1 he with h | h
      · exact .inl h
      · exact .inr (by simp [h])
    · refine ⟨by simpa using ih.1, fun e he => ?_⟩
      rcases List.mem_cons.1 he with h | h
      · exact .inr (by simp [h])
      · exact (ih.2 e h).imp id fun h => by simp [h]

theorem ofList_sub {κ ν : Type} [DecidableEq κ] (l : List (κ × ν)) :
    (IndexMap.ofList l).entries.length ≤ l.length ∧ ∀ e ∈ (IndexMap.ofList l).entries, e ∈ l := by
  have key : ∀ (l : List (κ × ν)) (acc : IndexMap κ ν), (l.foldl (fun m e => m.insert e.1 e.2) acc).entries.length ≤ acc.entries.length + l.length ∧
      ∀ e ∈ (l.foldl (fun m e => m.insert e.1 e.2) acc).entries, e ∈ acc.entries ∨ e ∈ l := by
    intro l
    induction l with
    | nil => intro acc; exact ⟨by simp, fun e he => .inl he⟩
    | cons x xs ih =>
      intro acc
      obtain ⟨h1, h2⟩ := ih (acc.insert x.1 x.2)
      obtain ⟨g1, g2⟩ := insertList_sub x.1 x.2 acc.entries
      have g1 : (acc.insert x.1 x.2).entries.length ≤ acc.entries.length + 1 := g1
      refine ⟨by rw [List.foldl_cons, List.length_cons]; omega, fun e he => ?_⟩
      rw [List.foldl_cons] at he
      rcases h2 e he with h | h
      · rcases g2 e h with h | h
        · exact .inr (by simp [h])
        · exact .inl h
      · exact .inr (by simp [h])
  obtain ⟨h1, h2⟩ := key l IndexMap.empty
  have h1 : (IndexMap.ofList l).entries.length ≤ 0 + l.length := h1
  refine ⟨by omega, fun e he => ?_⟩
  rcases h2 e he with h | h
  · cases h
  · exact h

theorem keeps_indexMap {f : Cbor → DRes α} {w : α → Cbor} (hf : Keeps f w) : Keeps (indexMap f) (fun m => .map (m.entries.map fun e => (e.1, w e.2))) := by
  intro d c m hc h
  cases c <;> simp only [indexMap] at h
  case map l =>
    cases hc with
    | map h1 h2 h3 =>
      simp only [Res.bind_eq_ok, Res.mapM'_eq_ok] at h
      obtain ⟨es, he, h⟩ := h
      cases h
      obtain ⟨g1, g2⟩ := ofList_sub es
      have hlen : l.length = es.length := by simpa using congrArg List.length he
      have hes : ∀ e ∈ es, ∃ x ∈ l, x.1 = e.1 ∧ f x.2 = .ok e.2 := by
        intro e hm
        have : Res.ok e ∈ l.map (fun e => (f e.2).bind fun v => Res.ok (e.1, v)) := by rw [he]; exact List.mem_map.2 ⟨e, hm, rfl⟩
        obtain ⟨x, hx, hxe⟩ := List.mem_map.1 this
        simp only [Res.bind_eq_ok] at hxe
        obtain ⟨v, hv, hxe⟩ := hxe
        cases hxe
        exact ⟨x, hx, rfl, hv⟩
      refine .map (by rw [List.length_map]; omega) ?_ ?_
      · intro e hm
        obtain ⟨e', he', rfl⟩ := List.mem_map.1 hm
        obtain ⟨x, hx, h4, _⟩ := hes e' (g2 e' he')
        simp only
        rw [← h4]; exact h2 x hx
      · intro e hm
        obtain ⟨e', he', rfl⟩ := List.mem_map.1 hm
        obtain ⟨x, hx, _, h5⟩ := hes e' (g2 e' he')
        exact hf _ _ _ (h3 x hx) h5
  all_goals cases h

theorem jsonList_eq (l : List Cbor) : jsonList l = Res.mapM' json l := by
  induction l with
  | nil => rw [jsonList]; rfl
  | cons c cs ih => rw [jsonList, ih]; rfl

theorem jsonMap_eq (l : List (Str × Cbor)) : jsonMap l = Res.mapM' (fun e => (json e.2).bind fun v => .ok (e.1, v)) l := by
  induction l with
  | nil => rw [jsonMap]; rfl
  | cons e es ih =>
    obtain ⟨k, v⟩ := e
    rw [jsonMap, ih]
    simp only [Res.mapM']
    cases json v <;> rfl

theorem keeps_json : Keeps json (fun c => c) := by
  intro d c a hc
  induction hc generalizing a with
  | uint => intro h; cases h; exact .uint
  | nint hn =>
    intro h
    rw [json, if_pos hn] at h
    cases h
    exact .nint hn
  | bool => intro h; cases h; exact .bool
  | null => intro h; cases h; exact .null
  | float =>
    intro h
    simp only [json, Res.ok.injEq] at h
    subst h
    split
    · exact .float (by assumption)
    · exact .null
  | bytes _ => intro h; cases h
  | text ht => intro h; cases h; exact .text ht
  | @array d l0 h1 _ ih =>
    intro h
    rw [json, jsonList_eq, Res.bind_eq_ok] at h
    obtain ⟨l, hl, h⟩ := h
    cases h
    rw [Res.mapM'_eq_ok] at hl
    refine .array (by rw [← List.length_map (f := Res.ok (ε := DeErr)), ← hl, List.length_map]; exact h1) fun c hc => ?_
    have : Res.ok c ∈ List.map json l0 := by rw [hl]; exact List.mem_map.2 ⟨c, hc, rfl⟩
    obtain ⟨x, hx, hxc⟩ := List.mem_map.1 this
    exact ih x hx _ hxc
  | @map d l h1 h2 _ ih =>
    intro h
    rw [json, jsonMap_eq, Res.bind_eq_ok] at h
    obtain ⟨es, hes, h⟩ := h
    cases h
    rw [Res.mapM'_eq_ok] at hes
    have hlen : l.length = es.length := by simpa using congrArg List.length hes
    obtain ⟨g1, g2⟩ := ofList_sub es
    have hmem : ∀ e ∈ es, ∃ x ∈ l, x.1 = e.1 ∧ json x.2 = .ok e.2 := by
      intro e hm
      have : Res.ok e ∈ l.map (fun e => (json e.2).bind fun v => Res.ok (e.1, v)) := by rw [hes]; exact List.mem_map.2 ⟨e, hm, rfl⟩
      obtain ⟨x, hx, hxe⟩ := List.mem_map.1 this
      simp only [Res.bind_eq_ok] at hxe
      obtain ⟨v, hv, hxe⟩ := hxe
      cases hxe
      exact ⟨x, hx, rfl, hv⟩
    refine .map (by omega) (fun e he => ?_) fun e he => ?_
    · obtain ⟨x, hx, h4, _⟩ := hmem e (g2 e he)
      rw [← h4]; exact h2 x hx
    · obtain ⟨x, hx, _, h5⟩ := hmem e (g2 e he)
      exact ih x hx _ h5

theorem keeps_jsonValue : Keeps jsonValue (fun v => v.val) := by
  intro d c a hc h
  simp only [jsonValue, Res.bind_eq_ok] at h
  obtain ⟨x, hx, h⟩ := h
  split at h
  · cases h; exact keeps_json _ _ _ hc hx
  · cases h

theorem keeps_props : Keeps props Cbor.props := keeps_indexMap keeps_jsonValue

/-- The entries of a written struct. -/
theorem fits_map {d : Nat} {l : List (Str × Cbor)} (ks : List Str) (hk : l.map Prod.fst = ks)
    (hc : (ks.all fun k => validUtf8 k && decide (k.length < 2 ^ 64)) = true) (hl : l.length < 2 ^ 64) (hv : ∀ e ∈ l, Fits d e.2) : Fits (d + 1) (.map l) := by
  refine .map hl (fun e he => ?_) hv
  have : e.1 ∈ ks := by rw [← hk]; exact List.mem_map.2 ⟨e, he, rfl⟩
  have := List.all_eq_true.1 hc _ this
  simp only [Bool.and_eq_true, decide_eq_true_eq] at this
  exact this

theorem keeps_authKey : Keeps (fun v => (hexBytes v).bind fun b => (.ok ⟨b⟩ : DRes AuthPublicKey)) (fun k : AuthPublicKey => .bytes k.raw) := by
  intro d c a hc h
  simp only [Res.bind_eq_ok] at h
  obtain ⟨b, hb, h⟩ := h
  cases h
  exact keeps_hexBytes _ _ _ hc hb

theorem keeps_share : Keeps (fun c => (bytes c).bind fun b => (.ok ⟨b⟩ : DRes DecryptShare)) (fun k : DecryptShare => .bytes k.raw) := by
  intro d c a hc h
  simp only [Res.bind_eq_ok] at h
  obtain ⟨b, hb, h⟩ := h
  cases h
  exact keeps_bytes _ _ _ hc hb

theorem keeps_pair : Keeps share (fun e => .array [.u8 e.1, .bytes e.2.raw]) := by
  intro d c a hc h
  unfold share at h
  split at h
  · simp only [Res.bind_eq_ok] at h
    obtain ⟨i, hi, b, hb, h⟩ := h
    cases h
    cases hc with
    | array _ h2 =>
      refine .array (by simp) ?_
      simp only [List.forall_mem_cons]
      exact ⟨.uint, keeps_hexBytes _ _ _ (h2 _ (by simp)) hb, by simp⟩
  · cases h

theorem keeps_sig : Keeps (fun v => (text v).bind fun s => Res.ofOption (hexDecode s) .malformed) (fun b => .text (hexEncode b)) := by
  intro d c a hc h
  simp only [Res.bind_eq_ok, Res.ofOption_eq_ok] at h
  obtain ⟨s, hs, h⟩ := h
  have := keeps_text _ _ _ hc hs
  cases this with
  | text ht => exact fits_hexText ht h

theorem keeps_propsField {d : Nat} {l : List (Str × Cbor)} {p : Properties} (hl : ∀ e ∈ l, Rough d e.2)
    (h : fieldOr l "properties" IndexMap.empty props = .ok p) : Cbor.propsField p = [] ∨ Fits d (.props p) := by
  simp only [fieldOr, Res.bind_eq_ok] at h
  obtain ⟨o, ho, h⟩ := h
  cases o with
  | none => cases h; exact .inl rfl
  | some v => exact .inr (keeps_props _ _ _ (keeps_find hl ho) h)

theorem fits_map_props {d : Nat} {l : List (Str × Cbor)} {p : Properties} (h : Fits (d + 1) (.map l)) (hl : l.length < 100)
    (hp : Cbor.propsField p = [] ∨ Fits d (.props p)) : Fits (d + 1) (.map (l ++ Cbor.propsField p)) := by
  rcases propsField_eq p with ⟨_, he⟩ | he
  · rw [he, List.append_nil]; exact h
  · rcases hp with hp | hp
    · rw [hp, List.append_nil]; exact h
    · rw [he]
      cases h with
      | map _ h2 h3 =>
        refine .map (by rw [List.length_append, List.length_singleton]; omega) ?_ ?_
        · intro e hm
          rcases List.mem_append.1 hm with hm | hm
          · exact h2 e hm
          · rw [List.mem_singleton.1 hm]; exact (by decide +kernel : validUtf8 (str "properties") = true ∧ (str "properties").length < 2 ^ 64)
        · intro e hm
          rcases List.mem_append.1 hm with hm | hm
          · exact h3 e hm
          · rw [List.mem_singleton.1 hm]; exact hp


theorem keeps_trustee : Keeps trustee Trustee.toCbor := by
  intro d c a hc h
  simp only [trustee, Res.bind_def, Res.bind_eq_ok, Res.pure_def] at h
  obtain ⟨l, hl, a1, ha1, a2, ha2, a3, ha3, a4, ha4, h⟩ := h
  cases h
  obtain ⟨d, rfl, hl⟩ := keeps_fields hc hl
  refine fits_map [str "public_key", str "index"] rfl (by decide +kernel) (by simp) ?_
  simp only [List.forall_mem_cons]
  exact ⟨keeps_field (keeps_arr (by decide)) hl ha1,
    keeps_field keeps_u8 hl ha2, by simp⟩

theorem keeps_authenticator : Keeps authenticator Authenticator.toCbor := by
  intro d c a hc h
  simp only [authenticator, Res.bind_def, Res.bind_eq_ok, Res.pure_def] at h
  obtain ⟨l, hl, a1, ha1, a2, ha2, h⟩ := h
  cases h
  obtain ⟨d, rfl, hl⟩ := keeps_fields hc hl
  refine fits_map [str "id", str "public_keys"] rfl (by decide +kernel) (by simp) ?_
  simp only [List.forall_mem_cons]
  exact ⟨keeps_field keeps_uuid hl ha1,
    keeps_field (keeps_indexMap keeps_authKey) hl ha2, by simp⟩

theorem keeps_authentication : Keeps authentication Authentication.toCbor := by
  intro d c a hc h
  simp only [authentication, Res.bind_def, Res.bind_eq_ok, Res.pure_def] at h
  obtain ⟨l, hl, a1, ha1, a2, ha2, h⟩ := h
  cases h
  obtain ⟨d, rfl, hl⟩ := keeps_fields hc hl
  refine fits_map [str "authenticator", str "signature"] rfl (by decide +kernel) (by simp) ?_
  simp only [List.forall_mem_cons]
  exact ⟨keeps_field keeps_uuid hl ha1,
    keeps_field keeps_sig hl ha2, by simp⟩

theorem keeps_mixConfig : Keeps mixConfig MixConfig.toCbor := by
  intro d c a hc h
  simp only [mixConfig, Res.bind_def, Res.bind_eq_ok, Res.pure_def] at h
  obtain ⟨l, hl, a1, ha1, a2, ha2, h⟩ := h
  cases h
  obtain ⟨d, rfl, hl⟩ := keeps_fields hc hl
  refine fits_map [str "timeout_secs", str "batch_size"] rfl (by decide +kernel) (by simp) ?_
  simp only [List.forall_mem_cons]
  exact ⟨keeps_field keeps_u64 hl ha1,
    keeps_fieldOr (keeps_opt keeps_u16) .null hl ha2, by simp⟩

theorem keeps_ballot : Keeps ballot Ballot.toCbor := by
  intro d c a hc h
  simp only [ballot, Res.bind_def, Res.bind_eq_ok, Res.pure_def] at h
  obtain ⟨l, hl, a1, ha1, a2, ha2, p, hp, h⟩ := h
  cases h
  obtain ⟨d, rfl, hl⟩ := keeps_fields hc hl
  refine fits_map_props ?_ (by simp) (keeps_propsField hl hp)
  refine fits_map [str "id", str "contests"] rfl (by decide +kernel) (by simp) ?_
  simp only [List.forall_mem_cons]
  exact ⟨keeps_field keeps_text hl ha1,
    keeps_field (keeps_array keeps_u32) hl ha2, by simp⟩

theorem keeps_candidate : Keeps candidate Candidate.toCbor := by
  intro d c a hc h
  simp only [candidate, Res.bind_def, Res.bind_eq_ok, Res.pure_def] at h
  obtain ⟨l, hl, a1, ha1, p, hp, h⟩ := h
  cases h
  obtain ⟨d, rfl, hl⟩ := keeps_fields hc hl
  refine fits_map_props ?_ (by simp) (keeps_propsField hl hp)
  refine fits_map [str "id"] rfl (by decide +kernel) (by simp) ?_
  simp only [List.forall_mem_cons]
  exact ⟨keeps_field keeps_text hl ha1, by simp⟩

theorem keeps_contestType : Keeps contestType (fun t => .text t.name) := by
  intro d c a hc h
  refine .text ?_
  have : ∀ t : ContestType, validUtf8 t.name = true ∧ t.name.length < 2 ^ 64 := by
    intro t; cases t <;> exact ⟨by decide +kernel, by decide +kernel⟩
  exact this a

theorem keeps_contest : Keeps contest Contest.toCbor := by
  intro d c a hc h
  simp only [contest, Res.bind_def, Res.bind_eq_ok, Res.pure_def] at h
  obtain ⟨l, hl, a1, ha1, a2, ha2, a3, ha3, a4, ha4, a5, ha5, a6, ha6, p, hp, h⟩ := h
  cases h
  obtain ⟨d, rfl, hl⟩ := keeps_fields hc hl
  refine fits_map_props ?_ (by simp) (keeps_propsField hl hp)
  refine fits_map [str "id", str "index", str "contest_type", str "num_winners", str "write_in", str "candidates"] rfl (by decide +kernel) (by simp) ?_
  simp only [List.forall_mem_cons]
  exact ⟨keeps_field keeps_text hl ha1,
    keeps_field keeps_u32 hl ha2,
    keeps_field keeps_contestType hl ha3,
    keeps_field keeps_u32 hl ha4,
    keeps_field keeps_bool hl ha5,
    keeps_field (keeps_array keeps_candidate) hl ha6, by simp⟩

theorem keeps_selection : Keeps selection Selection.toCbor := by
  intro d c a hc h
  simp only [selection, Res.bind_def, Res.bind_eq_ok, Res.pure_def] at h
  obtain ⟨l, hl, a1, ha1, a2, ha2, a3, ha3, h⟩ := h
  cases h
  obtain ⟨d, rfl, hl⟩ := keeps_fields hc hl
  refine fits_map [str "write_in", str "score", str "selection"] rfl (by decide +kernel) (by simp) ?_
  simp only [List.forall_mem_cons]
  exact ⟨keeps_fieldOr keeps_bool .bool hl ha1,
    keeps_fieldOr keeps_u32 .uint hl ha2,
    keeps_field keeps_text hl ha3, by simp⟩

theorem keeps_encryptedVote : Keeps encryptedVote EncryptedVote.toCbor := by
  intro d c a hc h
  simp only [encryptedVote, Res.bind_def, Res.bind_eq_ok, Res.pure_def] at h
  obtain ⟨l, hl, a1, ha1, a2, ha2, h⟩ := h
  cases h
  obtain ⟨d, rfl, hl⟩ := keeps_fields hc hl
  refine fits_map [str "contest_index", str "selections"] rfl (by decide +kernel) (by simp) ?_
  simp only [List.forall_mem_cons]
  exact ⟨keeps_field keeps_u32 hl ha1,
    keeps_field (keeps_array keeps_ciphertext) hl ha2, by simp⟩

theorem keeps_election : Keeps election ElectionTx.toCbor := by
  intro d c a hc h
  simp only [election, Res.bind_def, Res.bind_eq_ok, Res.pure_def] at h
  obtain ⟨l, hl, a1, ha1, a2, ha2, a3, ha3, a4, ha4, a5, ha5, a6, ha6, a7, ha7, a8, ha8, a9, ha9, a10, ha10, h⟩ := h
  cases h
  obtain ⟨d, rfl, hl⟩ := keeps_fields hc hl
  have hd : Fits d (Cbor.props IndexMap.empty) := by
    have := keeps_field (keeps_array keeps_trustee) hl ha3
    cases this with
    | array => exact .map (by decide) (by intro e he; cases he) (by intro e he; cases he)
  refine fits_map [str "id", str "authority_public", str "trustees", str "trustees_threshold", str "authenticators", str "authenticators_threshold", str "mix_config", str "ballots", str "contests", str "properties"] rfl (by decide +kernel) (by simp) ?_
  simp only [List.forall_mem_cons]
  exact ⟨keeps_field keeps_ident hl ha1,
    keeps_field (keeps_arr (by decide)) hl ha2,
    keeps_field (keeps_array keeps_trustee) hl ha3,
    keeps_field keeps_u8 hl ha4,
    keeps_field (keeps_array keeps_authenticator) hl ha5,
    keeps_field keeps_u8 hl ha6,
    keeps_fieldOr (keeps_opt keeps_mixConfig) .null hl ha7,
    keeps_field (keeps_array keeps_ballot) hl ha8,
    keeps_field (keeps_array keeps_contest) hl ha9,
    keeps_fieldOr keeps_props hd hl ha10, by simp⟩

theorem keeps_keyGenCommitment : Keeps keyGenCommitment KeyGenCommitmentTx.toCbor := by
  intro d c a hc h
  simp only [keyGenCommitment, Res.bind_def, Res.bind_eq_ok, Res.pure_def] at h
  obtain ⟨l, hl, a1, ha1, a2, ha2, a3, ha3, a4, ha4, a5, ha5, a6, ha6, h⟩ := h
  cases h
  obtain ⟨d, rfl, hl⟩ := keeps_fields hc hl
  refine fits_map [str "id", str "election", str "trustee_index", str "trustee_public_key", str "x25519_public_key", str "commitment"] rfl (by decide +kernel) (by simp) ?_
  simp only [List.forall_mem_cons]
  exact ⟨keeps_field keeps_ident hl ha1,
    keeps_field keeps_ident hl ha2,
    keeps_field keeps_u8 hl ha3,
    keeps_field (keeps_arr (by decide)) hl ha4,
    keeps_field (keeps_arr (by decide)) hl ha5,
    keeps_field keeps_bytes hl ha6, by simp⟩

theorem keeps_keyGenShare : Keeps keyGenShare KeyGenShareTx.toCbor := by
  intro d c a hc h
  simp only [keyGenShare, Res.bind_def, Res.bind_eq_ok, Res.pure_def] at h
  obtain ⟨l, hl, a1, ha1, a2, ha2, a3, ha3, a4, ha4, a5, ha5, h⟩ := h
  cases h
  obtain ⟨d, rfl, hl⟩ := keeps_fields hc hl
  refine fits_map [str "id", str "election", str "trustee_index", str "trustee_public_key", str "shares"] rfl (by decide +kernel) (by simp) ?_
  simp only [List.forall_mem_cons]
  refine ⟨keeps_field keeps_ident hl ha1, keeps_field keeps_ident hl ha2, keeps_field keeps_u8 hl ha3, keeps_field (keeps_arr (by decide)) hl ha4, ?_, by simp⟩
  have := keeps_field (keeps_array keeps_pair) hl ha5
  obtain ⟨g1, g2⟩ := ofList_sub a5
  cases this with
  | array h1 h2 =>
    rw [List.length_map] at h1
    refine .array (by rw [List.length_map]; omega) ?_
    intro c hc
    obtain ⟨e, he, rfl⟩ := List.mem_map.1 hc
    exact h2 _ (List.mem_map.2 ⟨e, g2 e he, rfl⟩)

theorem keeps_keyGenPublicKey : Keeps keyGenPublicKey KeyGenPublicKeyTx.toCbor := by
  intro d c a hc h
  simp only [keyGenPublicKey, Res.bind_def, Res.bind_eq_ok, Res.pure_def] at h
  obtain ⟨l, hl, a1, ha1, a2, ha2, a3, ha3, a4, ha4, a5, ha5, a6, ha6, h⟩ := h
  cases h
  obtain ⟨d, rfl, hl⟩ := keeps_fields hc hl
  refine fits_map [str "id", str "election", str "trustee_index", str "trustee_public_key", str "public_key", str "public_key_proof"] rfl (by decide +kernel) (by simp) ?_
  simp only [List.forall_mem_cons]
  exact ⟨keeps_field keeps_ident hl ha1,
    keeps_field keeps_ident hl ha2,
    keeps_field keeps_u8 hl ha3,
    keeps_field (keeps_arr (by decide)) hl ha4,
    keeps_field keeps_bytes hl ha5,
    keeps_field keeps_bytes hl ha6, by simp⟩

theorem keeps_encryptionKey : Keeps encryptionKey EncryptionKeyTx.toCbor := by
  intro d c a hc h
  simp only [encryptionKey, Res.bind_def, Res.bind_eq_ok, Res.pure_def] at h
  obtain ⟨l, hl, a1, ha1, a2, ha2, a3, ha3, a4, ha4, h⟩ := h
  cases h
  obtain ⟨d, rfl, hl⟩ := keeps_fields hc hl
  refine fits_map [str "id", str "election", str "authority_public_key", str "encryption_key"] rfl (by decide +kernel) (by simp) ?_
  simp only [List.forall_mem_cons]
  exact ⟨keeps_field keeps_ident hl ha1,
    keeps_field keeps_ident hl ha2,
    keeps_field (keeps_arr (by decide)) hl ha3,
    keeps_field keeps_bytes hl ha4, by simp⟩

theorem keeps_vote : Keeps vote VoteTx.toCbor := by
  intro d c a hc h
  simp only [vote, Res.bind_def, Res.bind_eq_ok, Res.pure_def] at h
  obtain ⟨l, hl, a1, ha1, a2, ha2, a3, ha3, a4, ha4, a5, ha5, a6, ha6, h⟩ := h
  cases h
  obtain ⟨d, rfl, hl⟩ := keeps_fields hc hl
  refine fits_map [str "id", str "election", str "ballot_id", str "encrypted_votes", str "anonymous_key", str "authentication"] rfl (by decide +kernel) (by simp) ?_
  simp only [List.forall_mem_cons]
  exact ⟨keeps_field keeps_ident hl ha1,
    keeps_field keeps_ident hl ha2,
    keeps_field keeps_text hl ha3,
    keeps_field (keeps_array keeps_encryptedVote) hl ha4,
    keeps_field (keeps_arr (by decide)) hl ha5,
    keeps_field (keeps_array keeps_authentication) hl ha6, by simp⟩

theorem keeps_votingEnd : Keeps votingEnd VotingEndTx.toCbor := by
  intro d c a hc h
  simp only [votingEnd, Res.bind_def, Res.bind_eq_ok, Res.pure_def] at h
  obtain ⟨l, hl, a1, ha1, a2, ha2, a3, ha3, h⟩ := h
  cases h
  obtain ⟨d, rfl, hl⟩ := keeps_fields hc hl
  refine fits_map [str "id", str "election", str "authority_public_key"] rfl (by decide +kernel) (by simp) ?_
  simp only [List.forall_mem_cons]
  exact ⟨keeps_field keeps_ident hl ha1,
    keeps_field keeps_ident hl ha2,
    keeps_field (keeps_arr (by decide)) hl ha3, by simp⟩

theorem keeps_mix : Keeps mix MixTx.toCbor := by
  intro d c a hc h
  simp only [mix, Res.bind_def, Res.bind_eq_ok, Res.pure_def] at h
  obtain ⟨l, hl, a1, ha1, a2, ha2, a3, ha3, a4, ha4, a5, ha5, a6, ha6, a7, ha7, a8, ha8, a9, ha9, a10, ha10, a11, ha11, h⟩ := h
  cases h
  obtain ⟨d, rfl, hl⟩ := keeps_fields hc hl
  refine fits_map [str "id", str "election_id", str "prev_mix_id", str "trustee_index", str "trustee_public_key", str "mix_index", str "contest_index", str "batch", str "vote_ids", str "mixed_ciphertexts", str "proof"] rfl (by decide +kernel) (by simp) ?_
  simp only [List.forall_mem_cons]
  exact ⟨keeps_field keeps_ident hl ha1,
    keeps_field keeps_ident hl ha2,
    keeps_fieldOr (keeps_opt keeps_ident) .null hl ha3,
    keeps_field keeps_u8 hl ha4,
    keeps_field (keeps_arr (by decide)) hl ha5,
    keeps_field keeps_u8 hl ha6,
    keeps_field keeps_u32 hl ha7,
    keeps_field keeps_u32 hl ha8,
    keeps_field (keeps_array keeps_ident) hl ha9,
    keeps_field (keeps_array (keeps_array keeps_ciphertext)) hl ha10,
    keeps_field keeps_bytes hl ha11, by simp⟩

theorem keeps_partialDecryption : Keeps partialDecryption PartialDecryptionTx.toCbor := by
  intro d c a hc h
  simp only [partialDecryption, Res.bind_def, Res.bind_eq_ok, Res.pure_def] at h
  obtain ⟨l, hl, a1, ha1, a2, ha2, a3, ha3, a4, ha4, a5, ha5, a6, ha6, a7, ha7, a8, ha8, h⟩ := h
  cases h
  obtain ⟨d, rfl, hl⟩ := keeps_fields hc hl
  refine fits_map [str "id", str "election_id", str "upstream_id", str "upstream_index", str "contest_index", str "trustee_index", str "trustee_public_key", str "partial_decryption"] rfl (by decide +kernel) (by simp) ?_
  simp only [List.forall_mem_cons]
  exact ⟨keeps_field keeps_ident hl ha1,
    keeps_field keeps_ident hl ha2,
    keeps_field keeps_ident hl ha3,
    keeps_field keeps_u16 hl ha4,
    keeps_field keeps_u32 hl ha5,
    keeps_field keeps_u8 hl ha6,
    keeps_field (keeps_arr (by decide)) hl ha7,
    keeps_field (keeps_array keeps_share) hl ha8, by simp⟩

theorem keeps_decryption : Keeps decryption DecryptionTx.toCbor := by
  intro d c a hc h
  simp only [decryption, Res.bind_def, Res.bind_eq_ok, Res.pure_def] at h
  obtain ⟨l, hl, a1, ha1, a2, ha2, a3, ha3, a4, ha4, a5, ha5, a6, ha6, a7, ha7, h⟩ := h
  cases h
  obtain ⟨d, rfl, hl⟩ := keeps_fields hc hl
  refine fits_map [str "id", str "election_id", str "upstream_id", str "upstream_index", str "contest_index", str "trustees", str "decrypted_vote"] rfl (by decide +kernel) (by simp) ?_
  simp only [List.forall_mem_cons]
  exact ⟨keeps_field keeps_ident hl ha1,
    keeps_field keeps_ident hl ha2,
    keeps_field keeps_ident hl ha3,
    keeps_field keeps_u16 hl ha4,
    keeps_field keeps_u32 hl ha5,
    keeps_field (keeps_array keeps_u8) hl ha6,
    keeps_field (keeps_array keeps_selection) hl ha7, by simp⟩

theorem keeps_signed {T : Type} {f : Cbor → DRes T} {w : T → Cbor} (hf : Keeps f w) (ty : TxType) : Keeps (signed f) (fun s => s.cborFields w ty) := by
  intro d c s hc h
  simp only [signed, Res.bind_def, Res.bind_eq_ok, Res.pure_def] at h
  obtain ⟨l, hl, a1, h1, a2, h2, h⟩ := h
  cases h
  obtain ⟨d, rfl, hl⟩ := keeps_fields hc hl
  refine fits_map [str "type", str "tx", str "sig"] rfl (by decide +kernel) (by simp) ?_
  simp only [List.forall_mem_cons]
  refine ⟨.text ?_, keeps_field hf hl h1, keeps_field (keeps_arr (by decide)) hl h2, by simp⟩
  cases ty <;> exact ⟨by decide +kernel, by decide +kernel⟩

theorem rough_tagged {d : Nat} {c : Cbor} {x : Str × Cbor} (hc : Rough d c) (h : tagged c = .ok x) : Rough d x.2 := by
  unfold tagged at h
  split at h
  · rw [Res.bind_eq_ok] at h
    obtain ⟨ty, _, h⟩ := h
    cases h
    cases hc with
    | map h1 h2 h3 =>
      exact .map (Nat.lt_of_le_of_lt (List.length_filter_le _ _) h1) (fun e he => h2 e (List.mem_filter.1 he).1) fun e he => h3 e (List.mem_filter.1 he).1
  · rw [Res.bind_eq_ok] at h
    obtain ⟨ty, _, h⟩ := h
    cases h
    cases hc with
    | array h1 h2 => exact .array (by rw [List.length_cons] at h1; omega) fun c hc => h2 c (List.mem_cons_of_mem _ hc)
  · cases h

theorem keeps_signedTx : Keeps signedTx SignedTx.toCbor := by
  intro d c a hc h
  simp only [signedTx, Res.bind_def, Res.bind_eq_ok] at h
  obtain ⟨⟨ty, l⟩, hl, h⟩ := h
  have hr : Rough d l := rough_tagged hc hl
  dsimp only at h
  split at h
  · obtain ⟨s, hs, h⟩ := (Res.bind_eq_ok ..).1 h
    cases h
    exact keeps_signed keeps_election _ _ _ _ hr hs
  split at h
  · obtain ⟨s, hs, h⟩ := (Res.bind_eq_ok ..).1 h
    cases h
    exact keeps_signed keeps_keyGenCommitment _ _ _ _ hr hs
  split at h
  · obtain ⟨s, hs, h⟩ := (Res.bind_eq_ok ..).1 h
    cases h
    exact keeps_signed keeps_keyGenShare _ _ _ _ hr hs
  split at h
  · obtain ⟨s, hs, h⟩ := (Res.bind_eq_ok ..).1 h
    cases h
    exact keeps_signed keeps_keyGenPublicKey _ _ _ _ hr hs
  split at h
  · obtain ⟨s, hs, h⟩ := (Res.bind_eq_ok ..).1 h
    cases h
    exact keeps_signed keeps_encryptionKey _ _ _ _ hr hs
  split at h
  · obtain ⟨s, hs, h⟩ := (Res.bind_eq_ok ..).1 h
    cases h
    exact keeps_signed keeps_vote _ _ _ _ hr hs
  split at h
  · obtain ⟨s, hs, h⟩ := (Res.bind_eq_ok ..).1 h
    cases h
    exact keeps_signed keeps_votingEnd _ _ _ _ hr hs
  split at h
  · obtain ⟨s, hs, h⟩ := (Res.bind_eq_ok ..).1 h
    cases h
    exact keeps_signed keeps_mix _ _ _ _ hr hs
  split at h
  · obtain ⟨s, hs, h⟩ := (Res.bind_eq_ok ..).1 h
    cases h
    exact keeps_signed keeps_partialDecryption _ _ _ _ hr hs
  split at h
  · obtain ⟨s, hs, h⟩ := (Res.bind_eq_ok ..).1 h
    cases h
    exact keeps_signed keeps_decryption _ _ _ _ hr hs
  cases h

end De

/-- Whatever is decoded is Rust data, so it can be encoded and decoded again. -/
theorem rustData_of_fromBytes {bs : Bytes} {t : SignedTx} (h : SignedTx.fromBytes bs = .ok t) : RustData t := by
  simp only [SignedTx.fromBytes, Res.bind_eq_ok, Res.ofOption_eq_ok] at h
  obtain ⟨c, hc, h⟩ := h
  exact De.keeps_signedTx _ _ _ (Cbor.decode_fits hc) h

end CB
