import Verif.Spec.Json
import Verif.Lemmas.Serde
import Mathlib.Tactic.Ring
import Mathlib.Tactic.IntervalCases
/-!
# Reading JSON inverts writing it
-/

namespace CB
namespace Json
open Spec

/-! ## White space and what may follow a value -/

theorem skipWs_append {w : Bytes} (h : ∀ b ∈ w, isWs b = true) (bs : Bytes) : skipWs (w ++ bs) = skipWs bs := by
  induction w with
  | nil => rfl
  | cons b w ih =>
    unfold skipWs
    rw [List.cons_append, List.dropWhile_cons_of_pos (h b List.mem_cons_self)]
    exact ih fun x hx => h x (List.mem_cons_of_mem _ hx)

theorem skipWs_cons {b : UInt8} (h : isWs b = false) (bs : Bytes) : skipWs (b :: bs) = b :: bs := by
  unfold skipWs
  rw [List.dropWhile_cons_of_neg (by simp [h])]

theorem line_ws (L : Layout) (k : Nat) : ∀ b ∈ L.line k, isWs b = true := by
  intro b hb
  cases L with
  | compact => cases hb
  | pretty =>
    simp only [Layout.line, List.mem_cons, List.mem_replicate] at hb
    rcases hb with rfl | ⟨_, rfl⟩ <;> rfl

/-- What may follow a value. -/
def Sep (r : Bytes) : Prop := ∀ b, r.head? = some b → isWs b = true ∨ b = 0x2c ∨ b = 0x5d ∨ b = 0x7d

theorem Sep.nil : Sep [] := by intro b h; cases h
theorem Sep.cons {b : UInt8} (h : isWs b = true ∨ b = 0x2c ∨ b = 0x5d ∨ b = 0x7d) (r : Bytes) : Sep (b :: r) := by
  intro c hc
  cases hc
  exact h
theorem Sep.ws {w r : Bytes} (h : ∀ b ∈ w, isWs b = true) (hr : Sep r) : Sep (w ++ r) := by
  cases w with
  | nil => exact hr
  | cons b w => exact .cons (.inl (h b List.mem_cons_self)) _

/-! ## Numbers -/

theorem digitsFrom_spec (f n : Nat) (hn : n < 10 ^ f) (hf : 0 < f) :
    ∃ ds : Bytes, (∀ acc, digitsFrom f n acc = ds ++ acc) ∧ (∀ b ∈ ds, isDigit b = true) ∧ ds ≠ [] ∧
      (∀ x, ds.foldl (fun n d => 10 * n + (d.toNat - 48)) x = x * 10 ^ ds.length + n) ∧ (ds.head? = some 0x30 → n = 0 ∧ ds.length = 1) := by
  induction f generalizing n with
  | zero => omega
  | succ f ih =>
    have dig : ∀ m, m < 10 → isDigit (UInt8.ofNat (48 + m)) = true ∧ (UInt8.ofNat (48 + m)).toNat - 48 = m ∧ (UInt8.ofNat (48 + m) = 0x30 → m = 0) := by
      decide
    by_cases h : n < 10
    · refine ⟨[UInt8.ofNat (48 + n)], ?_, ?_, by simp, ?_, ?_⟩
      · intro acc; simp [digitsFrom, h]
      · intro b hb
        rw [List.mem_singleton] at hb
        rw [hb]; exact (dig n h).1
      · intro x
        simp only [List.foldl_cons, List.foldl_nil, (dig n h).2.1, List.length_singleton, pow_one]
        ring
      · intro hd
        simp only [List.head?_cons, Option.some.injEq] at hd
        exact ⟨(dig n h).2.2 hd, rfl⟩
    · have hf' : 0 < f := by
        rcases Nat.eq_zero_or_pos f with rfl | h'
        · simp at hn; omega
        · exact h'
      obtain ⟨ds, h1, h2, h3, h4, h5⟩ := ih (n / 10) (by rw [Nat.pow_succ] at hn; omega) hf'
      have hd := dig (n % 10) (Nat.mod_lt _ (by omega))
      refine ⟨ds ++ [UInt8.ofNat (48 + n % 10)], ?_, ?_, by simp, ?_, ?_⟩
      · intro acc
        rw [digitsFrom, if_neg h, h1]
        simp
      · intro b hb
        rw [List.mem_append, List.mem_singleton] at hb
        rcases hb with hb | rfl
        · exact h2 b hb
        · exact hd.1
      · intro x
        rw [List.foldl_append, h4, List.foldl_cons, List.foldl_nil, hd.2.1, List.length_append, List.length_singleton, pow_succ]
        have : n = 10 * (n / 10) + n % 10 := by omega
        generalize 10 ^ ds.length = y
        have e : 10 * (x * y + n / 10) + n % 10 = x * (y * 10) + (10 * (n / 10) + n % 10) := by ring
        rw [e, ← this]
      · intro hh
        have hh' : ds.head? = some 0x30 := by
          cases ds with
          | nil => exact absurd rfl h3
          | cons d ds => simpa using hh
        have := (h5 hh').1
        omega

theorem readDigits_digits {n : Nat} (hn : n < 10 ^ 20) {r : Bytes} (hr : Sep r) : readDigits (digits n ++ r) = some (n, r) := by
  obtain ⟨ds, h1, h2, h3, h4, h5⟩ := digitsFrom_spec 20 n hn (by omega)
  have e : digits n = ds := by rw [digits, h1, List.append_nil]
  have hnd : ∀ b, r.head? = some b → isDigit b = false ∧ ¬ (b = 0x2e ∨ b = 0x65 ∨ b = 0x45) := by
    intro b hb
    have key : ∀ b : UInt8, (isWs b = true ∨ b = 0x2c ∨ b = 0x5d ∨ b = 0x7d) → isDigit b = false ∧ ¬ (b = 0x2e ∨ b = 0x65 ∨ b = 0x45) := by
      intro b hb
      simp only [isWs, Bool.or_eq_true, beq_iff_eq] at hb
      rcases hb with ((((rfl | rfl) | rfl) | rfl) | rfl | rfl | rfl) <;> decide
    exact key b (hr b hb)
  have ht : (ds ++ r).takeWhile isDigit = ds := by
    rw [List.takeWhile_append_of_pos h2]
    cases r with
    | nil => simp
    | cons b r => simp [(hnd b rfl).1]
  have hd : (ds ++ r).dropWhile isDigit = r := by
    rw [List.dropWhile_append_of_pos h2]
    cases r with
    | nil => simp
    | cons b r => simp [(hnd b rfl).1]
  have hv : ofDigits ds = n := by rw [ofDigits, h4]; simp
  unfold readDigits
  rw [e]
  simp only [ht, hd, hv]
  rw [if_neg (by simp [h3]), if_neg (by rintro ⟨h, h'⟩; exact h' (h5 h).2)]
  cases r with
  | nil => rfl
  | cons b r => simp only [(hnd b rfl).2, if_false]

theorem digits_head {n : Nat} (hn : n < 10 ^ 20) : ∃ b bs, digits n = b :: bs ∧ isDigit b = true := by
  obtain ⟨ds, h1, h2, h3, -, -⟩ := digitsFrom_spec 20 n hn (by omega)
  have e : digits n = ds := by rw [digits, h1, List.append_nil]
  rw [e]
  cases ds with
  | nil => exact absurd rfl h3
  | cons b bs => exact ⟨b, bs, rfl, h2 b List.mem_cons_self⟩

/-! ## Strings -/

theorem readChars_escape (s : Str) (r : Bytes) : ∀ f, s.length < f → readChars f (s.flatMap escape ++ 0x22 :: r) = some (s, r) := by
  induction s with
  | nil =>
    intro f hf
    obtain ⟨f, rfl⟩ : ∃ k, f = k + 1 := ⟨f - 1, by simp at hf; omega⟩
    simp [readChars]
  | cons b s ih =>
    intro f hf
    obtain ⟨f, rfl⟩ : ∃ k, f = k + 1 := ⟨f - 1, by simp at hf; omega⟩
    have ih := ih f (by simp at hf; omega)
    rw [List.flatMap_cons, List.append_assoc]
    generalize s.flatMap escape ++ 0x22 :: r = tl at ih ⊢
    have esc : ∀ e : Bytes, escape b = 0x5c :: e → (∀ tl, readEscape (e ++ tl) = some ([b], tl)) → readChars (f + 1) (escape b ++ tl) = some (b :: s, r) := by
      intro e h1 h2
      rw [h1, List.cons_append, readChars, if_neg (by decide), if_pos rfl, h2]
      simp [ih]
    by_cases h0 : b = 0x22
    · subst h0; exact esc [0x22] rfl fun _ => rfl
    by_cases h1 : b = 0x5c
    · subst h1; exact esc [0x5c] rfl fun _ => rfl
    by_cases hc : b < 0x20
    · have key : ∀ n < 32, ∀ tl, escape (UInt8.ofNat n) = 0x5c :: (escape (UInt8.ofNat n)).tail ∧
          readEscape ((escape (UInt8.ofNat n)).tail ++ tl) = some ([UInt8.ofNat n], tl) := by
        intro n hn tl
        interval_cases n <;> exact ⟨rfl, rfl⟩
      have key := key b.toNat (by simpa using UInt8.lt_iff_toNat_lt.1 hc)
      rw [UInt8.ofNat_toNat] at key
      exact esc _ (key []).1 fun tl => (key tl).2
    · have he : escape b = [b] := by
        have h2 : b ≠ 0x08 ∧ b ≠ 0x09 ∧ b ≠ 0x0a ∧ b ≠ 0x0c ∧ b ≠ 0x0d := by
          refine ⟨?_, ?_, ?_, ?_, ?_⟩ <;> (rintro rfl; exact hc (by decide))
        simp [escape, h0, h1, h2, hc]
      rw [he, List.singleton_append, readChars, if_neg h0, if_neg h1, if_neg hc, ih]
      rfl

theorem length_flatMap_escape (s : Str) : s.length ≤ (s.flatMap escape).length := by
  induction s with
  | nil => simp
  | cons b s ih =>
    have : 1 ≤ (escape b).length := by
      unfold escape
      repeat' split
      all_goals simp
    simp only [List.flatMap_cons, List.length_append, List.length_cons]
    omega

theorem readStr_escape {s : Str} (h : validUtf8 s = true) (r : Bytes) : readStr (s.flatMap escape ++ 0x22 :: r) = some (s, r) := by
  unfold readStr
  rw [readChars_escape s r _ (by have := length_flatMap_escape s; simp only [List.length_append, List.length_cons]; omega)]
  simp [h]

theorem quoted_append (s : Str) (r : Bytes) : quoted s ++ r = 0x22 :: (s.flatMap escape ++ 0x22 :: r) := by
  simp [quoted]

/-! ## Containers -/

theorem readItems_list {α : Type} {close : UInt8} {item : Bytes → Option (α × Bytes)} {enc : α → Bytes} {w w' : Bytes}
    (hclose : close = 0x5d ∨ close = 0x7d) (hw' : ∀ b ∈ w', isWs b = true) (r : Bytes) (as : List α) :
    ∀ a f, (∀ x ∈ a :: as, ∀ r, Sep r → item (enc x ++ r) = some (x, r)) → (∀ bs, item (w ++ bs) = item bs) → as.length < f →
      readItems close item f (enc a ++ (as.flatMap (fun x => 0x2c :: (w ++ enc x)) ++ (w' ++ close :: r))) = some (a :: as, r) := by
  have hcw : isWs close = false := by rcases hclose with rfl | rfl <;> rfl
  have hcc : close ≠ 0x2c := by rcases hclose with rfl | rfl <;> decide
  have hs : Sep (w' ++ close :: r) := .ws hw' (.cons (by rcases hclose with rfl | rfl <;> simp) _)
  induction as with
  | nil =>
    intro a f h _ hf
    obtain ⟨f, rfl⟩ : ∃ k, f = k + 1 := ⟨f - 1, by simp at hf; omega⟩
    rw [List.flatMap_nil, List.nil_append, readItems, h a List.mem_cons_self _ hs]
    simp [skipWs_append hw', skipWs_cons hcw]
  | cons b as ih =>
    intro a f h hi hf
    obtain ⟨f, rfl⟩ : ∃ k, f = k + 1 := ⟨f - 1, by simp at hf; omega⟩
    have ih := ih b f (fun x hx => h x (List.mem_cons_of_mem _ hx)) hi (by simp at hf; omega)
    rw [List.flatMap_cons, List.append_assoc, List.cons_append, List.append_assoc]
    rw [readItems, h a List.mem_cons_self _ (.cons (by simp) _)]
    simp only [Option.bind_some]
    rw [skipWs_cons (by rfl)]
    have hws : ∀ g bs, readItems close item g (w ++ bs) = readItems close item g bs := by
      intro g bs
      cases g with
      | zero => rfl
      | succ g => rw [readItems, readItems, hi]
    simp only [hcc.symm, if_false, if_true, hws, ih]
    rfl

theorem readContainer_nil {α : Type} {close : UInt8} {item : Bytes → Option (α × Bytes)} (hclose : close = 0x5d ∨ close = 0x7d) (r : Bytes) :
    readContainer close item (close :: r) = some ([], r) := by
  have hcw : isWs close = false := by rcases hclose with rfl | rfl <;> rfl
  simp [readContainer, skipWs_cons hcw]

theorem readContainer_cons {α : Type} {close : UInt8} {item : Bytes → Option (α × Bytes)} {enc : α → Bytes} {w w' : Bytes}
    (hclose : close = 0x5d ∨ close = 0x7d) (hw : ∀ b ∈ w, isWs b = true) (hw' : ∀ b ∈ w', isWs b = true) (r : Bytes) (a : α) (as : List α)
    (h : ∀ x ∈ a :: as, ∀ r, Sep r → item (enc x ++ r) = some (x, r)) (hi : ∀ bs, item (w ++ bs) = item bs)
    (hne : ∃ b bs, enc a = b :: bs ∧ isWs b = false ∧ b ≠ close) :
    readContainer close item (w ++ (enc a ++ (as.flatMap (fun x => 0x2c :: (w ++ enc x)) ++ (w' ++ close :: r)))) = some (a :: as, r) := by
  obtain ⟨b, bs, he, hb, hbc⟩ := hne
  have key := readItems_list hclose hw' r as a ((w ++ (enc a ++ (as.flatMap (fun x => 0x2c :: (w ++ enc x)) ++ (w' ++ close :: r)))).length + 1) h hi (by
    have : as.length ≤ (as.flatMap (fun x => 0x2c :: (w ++ enc x))).length := by
      clear h
      induction as with
      | nil => simp
      | cons x as ih => simp only [List.flatMap_cons, List.length_append, List.length_cons]; omega
    simp only [List.length_append, List.length_cons]
    omega)
  unfold readContainer
  rw [skipWs_append hw]
  generalize hz : as.flatMap (fun x => 0x2c :: (w ++ enc x)) ++ (w' ++ close :: r) = z at key ⊢
  rw [he, List.cons_append] at key ⊢
  rw [skipWs_cons hb]
  simp only [hbc, if_false]
  exact key

/-! ## Values -/

theorem writeItems_eq (L : Layout) (k : Nat) (l : List Cbor) : writeItems L k l = l.flatMap fun c => 0x2c :: (L.line k ++ write L k c) := by
  induction l with
  | nil => rw [writeItems]; rfl
  | cons c cs ih => rw [writeItems, ih]; simp

/-- An entry of an object. -/
def writeEntry (L : Layout) (k : Nat) (e : Str × Cbor) : Bytes := quoted e.1 ++ L.colon ++ write L k e.2

theorem writeEntries_eq (L : Layout) (k : Nat) (l : List (Str × Cbor)) : writeEntries L k l = l.flatMap fun e => 0x2c :: (L.line k ++ writeEntry L k e) := by
  induction l with
  | nil => rw [writeEntries]; rfl
  | cons c cs ih => obtain ⟨n, c⟩ := c; rw [writeEntries, ih]; simp [writeEntry]

theorem readStep_ws (inner : Option (Bytes → Option (Cbor × Bytes))) {w : Bytes} (h : ∀ b ∈ w, isWs b = true) (bs : Bytes) :
    readStep inner (w ++ bs) = readStep inner bs := by
  unfold readStep
  rw [skipWs_append h]

theorem readValue_ws (d : Nat) {w : Bytes} (h : ∀ b ∈ w, isWs b = true) (bs : Bytes) : readValue d (w ++ bs) = readValue d bs := by
  cases d <;> exact readStep_ws _ h bs

theorem readEntry_ws (item : Bytes → Option (Cbor × Bytes)) {w : Bytes} (h : ∀ b ∈ w, isWs b = true) (bs : Bytes) : readEntry item (w ++ bs) = readEntry item bs := by
  unfold readEntry readKey
  rw [skipWs_append h]

/-- The first byte of a written value. -/
theorem write_head (L : Layout) {d : Nat} {c : Cbor} (h : JsonFits d c) (k : Nat) : ∃ b bs, write L k c = b :: bs ∧ isWs b = false ∧ b ≠ 0x5d := by
  have dig : ∀ b : UInt8, isDigit b = true → isWs b = false ∧ b ≠ 0x5d := by
    intro b hb
    simp only [isDigit, Bool.and_eq_true, decide_eq_true_eq, UInt8.le_iff_toNat_le] at hb
    simp only [isWs, Bool.or_eq_false_iff, beq_eq_false_iff_ne, ne_eq, ← UInt8.toNat_inj]
    have h1 : (0x30 : UInt8).toNat = 48 := rfl
    have h2 : (0x39 : UInt8).toNat = 57 := rfl
    have h3 : (0x20 : UInt8).toNat = 32 := rfl
    have h4 : (0x0a : UInt8).toNat = 10 := rfl
    have h5 : (0x0d : UInt8).toNat = 13 := rfl
    have h6 : (0x09 : UInt8).toNat = 9 := rfl
    have h7 : (0x5d : UInt8).toNat = 93 := rfl
    omega
  cases h with
  | @uint _ n =>
    obtain ⟨b, bs, e, hb⟩ := digits_head (n := n.toNat) (by have := n.toNat_lt; omega)
    exact ⟨b, bs, by rw [write, e], dig b hb⟩
  | nint h => exact ⟨_, _, by rw [write], rfl, by decide⟩
  | text h => exact ⟨_, _, by rw [write, quoted], rfl, by decide⟩
  | @bool _ b => cases b <;> exact ⟨_, _, by rw [write]; rfl, rfl, by decide⟩
  | null => exact ⟨_, _, by rw [write]; rfl, rfl, by decide⟩
  | @array _ l h => cases l <;> exact ⟨_, _, by rw [write], rfl, by decide⟩
  | @map _ l h => rcases l with _ | ⟨⟨n, c⟩, l⟩ <;> exact ⟨_, _, by rw [write], rfl, by decide⟩

theorem readValue_step (d : Nat) (bs : Bytes) : ∃ inner, readValue d bs = readStep inner bs := by
  cases d
  · exact ⟨_, rfl⟩
  · exact ⟨_, rfl⟩

theorem colon_read (L : Layout) (bs : Bytes) : ∃ w, (∀ b ∈ w, isWs b = true) ∧ L.colon ++ bs = 0x3a :: (w ++ bs) := by
  cases L with
  | compact => exact ⟨[], by simp, rfl⟩
  | pretty => exact ⟨[0x20], by decide, rfl⟩

/-- Reading inverts writing, whatever follows. -/
theorem readValue_write (L : Layout) {d : Nat} {c : Cbor} (h : JsonFits d c) : ∀ k r, Sep r → readValue d (write L k c ++ r) = some (c, r) := by
  induction h with
  | @uint d n =>
    intro k r hr
    obtain ⟨inner, e⟩ := readValue_step d (write L k (.uint n) ++ r)
    rw [e, write]
    have hn : n.toNat < 10 ^ 20 := by have := n.toNat_lt; omega
    obtain ⟨b, bs, e, hb⟩ := digits_head hn
    have hrd := readDigits_digits hn hr
    have hd : b.toNat ≥ 48 ∧ b.toNat ≤ 57 := by
      simp only [isDigit, Bool.and_eq_true, decide_eq_true_eq, UInt8.le_iff_toNat_le] at hb
      exact hb
    have ne : ∀ c : UInt8, (c.toNat < 48 ∨ 57 < c.toNat) → b ≠ c := by rintro c hc rfl; omega
    rw [e, List.cons_append] at hrd ⊢
    unfold readStep
    rw [skipWs_cons (by
      simp only [isWs, Bool.or_eq_false_iff, beq_eq_false_iff_ne]
      exact ⟨⟨⟨ne _ (by decide), ne _ (by decide)⟩, ne _ (by decide)⟩, ne _ (by decide)⟩)]
    simp only [ne 0x6e (by decide), ne 0x74 (by decide), ne 0x66 (by decide), ne 0x22 (by decide), ne 0x5b (by decide), ne 0x7b (by decide), if_false]
    rw [readNumber, if_neg (ne 0x2d (by decide)), hrd]
    simp only [Option.bind_some]
    rw [if_pos n.toNat_lt, UInt64.ofNat_toNat]
  | @nint d n h =>
    intro k r hr
    obtain ⟨inner, e⟩ := readValue_step d (write L k (.nint n) ++ r)
    rw [e, write]
    have hrd := readDigits_digits (n := n.toNat + 1) (by omega) hr
    rw [List.cons_append]
    unfold readStep
    rw [skipWs_cons rfl]
    simp only [show ((0x2d : UInt8) = 0x6e) = False by decide, show ((0x2d : UInt8) = 0x74) = False by decide, show ((0x2d : UInt8) = 0x66) = False by decide,
      show ((0x2d : UInt8) = 0x22) = False by decide, show ((0x2d : UInt8) = 0x5b) = False by decide, show ((0x2d : UInt8) = 0x7b) = False by decide, if_false]
    rw [readNumber, if_pos rfl, hrd]
    simp only [Option.bind_some]
    rw [if_pos ⟨by omega, by omega⟩, Nat.add_sub_cancel, UInt64.ofNat_toNat]
  | @text d s h =>
    intro k r hr
    obtain ⟨inner, e⟩ := readValue_step d (write L k (.text s) ++ r)
    rw [e, write, quoted_append]
    unfold readStep
    rw [skipWs_cons rfl]
    simp only [show ((0x22 : UInt8) = 0x6e) = False by decide, show ((0x22 : UInt8) = 0x74) = False by decide, show ((0x22 : UInt8) = 0x66) = False by decide, if_false, if_true,
      readStr_escape h]
    rfl
  | @bool d b =>
    intro k r hr
    obtain ⟨inner, e⟩ := readValue_step d (write L k (.bool b) ++ r)
    rw [e, write]
    cases b <;> rfl
  | @null d =>
    intro k r hr
    obtain ⟨inner, e⟩ := readValue_step d (write L k .null ++ r)
    rw [e, write]
    rfl
  | @array d l h ih =>
    intro k r hr
    rw [readValue]
    unfold readStep
    cases l with
    | nil =>
      rw [write, List.cons_append, skipWs_cons rfl]
      have := readContainer_nil (item := readValue d) (.inl rfl) r
      simp only [show ((0x5b : UInt8) = 0x6e) = False by decide, show ((0x5b : UInt8) = 0x74) = False by decide, show ((0x5b : UInt8) = 0x66) = False by decide,
        show ((0x5b : UInt8) = 0x22) = False by decide, if_false, if_true, Option.bind_some, List.singleton_append, this]
      rfl
    | cons c cs =>
      rw [write, List.cons_append, skipWs_cons rfl, writeItems_eq]
      have := readContainer_cons (item := readValue d) (enc := write L (k + 1)) (.inl rfl) (line_ws L (k + 1)) (line_ws L k) r c cs
        (fun x hx r hr => ih x hx (k + 1) r hr) (fun bs => readValue_ws d (line_ws L (k + 1)) bs) (write_head L (h c List.mem_cons_self) (k + 1))
      simp only [show ((0x5b : UInt8) = 0x6e) = False by decide, show ((0x5b : UInt8) = 0x74) = False by decide, show ((0x5b : UInt8) = 0x66) = False by decide,
        show ((0x5b : UInt8) = 0x22) = False by decide, if_false, if_true, Option.bind_some, List.append_assoc, List.singleton_append]
      rw [this]
      rfl
  | @map d l hk h ih =>
    intro k r hr
    rw [readValue]
    unfold readStep
    rcases l with _ | ⟨⟨n, c⟩, cs⟩
    · rw [write, List.cons_append, skipWs_cons rfl]
      have := readContainer_nil (item := readEntry (readValue d)) (.inr rfl) r
      simp only [show ((0x7b : UInt8) = 0x6e) = False by decide, show ((0x7b : UInt8) = 0x74) = False by decide, show ((0x7b : UInt8) = 0x66) = False by decide,
        show ((0x7b : UInt8) = 0x22) = False by decide, show ((0x7b : UInt8) = 0x5b) = False by decide, if_false, if_true, Option.bind_some, List.singleton_append, this]
      rfl
    · rw [write, List.cons_append, skipWs_cons rfl, writeEntries_eq]
      have he : ∀ e ∈ (n, c) :: cs, ∀ r, Sep r → readEntry (readValue d) (writeEntry L (k + 1) e ++ r) = some (e, r) := by
        intro e he r hr
        unfold readEntry readKey writeEntry
        rw [List.append_assoc, List.append_assoc, quoted_append, skipWs_cons rfl]
        simp only [readStr_escape (hk e he), Option.bind_some]
        obtain ⟨w, hw, e'⟩ := colon_read L (write L (k + 1) e.2 ++ r)
        rw [e', skipWs_cons rfl]
        simp only [readValue_ws d hw, ih e he (k + 1) r hr]
        rfl
      have := readContainer_cons (item := readEntry (readValue d)) (enc := writeEntry L (k + 1)) (.inr rfl) (line_ws L (k + 1)) (line_ws L k) r (n, c) cs he
        (fun bs => readEntry_ws _ (line_ws L (k + 1)) bs) ⟨0x22, _, by rw [writeEntry, List.append_assoc, quoted_append], rfl, by decide⟩
      simp only [show ((0x7b : UInt8) = 0x6e) = False by decide, show ((0x7b : UInt8) = 0x74) = False by decide, show ((0x7b : UInt8) = 0x66) = False by decide,
        show ((0x7b : UInt8) = 0x22) = False by decide, show ((0x7b : UInt8) = 0x5b) = False by decide, if_false, if_true, Option.bind_some, List.append_assoc, List.singleton_append]
      simp only [writeEntry, List.append_assoc] at this
      simp only [writeEntry, List.append_assoc]
      rw [this]
      rfl

/-- Reading inverts writing. -/
theorem parse_write (L : Layout) {c : Cbor} (h : JsonFits 127 c) (k : Nat) : parse (write L k c) = some c := by
  have := readValue_write L h k [] .nil
  rw [List.append_nil] at this
  simp [parse, this, skipWs]

theorem _root_.CB.Spec.JsonFits.mono {d d' : Nat} {c : Cbor} (h : JsonFits d c) (hd : d ≤ d') : JsonFits d' c := by
  induction h generalizing d' with
  | uint => exact .uint
  | nint h => exact .nint h
  | bool => exact .bool
  | null => exact .null
  | text h => exact .text h
  | array _ ih =>
    obtain ⟨k, rfl⟩ : ∃ k, d' = k + 1 := ⟨d' - 1, by omega⟩
    exact .array fun c hc => ih c hc (by omega)
  | map hk _ ih =>
    obtain ⟨k, rfl⟩ : ∃ k, d' = k + 1 := ⟨d' - 1, by omega⟩
    exact .map hk fun c hc => ih c hc (by omega)

/-! ## Values nested too deep -/

theorem readItems_none {α : Type} {close : UInt8} {item : Bytes → Option (α × Bytes)} {enc : α → Bytes} {w w' : Bytes}
    (hclose : close = 0x5d ∨ close = 0x7d) (r : Bytes) (as : List α) :
    ∀ a f, (∀ x ∈ a :: as, ∀ r, Sep r → item (enc x ++ r) = some (x, r) ∨ item (enc x ++ r) = none) →
      (∃ x ∈ a :: as, ∀ r, Sep r → item (enc x ++ r) = none) → (∀ bs, item (w ++ bs) = item bs) → (∀ b ∈ w', isWs b = true) →
      readItems close item f (enc a ++ (as.flatMap (fun x => 0x2c :: (w ++ enc x)) ++ (w' ++ close :: r))) = none := by
  have hcc : close ≠ 0x2c := by rcases hclose with rfl | rfl <;> decide
  induction as with
  | nil =>
    intro a f _ hx _ hw'
    cases f with
    | zero => rfl
    | succ f =>
      obtain ⟨x, hx, h⟩ := hx
      rw [List.mem_singleton] at hx
      subst hx
      rw [List.flatMap_nil, List.nil_append, readItems, h _ (.ws hw' (.cons (by rcases hclose with rfl | rfl <;> simp) _))]
      rfl
  | cons b as ih =>
    intro a f h hx hi hw'
    cases f with
    | zero => rfl
    | succ f =>
      rw [List.flatMap_cons, List.append_assoc, List.cons_append, List.append_assoc]
      rw [readItems]
      rcases h a List.mem_cons_self _ (.cons (b := 0x2c) (by simp) (w ++ (enc b ++ (as.flatMap (fun x => 0x2c :: (w ++ enc x)) ++ (w' ++ close :: r))))) with ha | ha
      · have hx' : ∃ x ∈ b :: as, ∀ r, Sep r → item (enc x ++ r) = none := by
          obtain ⟨x, hx, hn⟩ := hx
          rcases List.mem_cons.1 hx with rfl | hx
          · rw [hn _ (.cons (by simp) _)] at ha
            cases ha
          · exact ⟨x, hx, hn⟩
        rw [ha]
        simp only [Option.bind_some]
        rw [skipWs_cons (by rfl)]
        have hws : ∀ g bs, readItems close item g (w ++ bs) = readItems close item g bs := by
          intro g bs
          cases g with
          | zero => rfl
          | succ g => rw [readItems, readItems, hi]
        simp only [hcc.symm, if_false, if_true, hws, ih b f (fun x hx => h x (List.mem_cons_of_mem _ hx)) hx' hi hw']
        rfl
      · rw [ha]
        rfl

theorem readContainer_none {α : Type} {close : UInt8} {item : Bytes → Option (α × Bytes)} {enc : α → Bytes} {w w' : Bytes}
    (hclose : close = 0x5d ∨ close = 0x7d) (hw : ∀ b ∈ w, isWs b = true) (hw' : ∀ b ∈ w', isWs b = true) (r : Bytes) (a : α) (as : List α)
    (h : ∀ x ∈ a :: as, ∀ r, Sep r → item (enc x ++ r) = some (x, r) ∨ item (enc x ++ r) = none)
    (hx : ∃ x ∈ a :: as, ∀ r, Sep r → item (enc x ++ r) = none) (hi : ∀ bs, item (w ++ bs) = item bs)
    (hne : ∃ b bs, enc a = b :: bs ∧ isWs b = false ∧ b ≠ close) :
    readContainer close item (w ++ (enc a ++ (as.flatMap (fun x => 0x2c :: (w ++ enc x)) ++ (w' ++ close :: r)))) = none := by
  obtain ⟨b, bs, he, hb, hbc⟩ := hne
  have key := readItems_none hclose r as a ((w ++ (enc a ++ (as.flatMap (fun x => 0x2c :: (w ++ enc x)) ++ (w' ++ close :: r)))).length + 1) h hx hi hw'
  unfold readContainer
  rw [skipWs_append hw]
  generalize hz : as.flatMap (fun x => 0x2c :: (w ++ enc x)) ++ (w' ++ close :: r) = z at key ⊢
  rw [he, List.cons_append] at key ⊢
  rw [skipWs_cons hb]
  simp only [hbc, if_false]
  exact key

/-- What JSON can carry but nests deeper than allowed is refused. -/
theorem readValue_deep (L : Layout) {D : Nat} {c : Cbor} (h : JsonFits D c) : ∀ d k r, ¬ JsonFits d c → Sep r → readValue d (write L k c ++ r) = none := by
  induction h with
  | uint => intro d k r hn; exact absurd .uint hn
  | nint h => intro d k r hn; exact absurd (.nint h) hn
  | text h => intro d k r hn; exact absurd (.text h) hn
  | bool => intro d k r hn; exact absurd .bool hn
  | null => intro d k r hn; exact absurd .null hn
  | @array D l h ih =>
    intro d k r hn hr
    have hstart : ∃ z, write L k (.array l) ++ r = 0x5b :: z := by cases l <;> exact ⟨_, by rw [write, List.cons_append]⟩
    cases d with
    | zero =>
      obtain ⟨z, hz⟩ := hstart
      rw [hz]
      unfold readValue readStep
      rw [skipWs_cons rfl]
      rfl
    | succ d =>
      have hx : ∃ c ∈ l, ¬ JsonFits d c := by
        by_contra hc
        push Not at hc
        exact hn (.array hc)
      obtain ⟨x, hx, hxn⟩ := hx
      rw [readValue]
      unfold readStep
      cases l with
      | nil => cases hx
      | cons c cs =>
        rw [write, List.cons_append, skipWs_cons rfl, writeItems_eq]
        have := readContainer_none (item := readValue d) (enc := write L (k + 1)) (.inl rfl) (line_ws L (k + 1)) (line_ws L k) r c cs
          (fun x hx r hr => by
            by_cases hf : JsonFits d x
            · exact .inl (readValue_write L hf (k + 1) r hr)
            · exact .inr (ih x hx d (k + 1) r hf hr))
          ⟨x, hx, fun r hr => ih x hx d (k + 1) r hxn hr⟩
          (fun bs => readValue_ws d (line_ws L (k + 1)) bs) (write_head L (h c List.mem_cons_self) (k + 1))
        simp only [show ((0x5b : UInt8) = 0x6e) = False by decide, show ((0x5b : UInt8) = 0x74) = False by decide, show ((0x5b : UInt8) = 0x66) = False by decide,
          show ((0x5b : UInt8) = 0x22) = False by decide, if_false, if_true, Option.bind_some, List.append_assoc, List.singleton_append]
        rw [this]
        rfl
  | @map D l hk h ih =>
    intro d k r hn hr
    have hstart : ∃ z, write L k (.map l) ++ r = 0x7b :: z := by rcases l with _ | ⟨⟨n, c⟩, l⟩ <;> exact ⟨_, by rw [write, List.cons_append]⟩
    cases d with
    | zero =>
      obtain ⟨z, hz⟩ := hstart
      rw [hz]
      unfold readValue readStep
      rw [skipWs_cons rfl]
      rfl
    | succ d =>
      have hx : ∃ e ∈ l, ¬ JsonFits d e.2 := by
        by_contra hc
        push Not at hc
        exact hn (.map hk hc)
      obtain ⟨x, hx, hxn⟩ := hx
      rw [readValue]
      unfold readStep
      rcases l with _ | ⟨⟨n, c⟩, cs⟩
      · cases hx
      · rw [write, List.cons_append, skipWs_cons rfl, writeEntries_eq]
        have he : ∀ e ∈ (n, c) :: cs, ∀ r, readEntry (readValue d) (writeEntry L (k + 1) e ++ r) = (readValue d (write L (k + 1) e.2 ++ r)).map fun (v, r) => ((e.1, v), r) := by
          intro e he r
          unfold readEntry readKey writeEntry
          rw [List.append_assoc, List.append_assoc, quoted_append, skipWs_cons rfl]
          simp only [readStr_escape (hk e he), Option.bind_some]
          obtain ⟨w, hw, e'⟩ := colon_read L (write L (k + 1) e.2 ++ r)
          rw [e', skipWs_cons rfl]
          simp only [readValue_ws d hw]
        have := readContainer_none (item := readEntry (readValue d)) (enc := writeEntry L (k + 1)) (.inr rfl) (line_ws L (k + 1)) (line_ws L k) r (n, c) cs
          (fun e hm r hr => by
            rw [he e hm r]
            by_cases hf : JsonFits d e.2
            · exact .inl (by rw [readValue_write L hf (k + 1) r hr]; rfl)
            · exact .inr (by rw [ih e hm d (k + 1) r hf hr]; rfl))
          ⟨x, hx, fun r hr => by rw [he x hx r, ih x hx d (k + 1) r hxn hr]; rfl⟩
          (fun bs => readEntry_ws _ (line_ws L (k + 1)) bs) ⟨0x22, _, by rw [writeEntry, List.append_assoc, quoted_append], rfl, by decide⟩
        simp only [show ((0x7b : UInt8) = 0x6e) = False by decide, show ((0x7b : UInt8) = 0x74) = False by decide, show ((0x7b : UInt8) = 0x66) = False by decide,
          show ((0x7b : UInt8) = 0x22) = False by decide, show ((0x7b : UInt8) = 0x5b) = False by decide, if_false, if_true, Option.bind_some, List.append_assoc, List.singleton_append]
        simp only [writeEntry, List.append_assoc] at this
        simp only [writeEntry, List.append_assoc]
        rw [this]
        rfl

theorem parse_deep (L : Layout) {D : Nat} {c : Cbor} (h : JsonFits D c) (hn : ¬ JsonFits 127 c) (k : Nat) : parse (write L k c) = none := by
  have := readValue_deep L h 127 k [] hn .nil
  rw [List.append_nil] at this
  simp [parse, this]

end Json
end CB
