import Verif.Lemmas.JsonText
import Mathlib.Data.List.Forall2
import Verif.Props.Json
import Verif.Props.Encoding
/-!
# C94: which JSON text is a transaction; what `cryptoballot post` makes of a file
-/

namespace CB
namespace Json
open Spec

/-! ## Text and values -/

/-- **C94** A text is read as a JSON value exactly if it is JSON for it by the grammar of RFC 8259, with white space anywhere between the tokens, any escapes, and at most 127
arrays and objects inside each other. -/
theorem C94_reader_reads_exactly_json (bs : Bytes) (c : Cbor) : parse bs = some c ↔ JsonDocument bs c := parse_iff bs c

/-- The grammar is unambiguous: no text stands for two values. -/
theorem C94_text_is_unambiguous {bs : Bytes} {c c' : Cbor} (h : JsonDocument bs c) (h' : JsonDocument bs c') : c = c' := by
  have h := (parse_iff bs c).2 h
  rw [(parse_iff bs c').2 h'] at h
  exact (Option.some.inj h).symm

/-- A text is read as a transaction exactly if it is JSON for a value that is one. -/
theorem C94_transaction_text (bs : Bytes) (t : SignedTx) : readTx bs = .ok t ↔ ∃ c, JsonDocument bs c ∧ De.signedTx c = .ok t := by
  unfold readTx
  constructor
  · intro h
    rcases hp : parse bs with _ | c
    · rw [hp] at h; cases h
    · rw [hp] at h
      exact ⟨c, (parse_iff bs c).1 hp, h⟩
  · rintro ⟨c, hc, h⟩
    rw [(parse_iff bs c).2 hc]
    exact h

/-- Any JSON text of a transaction, not only the one the program prints, reads as that transaction. -/
theorem C94_any_layout_reads (t : SignedTx) (bs : Bytes) (h : JsonDocument bs (ofTx t)) : readTx bs = .ok (forget t) :=
  (C94_transaction_text bs _).2 ⟨_, h, de_ofTx t⟩

/-- What the program prints is such a text. -/
theorem C94_printed_is_json (t : SignedTx) (L : Layout) (h : RustData t) (hp : JsonProperties 120 t) : JsonDocument (printTx L t) (ofTx t) :=
  (parse_iff _ _).1 (parse_write L (jf_ofTx 120 t h hp) 0)

/-- **C81, C94** Strings, in either format, are accepted exactly if they are sequences of characters in UTF-8. -/
theorem C81_text_is_utf8 (s : Bytes) : validUtf8 s = true ↔ Utf8 s := validUtf8_iff s

/-! ## Nesting -/

theorem readValue_brackets (d : Nat) : ∀ n (x : Bytes), d < n → readValue d (List.replicate n 0x5b ++ x) = none := by
  induction d with
  | zero =>
    intro n x h
    obtain ⟨n, rfl⟩ : ∃ k, n = k + 1 := ⟨n - 1, by omega⟩
    rfl
  | succ d ih =>
    intro n x h
    obtain ⟨n, rfl⟩ : ∃ k, n = k + 2 := ⟨n - 2, by omega⟩
    have key := ih (n + 1) x (by omega)
    rw [List.replicate_succ, List.cons_append, readValue, readStep, skipWs_cons rfl]
    simp only [show ((0x5b : UInt8) = 0x6e) = False by decide, show ((0x5b : UInt8) = 0x74) = False by decide, show ((0x5b : UInt8) = 0x66) = False by decide,
      show ((0x5b : UInt8) = 0x22) = False by decide, if_false, if_true, Option.bind_some]
    rw [List.replicate_succ, List.cons_append] at key ⊢
    rw [readContainer, skipWs_cons rfl]
    simp only [show ((0x5b : UInt8) = 0x5d) = False by decide, if_false]
    rw [readItems, key]
    rfl

/-- Text that begins with more than 127 arrays inside each other is refused, whatever follows. -/
theorem C94_deep_text_is_refused (n : Nat) (x : Bytes) (h : 127 < n) : parse (List.replicate n 0x5b ++ x) = none := by
  rw [parse, readValue_brackets 127 n x h]
  rfl

/-- So many arrays around an empty one. -/
def arrays : Nat → Cbor
  | 0 => .array []
  | n + 1 => .array [arrays n]

theorem jsonText_arrays (n : Nat) : JsonText (n + 1) (List.replicate (n + 1) 0x5b ++ List.replicate (n + 1) 0x5d) (arrays n) := by
  induction n with
  | zero => exact .inr (.emptyArray (w := []) White.nil)
  | succ n ih =>
    refine .inr ?_
    have := Container.array (Commas.one (w := []) (w' := []) White.nil ih White.nil)
    rw [List.replicate_succ (n := n + 1), List.replicate_succ' (a := (0x5d : UInt8)) (n := n + 1)]
    rw [show arrays (n + 1) = .array [arrays n] from rfl]
    simpa using this

theorem JsonText.mono {d : Nat} : ∀ {t : Bytes} {c : Cbor}, JsonText d t c → JsonText (d + 1) t c := by
  have com : ∀ {α : Type} {P Q : Bytes → α → Prop}, (∀ t a, P t a → Q t a) → ∀ {t l}, Commas P t l → Commas Q t l := by
    intro α P Q hPQ t l h
    induction h with
    | one h1 h2 h3 => exact .one h1 (hPQ _ _ h2) h3
    | more h1 h2 h3 _ ih => exact .more h1 (hPQ _ _ h2) h3 ih
  induction d with
  | zero => intro t c h; exact .inl h
  | succ d ih =>
    rintro t c (h | h)
    · exact .inl h
    · refine .inr ?_
      cases h with
      | emptyArray h => exact .emptyArray h
      | array h => exact .array (com (fun _ _ => ih) h)
      | emptyObject h => exact .emptyObject h
      | object h =>
        refine .object (com (fun t e h => ?_) h)
        cases h with
        | mk h1 h2 h3 h4 => exact .mk h1 h2 h3 (ih h4)

theorem JsonText.le {d e : Nat} (h : d ≤ e) {t : Bytes} {c : Cbor} (ht : JsonText d t c) : JsonText e t c := by
  induction h with
  | refl => exact ht
  | step _ ih => exact JsonText.mono ih

/-- Up to 127 are read. -/
theorem C94_nested_text_is_read (n : Nat) (h : n < 127) : parse (List.replicate (n + 1) 0x5b ++ List.replicate (n + 1) 0x5d) = some (arrays n) :=
  (parse_iff _ _).2 ⟨[], _, [], White.nil, White.nil, JsonText.le (by omega) (jsonText_arrays n), by simp⟩

/-! ## Files -/

/-- Decided by the model's `trim`. -/
def blank (b : UInt8) : Bool := isWs b || b == 0x0b || b == 0x0c

theorem blank_iff (w : Bytes) : Blank w ↔ ∀ b ∈ w, blank b = true := by
  have : ∀ b, (b ∈ str " \n\r\t" ∨ b = 0x0b ∨ b = 0x0c) ↔ blank b = true := by
    intro b
    rw [← isWs_iff]
    simp [blank, or_assoc]
  exact forall₂_congr fun b _ => this b

theorem digit_blank {b : UInt8} (h : isDigit b = true) : blank b = false := by
  cases hw : blank b with
  | false => rfl
  | true =>
    simp only [blank, isWs, Bool.or_eq_true, beq_iff_eq] at hw
    rcases hw with (((((rfl | rfl) | rfl) | rfl) | rfl) | rfl) <;> cases h

/-- A value's text begins and ends with something else than white space, and with a bracket exactly for arrays. -/
theorem JsonText.ends {d : Nat} {t : Bytes} {c : Cbor} (h : JsonText d t c) :
    (∃ b m, t = b :: m ∧ blank b = false ∧ (b = 0x5b ↔ ∃ l, c = .array l)) ∧ ∃ m z, t = m ++ [z] ∧ blank z = false := by
  have simple : SimpleValue t c → (∃ b m, t = b :: m ∧ blank b = false ∧ (b = 0x5b ↔ ∃ l, c = .array l)) ∧ ∃ m z, t = m ++ [z] ∧ blank z = false := by
    clear h
    intro h
    have last : ∀ {ds : Bytes} {n : Nat}, Decimal ds n → ∃ m z, ds = m ++ [z] ∧ blank z = false := by
      intro ds n h
      cases h with
      | digit h => exact ⟨[], _, rfl, digit_blank (of_digit h).1⟩
      | more _ _ h => exact ⟨_, _, rfl, digit_blank (of_digit h).1⟩
    cases h with
    | null => exact ⟨⟨0x6e, str "ull", by decide +kernel, rfl, by simp⟩, str "nul", 0x6c, by decide +kernel, rfl⟩
    | true => exact ⟨⟨0x74, str "rue", by decide +kernel, rfl, by simp⟩, str "tru", 0x65, by decide +kernel, rfl⟩
    | false => exact ⟨⟨0x66, str "alse", by decide +kernel, rfl, by simp⟩, str "fals", 0x65, by decide +kernel, rfl⟩
    | number h _ =>
      obtain ⟨b, bs, e, hb⟩ := Decimal.head h
      exact ⟨⟨b, bs, e, digit_blank hb, by simp [digit_ne hb (show isDigit 0x5b = false from rfl)]⟩, last h⟩
    | negative h _ =>
      obtain ⟨m, z, e, hz⟩ := last h
      exact ⟨⟨_, _, rfl, rfl, by simp⟩, 0x2d :: m, z, by rw [e]; rfl, hz⟩
    | text h =>
      cases h with
      | mk => exact ⟨⟨_, _, rfl, rfl, by simp⟩, 0x22 :: _, 0x22, rfl, rfl⟩
  cases d with
  | zero => exact simple h
  | succ d =>
    rcases h with h | h
    · exact simple h
    · cases h with
      | emptyArray => exact ⟨⟨_, _, rfl, rfl, by simp⟩, 0x5b :: _, 0x5d, rfl, rfl⟩
      | array => exact ⟨⟨_, _, rfl, rfl, by simp⟩, 0x5b :: _, 0x5d, rfl, rfl⟩
      | emptyObject => exact ⟨⟨_, _, rfl, rfl, by simp⟩, 0x7b :: _, 0x7d, rfl, rfl⟩
      | object => exact ⟨⟨_, _, rfl, rfl, by simp⟩, 0x7b :: _, 0x7d, rfl, rfl⟩

theorem trim_text {v v' t : Bytes} (hv : Blank v) (hv' : Blank v') {b : UInt8} {m : Bytes} (h1 : t = b :: m) (hb : blank b = false) {m' : Bytes} {z : UInt8} (h2 : t = m' ++ [z])
    (hz : blank z = false) : Client.trim (v ++ t ++ v') = t := by
  rw [blank_iff] at hv hv'
  unfold Client.trim
  have e1 : (v ++ t ++ v').dropWhile blank = t ++ v' := by
    rw [List.append_assoc, h1, List.cons_append, dropWhile_nonws hv hb]
  have e2 : ((t ++ v').reverse.dropWhile blank).reverse = t := by
    rw [h2, List.reverse_append, List.reverse_append, List.reverse_singleton, List.singleton_append, dropWhile_nonws (fun x hx => hv' x (List.mem_reverse.1 hx)) hz]
    simp
  show ((List.dropWhile blank (v ++ t ++ v')).reverse.dropWhile blank).reverse = t
  rw [e1, e2]

theorem trim_split (bs : Bytes) : ∃ v v', Blank v ∧ Blank v' ∧ bs = v ++ Client.trim bs ++ v' := by
  have tw : ∀ l : Bytes, ∀ b ∈ l.takeWhile blank, blank b = true := by
    intro l
    have := List.all_takeWhile (p := blank) (l := l)
    rwa [List.all_eq_true] at this
  refine ⟨bs.takeWhile blank, ((bs.dropWhile blank).reverse.takeWhile blank).reverse, (blank_iff _).2 (tw _), (blank_iff _).2 fun b hb => tw _ b (List.mem_reverse.1 hb), ?_⟩
  show bs = bs.takeWhile blank ++ ((bs.dropWhile blank).reverse.dropWhile blank).reverse ++ ((bs.dropWhile blank).reverse.takeWhile blank).reverse
  rw [List.append_assoc, ← List.reverse_append, List.takeWhile_append_dropWhile, List.reverse_reverse, List.takeWhile_append_dropWhile]

theorem mapM'_iff {α β ε : Type} (f : α → Res ε β) (l : List α) (m : List β) : Res.mapM' f l = .ok m ↔ List.Forall₂ (fun a b => f a = .ok b) l m := by
  induction l generalizing m with
  | nil =>
    constructor
    · intro h; cases h; exact .nil
    · intro h; cases h; rfl
  | cons a l ih =>
    rw [Res.mapM']
    constructor
    · intro h
      obtain ⟨y, h1, h2⟩ := Res.bind_eq_ok.1 h
      obtain ⟨ys, h3, h4⟩ := Res.bind_eq_ok.1 h2
      cases h4
      exact .cons h1 ((ih ys).1 h3)
    · intro h
      cases h with
      | cons h1 h2 => rw [h1, Res.ok_bind, (ih _).2 h2, Res.ok_bind]

/-- **C94** What `cryptoballot post` posts: the file, apart from blanks around it, must be JSON.  If that is an array, each of its elements must be a transaction, and they are
posted in order; otherwise it must be a transaction, which is posted. -/
theorem C94_what_a_file_posts (content : Bytes) (ts : List SignedTx) : Client.postFile content = .ok ts ↔
    ∃ v t v' c, Blank v ∧ Blank v' ∧ content = v ++ t ++ v' ∧ JsonText 127 t c ∧
      ((∃ l, c = .array l ∧ List.Forall₂ (fun x y => De.signedTx x = .ok y) l ts) ∨ ((∀ l, c ≠ .array l) ∧ ∃ y, De.signedTx c = .ok y ∧ ts = [y])) := by
  unfold Client.postFile
  simp only
  constructor
  · intro h
    obtain ⟨v, v', hv, hv', e⟩ := trim_split content
    have doc : ∀ c, parse (Client.trim content) = some c → ∃ v t v', Blank v ∧ Blank v' ∧ content = v ++ t ++ v' ∧ JsonText 127 t c ∧
        ((Client.trim content).head? = some 0x5b ↔ ∃ l, c = .array l) := by
      intro c hc
      obtain ⟨w, t, w', hw, hw', ht, e'⟩ := (parse_iff _ _).1 hc
      have app : ∀ {w w'}, Blank w → Blank w' → Blank (w ++ w') := by
        intro w w' h h' b hb
        rcases List.mem_append.1 hb with hb | hb
        · exact h b hb
        · exact h' b hb
      have b1 : Blank (v ++ w) := app hv fun b hb => .inl (hw b hb)
      have b2 : Blank (w' ++ v') := app (fun b hb => .inl (hw' b hb)) hv'
      have ec : content = (v ++ w) ++ t ++ (w' ++ v') := by rw [e, e']; simp
      obtain ⟨⟨b, m, h1, h2, h3⟩, m', z, h4, h5⟩ := JsonText.ends ht
      refine ⟨_, t, _, b1, b2, ec, ht, ?_⟩
      rw [ec, trim_text b1 b2 h1 h2 h4 h5, h1, ← h3]
      simp
    split at h
    · rename_i hh
      unfold readTxs at h
      obtain ⟨c, hc, hd⟩ := Res.bind_eq_ok.1 h
      rw [Res.ofOption_eq_ok] at hc
      obtain ⟨v, t, v', h1, h2, h3, h4, h5⟩ := doc c hc
      obtain ⟨l, rfl⟩ := h5.1 hh
      exact ⟨v, t, v', _, h1, h2, h3, h4, .inl ⟨l, rfl, (mapM'_iff _ _ _).1 hd⟩⟩
    · rename_i hh
      obtain ⟨y, hy, hd⟩ := Res.bind_eq_ok.1 h
      unfold readTx at hy
      obtain ⟨c, hc, hy⟩ := Res.bind_eq_ok.1 hy
      rw [Res.ofOption_eq_ok] at hc
      obtain ⟨v, t, v', h1, h2, h3, h4, h5⟩ := doc c hc
      cases hd
      exact ⟨v, t, v', _, h1, h2, h3, h4, .inr ⟨fun l hl => hh (h5.2 ⟨l, hl⟩), y, hy, rfl⟩⟩
  · rintro ⟨v, t, v', c, hv, hv', rfl, ht, h⟩
    obtain ⟨⟨b, m, h1, h2, h3⟩, m', z, h4, h5⟩ := JsonText.ends ht
    rw [trim_text hv hv' h1 h2 h4 h5]
    have hp : parse t = some c := (parse_iff t c).2 ⟨[], t, [], White.nil, White.nil, ht, by simp⟩
    have hh : t.head? = some 0x5b ↔ ∃ l, c = .array l := by rw [h1, ← h3]; simp
    rcases h with ⟨l, rfl, hl⟩ | ⟨hn, y, hy, rfl⟩
    · rw [if_pos (hh.2 ⟨l, rfl⟩), readTxs, hp]
      exact (mapM'_iff _ _ _).2 hl
    · rw [if_neg (fun h => by obtain ⟨l, hl⟩ := hh.1 h; exact hn l hl), readTx, hp]
      show (De.signedTx c).bind _ = _
      rw [hy]; rfl

/-- **C94** Whoever writes transactions as JSON in any way of their own, and the program reads them back, has them posted as they are, in order: the node is sent the same bytes
under the same ids and keys. -/
theorem C94_any_file_of_transactions_is_posted (ts : List SignedTx) {v t v' : Bytes} (hv : Blank v) (hv' : Blank v') (ht : JsonText 127 t (.array (ts.map ofTx))) :
    Client.postFile (v ++ t ++ v') = .ok (ts.map forget) ∧ (ts.map forget).map Client.posted = ts.map Client.posted := by
  refine ⟨(C94_what_a_file_posts _ _).2 ⟨v, t, v', _, hv, hv', rfl, ht, .inl ⟨_, rfl, ?_⟩⟩, ?_⟩
  · rw [List.forall₂_map_left_iff, List.forall₂_map_right_iff]
    exact List.forall₂_same.2 fun t _ => de_ofTx t
  · rw [List.map_map]
    exact List.map_congr_left fun t _ => posted_forget t

/-! A document with white space, escapes, a surrogate pair and a negative number. -/
def sampleText : Bytes := str " { \"\\u0041\\ud83d\\uDE00\" : [ true , -2\n, \"\\/" ++ [0xc3, 0xa9] ++ str "\" ] ,\"\":{ } }\t"

/-- Whether it is the value of that document. -/
def isSample : Option Cbor → Bool
  | some (.map [(k, .array [.bool true, .nint n, .text s]), ([], .map [])]) => k == [0x41, 0xf0, 0x9f, 0x98, 0x80] && n == 1 && s == [0x2f, 0xc3, 0xa9]
  | _ => false

example : JsonDocument sampleText (.map [([0x41, 0xf0, 0x9f, 0x98, 0x80], .array [.bool true, .nint 1, .text [0x2f, 0xc3, 0xa9]]), ([], .map [])]) := by
  have key : ∀ o, isSample o = true → o = some (.map [([0x41, 0xf0, 0x9f, 0x98, 0x80], .array [.bool true, .nint 1, .text [0x2f, 0xc3, 0xa9]]), ([], .map [])]) := by
    intro o h
    unfold isSample at h
    split at h
    · simp only [Bool.and_eq_true, beq_iff_eq] at h
      rw [h.1.1, h.1.2, h.2]
    · cases h
  exact (parse_iff _ _).1 (key _ (by decide +kernel))

example : Escape (str "ud83d\\uDE00") [0xf0, 0x9f, 0x98, 0x80] := by
  have h1 : Hex4 (str "d83d") (0xd800 + 0x3d) := .mk (i := 13) (j := 8) (k := 3) (l := 13) ((hexVal_iff _ _).1 rfl) ((hexVal_iff _ _).1 rfl) ((hexVal_iff _ _).1 rfl) ((hexVal_iff _ _).1 rfl)
  have h2 : Hex4 (str "DE00") (0xdc00 + 0x200) := .mk (i := 13) (j := 14) (k := 0) (l := 0) ((hexVal_iff _ _).1 rfl) ((hexVal_iff _ _).1 rfl) ((hexVal_iff _ _).1 rfl) ((hexVal_iff _ _).1 rfl)
  have := Escape.pair h1 (by omega) h2 (by omega)
  rwa [show String.utf8EncodeChar (Char.ofNat (0x10000 + 1024 * 0x3d + 0x200)) = [0xf0, 0x9f, 0x98, 0x80] by decide +kernel, show (0x75 :: (str "d83d" ++ 0x5c :: 0x75 :: str "DE00") : Bytes) = str "ud83d\\uDE00" by decide +kernel] at this

/-! Not JSON: a leading zero, a lone surrogate, a control character, a trailing comma, two values. -/
example : ∀ s ∈ [str "01", str "\"\\ud83d\"", str "\"\n\"", str "[1,]", str "1 2", str "-0", str "nul"], ∀ c, ¬ JsonDocument s c := by
  intro s hs c hc
  have key : ∀ s ∈ [str "01", str "\"\\ud83d\"", str "\"\n\"", str "[1,]", str "1 2", str "-0", str "nul"], parse s = none := by decide +kernel
  rw [← parse_iff, key s hs] at hc
  cases hc

/-- the transactions of the sample election, printed indented, in a file with blanks around them -/
example : ∃ t, JsonText 127 t (.array (Toy.complete.map ofTx)) ∧ Client.postFile (str "\n " ++ t ++ [0x0c, 0x0a]) = .ok (Toy.complete.map forget) := by
  have hp := parse_write .pretty (jf_list fun t ht => jf_ofTx 119 t (toy_rustData t ht) (toy_jsonProperties t ht)) 0
  obtain ⟨w, t, w', hw, hw', ht, e⟩ := (parse_iff _ _).1 hp
  exact ⟨t, ht, (C94_any_file_of_transactions_is_posted Toy.complete ((blank_iff _).2 (by decide +kernel)) ((blank_iff _).2 (by decide +kernel)) ht).1⟩

/-- 127 arrays inside each other are read, 128 are not -/
example : (parse (List.replicate 127 0x5b ++ List.replicate 127 0x5d)).isSome = true ∧ parse (List.replicate 128 0x5b ++ List.replicate 128 0x5d) = none :=
  ⟨by rw [C94_nested_text_is_read 126 (by omega)]; rfl, C94_deep_text_is_refused 128 _ (by omega)⟩

end Json
end CB
