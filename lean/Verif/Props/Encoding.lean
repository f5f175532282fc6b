import Verif.Lemmas.Encoding
import Verif.Props.Exonum
/-!
# C81: which bytes are a transaction
-/

namespace CB
open Spec

/-! ## C81 -/

/-- **C81** The decoder reads exactly the encodings: bytes are accepted as an item if and only if they are one of its encodings by RFC 7049, nested at most 127 deep — whatever the
widths of lengths and numbers, with definite or indefinite lengths, with tags. -/
theorem C81_decoder_reads_exactly_the_encodings (bs : Bytes) (c : Cbor) : Cbor.decode bs = some c ↔ Encodes 127 bs c := decode_iff

/-- Encodings are unambiguous: of two encodings one of which begins with the other, both are the same and stand for the same item. -/
theorem C81_encodings_are_unambiguous {d : Nat} {p p' r r' : Bytes} {c c' : Cbor} (h : Encodes d p c) (h' : Encodes d p' c') (e : p ++ r = p' ++ r') :
    p = p' ∧ c = c' := by
  have h1 := (exact_item d).complete _ _ r h
  rw [e, (exact_item d).complete _ _ r' h'] at h1
  simp only [Option.some.injEq, Prod.mk.injEq] at h1
  rw [h1.2] at e
  exact ⟨List.append_cancel_right e, h1.1.symm⟩

theorem encodes_encode {d : Nat} {c : Cbor} (h : Fits d c) : Encodes d c.encode c := by
  obtain ⟨p, he, hp⟩ := (exact_item d).sound _ _ _ (decodeItem_encode h [])
  rwa [List.append_cancel_right he]

theorem fromBytes_encodes {bs : Bytes} {c : Cbor} (h : Encodes 127 bs c) : SignedTx.fromBytes bs = De.signedTx c := by
  unfold SignedTx.fromBytes
  rw [decode_iff.2 h]
  rfl

/-- Every encoding of a transaction, not only the one that the program writes, reads as that transaction. -/
theorem C81_any_encoding_reads (t : SignedTx) (bs : Bytes) (h : Encodes 127 bs t.toCbor) : SignedTx.fromBytes bs = .ok (forget t) := by
  rw [fromBytes_encodes h]
  exact De.de_signedTx t

/-- The encoding that the program writes is one of them. -/
theorem C81_written_is_an_encoding (t : SignedTx) (h : RustData t) : Encodes 127 t.asBytes t.toCbor := encodes_encode h

theorem toCbor_map (t : SignedTx) : ∃ ty a b, t.toCbor = .map [(str "type", .text ty), (str "tx", a), (str "sig", b)] := by
  cases t <;> exact ⟨_, _, _, rfl⟩

theorem string_encode {s : Str} (h : IsText s) : StringEnc 3 (cborHead 3 s.length ++ s) s ∧ validUtf8 s = true := by
  have := decodeText_encode h []
  obtain ⟨p, he, hp⟩ := exact_text.sound _ _ _ this
  rwa [List.append_cancel_right he]

/-- **C81, what is false**: the bytes of a transaction are not determined by its content.  Everybody can rewrite the bytes of every transaction, without any key, into others
that read as the same transaction. -/
theorem C81_every_transaction_can_be_rewritten (t : SignedTx) (h : RustData t) : ∃ bs, bs ≠ t.asBytes ∧ Encodes 127 bs t.toCbor ∧ SignedTx.fromBytes bs = .ok (forget t) := by
  suffices hs : ∃ bs, bs ≠ t.asBytes ∧ Encodes 127 bs t.toCbor from
    hs.elim fun bs hb => ⟨bs, hb.1, hb.2, C81_any_encoding_reads t bs hb.2⟩
  obtain ⟨ty, a, b, ht⟩ := toCbor_map t
  unfold RustData at h
  rw [ht] at h
  cases h with
  | map hl hk hv =>
    refine ⟨0xbf :: ((([(str "type", Cbor.text ty), (str "tx", a), (str "sig", b)].map fun e => (((cborHead 3 e.1.length ++ e.1), e.2.encode), e)).map
      fun x => x.1.1 ++ x.1.2).flatten ++ [0xff]), ?_, ?_⟩
    · unfold SignedTx.asBytes
      rw [ht]
      intro he
      exact absurd (List.cons.inj he).1 (by show ¬ (0xbf : UInt8) = UInt8.ofNat (5 * 32 + 3); decide)
    · rw [ht]
      refine Encodes.openMap (ps := [(str "type", Cbor.text ty), (str "tx", a), (str "sig", b)].map fun e => (((cborHead 3 e.1.length ++ e.1), e.2.encode), e)) ?_ ?_ ?_
      · simp
      · intro x hx
        obtain ⟨e, he, rfl⟩ := List.mem_map.1 hx
        exact string_encode (hk e he)
      · intro x hx
        obtain ⟨e, he, rfl⟩ := List.mem_map.1 hx
        exact encodes_encode (hv e he)

theorem find_add {l : List (Str × Cbor)} {k n : Str} {v : Cbor} (h : k ≠ n) : De.find (l ++ [(k, v)]) n = De.find l n := by
  unfold De.find
  rw [List.filter_append, List.filter_cons_of_neg (by simpa using h), List.filter_nil, List.append_nil]

theorem signed_add {T : Type} (f : Cbor → DRes T) {l : List (Str × Cbor)} {k : Str} {v : Cbor} (h2 : k ≠ str "tx") (h3 : k ≠ str "sig") :
    De.signed f (.map (l ++ [(k, v)])) = De.signed f (.map l) := by
  simp only [De.signed, De.fields, Res.ok_bind, De.field, find_add h2, find_add h3, bind]

/-- Nor does the signature cover all bytes: anything can be added to a transaction under a name that is not in use, and it reads as the same transaction. -/
theorem C81_anything_can_be_added (t : SignedTx) (h : RustData t) (k : Str) (v : Cbor) (hk : IsText k) (hv : Fits 126 v) (h1 : k ≠ str "type") (h2 : k ≠ str "tx") (h3 : k ≠ str "sig") :
    ∃ l, t.toCbor = .map l ∧ SignedTx.fromBytes (Cbor.map (l ++ [(k, v)])).encode = .ok (forget t) := by
  obtain ⟨ty, a, b, ht⟩ := toCbor_map t
  have hd := De.de_signedTx t
  unfold RustData at h
  rw [ht] at h hd
  refine ⟨_, ht, ?_⟩
  have hf : Fits 127 (Cbor.map ([(str "type", .text ty), (str "tx", a), (str "sig", b)] ++ [(k, v)])) := by
    cases h with
    | map hl hks hvs =>
      refine .map (by simp) ?_ ?_
      · intro e he
        rcases List.mem_append.1 he with he | he
        · exact hks e he
        · rw [List.mem_singleton.1 he]; exact hk
      · intro e he
        rcases List.mem_append.1 he with he | he
        · exact hvs e he
        · rw [List.mem_singleton.1 he]; exact hv
  rw [fromBytes_encodes (encodes_encode hf), ← hd]
  have htag : ∀ l : List (Str × Cbor), De.tagged (.map (l ++ [(k, v)])) =
      (De.tagged (.map l)).bind fun x => match x.2 with
        | .map l' => .ok (x.1, .map (l' ++ [(k, v)]))
        | c => .ok (x.1, c) := by
    intro l
    simp only [De.tagged, De.field, find_add h1, List.filter_append]
    rw [List.filter_cons_of_pos (by simpa using h1), List.filter_nil]
    cases (De.find l (str "type")).bind _ <;> rfl
  unfold De.signedTx
  rw [htag]
  obtain ⟨ty', l', hl'⟩ : ∃ ty' l', De.tagged (.map [(str "type", .text ty), (str "tx", a), (str "sig", b)]) = .ok (ty', .map l') := ⟨_, _, rfl⟩
  simp only [hl', bind, Res.ok_bind, signed_add _ h2 h3]

/-! ### On the blockchain -/

/-- The same submission in other bytes, from whoever: the id that it is filed under is the same, and both contents are encodings of the same item. -/
def Spec.Rewritten (e e' : Exonum.Envelope) : Prop := e.id = e'.id ∧ ∃ c, Encodes 127 e.data c ∧ Encodes 127 e'.data c

namespace Exonum

/-- What the ledger says, without the bytes. -/
def view (s : Schema) : List (Str × DRes SignedTx) := s.entries.map fun e => (e.1, SignedTx.fromBytes e.2.data)

theorem insertList_map {α β : Type} (g : α → β) (k : Str) (v : α) (l : List (Str × α)) :
    (OMap.insertList k v l).map (fun e => (e.1, g e.2)) = OMap.insertList k (g v) (l.map fun e => (e.1, g e.2)) := by
  induction l with
  | nil => rfl
  | cons a l ih =>
    obtain ⟨k', v'⟩ := a
    simp only [OMap.insertList, List.map_cons]
    split <;> simp [ih]

theorem lookup_map {α β : Type} (g : α → β) (k : Str) (l : List (Str × α)) :
    (OMap.lookup k l).map g = OMap.lookup k (l.map fun e => (e.1, g e.2)) := by
  induction l with
  | nil => rfl
  | cons a l ih =>
    obtain ⟨k', v'⟩ := a
    simp only [OMap.lookup, List.map_cons]
    split
    · rfl
    · exact ih

theorem view_insert (s : Schema) (k : Str) (e : Envelope) : view (s.insert k e) = OMap.insertList k (SignedTx.fromBytes e.data) (view s) :=
  insertList_map (fun e : Envelope => SignedTx.fromBytes e.data) k e s.entries

theorem isSome_view (s : Schema) (k : Str) : (s.get k).isSome = (OMap.lookup k (view s)).isSome := by
  unfold view OMap.get
  rw [← lookup_map (fun e : Envelope => SignedTx.fromBytes e.data), Option.isSome_map]

def readOf : DRes SignedTx → Option SignedTx
  | .ok t => some t
  | _ => none

theorem toStore_view {s s' : Schema} (h : view s = view s') : toStore s = toStore s' := by
  have hg : ∀ (s : Schema) id, getTransaction s id = (OMap.lookup id.toString (view s)).bind readOf := by
    intro s id
    unfold getTransaction view OMap.get
    rw [← lookup_map (fun e : Envelope => SignedTx.fromBytes e.data)]
    cases OMap.lookup id.toString s.entries with
    | none => rfl
    | some e => rfl
  have hr : ∀ (s : Schema) a b, range s a b = ((((view s).filter fun e => cmpBytes a.toString e.1 != .gt).takeWhile fun e => cmpBytes e.1 b.toString != .gt).filterMap fun e => readOf e.2) := by
    intro s a b
    unfold range view OMap.iterFrom
    rw [List.filter_map, List.takeWhile_map, List.filterMap_map]
    rfl
  unfold toStore
  have e1 : getTransaction s = getTransaction s' := by funext id; rw [hg, hg, h]
  have e2 : range s = range s' := by funext a b; rw [hr, hr, h]
  rw [e1, e2]

theorem view_deliver {E : Env} {s s' : Schema} {e e' : Envelope} (h : view s = view s') (he : Spec.Rewritten e e') : view (deliver E s e) = view (deliver E s' e') := by
  obtain ⟨hid, c, hc, hc'⟩ := he
  have hb : SignedTx.fromBytes e.data = SignedTx.fromBytes e'.data := by rw [fromBytes_encodes hc, fromBytes_encodes hc']
  unfold deliver verifyAndStore
  rw [isSome_view, isSome_view, h, hid, hb, toStore_view h]
  by_cases hs : (OMap.lookup e'.id (view s')).isSome = true
  · simp only [if_pos hs]; exact h
  simp only [if_neg hs]
  cases hf : SignedTx.fromBytes e'.data with
  | err x => exact h
  | panic p => exact h
  | ok t =>
    cases hv : t.validate E (toStore s') with
    | err x => simp only [Res.mapErr, Res.ok_bind, hv]; exact h
    | panic p => simp only [Res.mapErr, Res.ok_bind, hv]; exact h
    | ok u =>
      simp only [Res.mapErr, Res.ok_bind, hv]
      show view (s.insert _ _) = view (s'.insert _ _)
      rw [view_insert, view_insert, h, hb]

/-- **C81, on the blockchain** Rewriting submissions changes nothing: if some of the submissions are delivered in other bytes, the same ids are stored, and lookups and ranges give the
same transactions. -/
theorem C81_rewriting_changes_nothing (E : Env) (l l' : List Envelope) (h : List.Forall₂ Spec.Rewritten l l') :
    toStore (deliverAll E OMap.empty l) = toStore (deliverAll E OMap.empty l') ∧
      ∀ k, ((deliverAll E OMap.empty l).get k).isSome = ((deliverAll E OMap.empty l').get k).isSome := by
  have key : ∀ {l l' : List Envelope}, List.Forall₂ Spec.Rewritten l l' → ∀ s s' : Schema, view s = view s' → view (deliverAll E s l) = view (deliverAll E s' l') := by
    intro l l' h
    induction h with
    | nil => exact fun s s' h => h
    | cons he _ ih => exact fun s s' h => ih _ _ (view_deliver h he)
  have hv := key h OMap.empty OMap.empty rfl
  exact ⟨toStore_view hv, fun k => by rw [isSome_view, isSome_view, hv]⟩

/-! Somebody rewrites every transaction of the sample election on its way to the blockchain; all of them are still stored. -/
theorem rewriteAll (l : List SignedTx) (h : ∀ t ∈ l, RustData t) : ∃ l', List.Forall₂ Spec.Rewritten (l.map Envelope.ofTx) l' ∧
    List.Forall₂ (fun e e' => e.data ≠ e'.data) (l.map Envelope.ofTx) l' := by
  induction l with
  | nil => exact ⟨[], .nil, .nil⟩
  | cons t l ih =>
    obtain ⟨l', h1, h2⟩ := ih fun t ht => h t (List.mem_cons_of_mem _ ht)
    obtain ⟨bs, hn, hb, _⟩ := C81_every_transaction_can_be_rewritten t (h t List.mem_cons_self)
    exact ⟨{ Envelope.ofTx t with data := bs } :: l', .cons ⟨rfl, _, C81_written_is_an_encoding t (h t List.mem_cons_self), hb⟩ h1, .cons hn.symm h2⟩

example : ∃ l, List.Forall₂ (fun e e' => e.data ≠ e'.data) (Toy.complete.map Envelope.ofTx) l ∧
    ∀ t ∈ Toy.complete, ((deliverAll Toy.env OMap.empty l).get t.id.toString).isSome = true := by
  obtain ⟨l, h1, h2⟩ := rewriteAll Toy.complete toy_rustData
  refine ⟨l, h2, fun t ht => ?_⟩
  rw [← (C81_rewriting_changes_nothing Toy.env _ _ h1).2]
  have : (Toy.complete.all fun t => ((deliverAll Toy.env OMap.empty (Toy.complete.map Envelope.ofTx)).get t.id.toString).isSome) = true := by decide +kernel
  exact List.all_eq_true.1 this t ht

end Exonum

/-! Examples of RFC 7049, appendix A: two ways to write the list [1, [2, 3], [4, 5]], a text in two chunks, a number with a tag; and what is not an encoding: an unknown
length without a break, an item with something after it. -/
def nested : Cbor := .array [.uint 1, .array [.uint 2, .uint 3], .array [.uint 4, .uint 5]]
def decodesTo (bs : Bytes) (c : Cbor) : Bool := (Cbor.decode bs).elim false fun c' => c'.encode == c.encode
example : decodesTo [0x83, 0x01, 0x82, 0x02, 0x03, 0x82, 0x04, 0x05] nested = true ∧ decodesTo [0x9f, 0x01, 0x82, 0x02, 0x03, 0x9f, 0x04, 0x05, 0xff, 0xff] nested = true ∧
    decodesTo [0x9f, 0x18, 0x01, 0x82, 0x02, 0x19, 0x00, 0x03, 0x82, 0x04, 0x05, 0xff] nested = true ∧
    decodesTo [0x7f, 0x65, 0x73, 0x74, 0x72, 0x65, 0x61, 0x64, 0x6d, 0x69, 0x6e, 0x67, 0xff] (.text (str "streaming")) = true ∧
    decodesTo [0xc1, 0x1a, 0x51, 0x4b, 0x67, 0xb0] (.uint 1363896240) = true ∧
    (Cbor.decode [0x9f, 0x01]).isNone = true ∧ (Cbor.decode [0x01, 0x02]).isNone = true := by decide +kernel
example : Encodes 127 [0x18, 0x01] (.uint 1) ∧ Encodes 127 [0x01] (.uint 1) := ⟨.uint (.one (a := [1]) rfl rfl), .uint (n := 1) (.short (by decide))⟩

/-! Somebody writes on another's vote. -/
example : ∃ l, (Toy.voteTx 31 "a").toCbor = .map l ∧
    SignedTx.fromBytes (Cbor.map (l ++ [(str "graffiti", .array [.text (str "vote for b")])])).encode = .ok (forget (Toy.voteTx 31 "a")) :=
  C81_anything_can_be_added _ (toy_rustData _ (by simp [Toy.complete])) _ _ ⟨by decide +kernel, by decide +kernel⟩ (fits_of_check _ _ (by decide +kernel)) (by decide +kernel) (by decide +kernel)
    (by decide +kernel)

end CB
