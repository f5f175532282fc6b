import Verif.Model.Wire
import Verif.Spec.Wire
import Verif.Lemmas.ProtoText
/-!
# The reader of submissions
-/

namespace CB.Exonum.Wire
open Spec Spec.Wire Selection

theorem readTag_sound {bs r : Bytes} {f w : Nat} (h : readTag bs = some ((f, w), r)) : ∃ t, bs = t ++ r ∧ Tag t f w := by
  unfold readTag at h
  split at h
  · cases h
  · rename_i v r' hk
    split at h
    · cases h
    · rename_i hc
      cases h
      obtain ⟨t, e, ht, -⟩ := decodeVarint_sound hk
      exact ⟨t, e, v, ht, by omega, by omega, by omega⟩

theorem readTag_complete {t : Bytes} {f w : Nat} (h : Tag t f w) (r : Bytes) : readTag (t ++ r) = some ((f, w), r) := by
  obtain ⟨v, h1, h2, h3, h4⟩ := h
  unfold readTag
  rw [decodeVarint_complete h1]
  simp only
  rw [if_neg (by omega), show v % 2 ^ 32 / 8 = f by omega, show v % 8 = w by omega]

theorem Tag.ne_nil {t : Bytes} {f w : Nat} (h : Tag t f w) : t ≠ [] := by
  obtain ⟨v, h1, _⟩ := h
  exact Varint.ne_nil h1

theorem readBytes_sound {bs b r : Bytes} (h : readBytes bs = some (b, r)) : ∃ t, bs = t ++ r ∧ Sized32 t b := by
  unfold readBytes at h
  split at h
  · cases h
  · rename_i n r' hk
    obtain ⟨t, rfl, ht, -⟩ := decodeVarint_sound hk
    obtain ⟨rfl, hl⟩ := takeBytes_sound h
    exact ⟨t ++ b, by simp, .mk ht hl.symm⟩

theorem readBytes_complete {t b : Bytes} (h : Sized32 t b) (r : Bytes) : readBytes (t ++ r) = some (b, r) := by
  cases h with
  | @mk l b n hl hn =>
    unfold readBytes
    rw [List.append_assoc, decodeVarint_complete hl]
    simp only
    rw [hn, takeBytes_append]

theorem readMessage_sound {bs b r : Bytes} (h : readMessage bs = some (b, r)) : ∃ t, bs = t ++ r ∧ Sized t b := by
  unfold readMessage at h
  split at h
  · cases h
  · rename_i n r' hk
    obtain ⟨t, rfl, ht, -⟩ := decodeVarint_sound hk
    obtain ⟨rfl, rfl⟩ := takeBytes_sound h
    exact ⟨t ++ b, by simp, .mk ht⟩

theorem readMessage_complete {t b : Bytes} (h : Sized t b) (r : Bytes) : readMessage (t ++ r) = some (b, r) := by
  cases h with
  | @mk l b hl =>
    unfold readMessage
    rw [List.append_assoc, decodeVarint_complete hl]
    simp only
    rw [takeBytes_append]

theorem skip_sound {wire : Nat} {bs r : Bytes} (h : skip wire bs = some r) : ∃ t, bs = t ++ r ∧ Skipped wire t := by
  unfold skip at h
  split at h
  · rw [Option.map_eq_some_iff] at h
    obtain ⟨⟨n, r'⟩, h1, rfl⟩ := h
    obtain ⟨t, e, ht, -⟩ := decodeVarint_sound h1
    exact ⟨t, e, .number ht⟩
  · rw [Option.map_eq_some_iff] at h
    obtain ⟨⟨b, r'⟩, h1, rfl⟩ := h
    obtain ⟨e, hl⟩ := takeBytes_sound h1
    exact ⟨b, e, .eight hl⟩
  · rw [Option.map_eq_some_iff] at h
    obtain ⟨⟨b, r'⟩, h1, rfl⟩ := h
    obtain ⟨t, e, ht⟩ := readBytes_sound h1
    exact ⟨t, e, .sized ht⟩
  · rw [Option.map_eq_some_iff] at h
    obtain ⟨⟨b, r'⟩, h1, rfl⟩ := h
    obtain ⟨e, hl⟩ := takeBytes_sound h1
    exact ⟨b, e, .four hl⟩
  · cases h

theorem skip_complete {wire : Nat} {t : Bytes} (h : Skipped wire t) (r : Bytes) : skip wire (t ++ r) = some r := by
  cases h with
  | number h => simp only [skip, decodeVarint_complete h]; rfl
  | eight h => simp only [skip]; rw [← h, takeBytes_append]; rfl
  | sized h => simp only [skip, readBytes_complete h]; rfl
  | four h => simp only [skip]; rw [← h, takeBytes_append]; rfl

/-- The reader of a field does what `S` describes. -/
structure Reads {α : Type} (field : α → Nat → Nat → Bytes → Option (α × Bytes)) (S : Bytes → (α → α) → Prop) : Prop where
  sound : ∀ {a a' tag wire bs r k}, Tag k tag wire → field a tag wire bs = some (a', r) → ∃ t f, bs = t ++ r ∧ S (k ++ t) f ∧ a' = f a
  complete : ∀ {t f}, S t f → ∃ k u tag wire, t = k ++ u ∧ Tag k tag wire ∧ ∀ a r, field a tag wire (u ++ r) = some (f a, r)

theorem Reads.ne_nil {α : Type} {field : α → Nat → Nat → Bytes → Option (α × Bytes)} {S : Bytes → (α → α) → Prop} (h : Reads field S) {t : Bytes} {f : α → α} (hs : S t f) : t ≠ [] := by
  obtain ⟨k, u, tag, wire, rfl, hk, -⟩ := h.complete hs
  exact fun e => Tag.ne_nil hk (List.append_eq_nil_iff.1 e).1

theorem merge_sound {α : Type} {field : α → Nat → Nat → Bytes → Option (α × Bytes)} {S : Bytes → (α → α) → Prop} (h : Reads field S) (f : Nat) :
    ∀ {a a' : α} {bs : Bytes}, merge field f a bs = some a' → Changes S a bs a' := by
  induction f with
  | zero =>
    intro a a' bs e
    rcases bs with _ | ⟨b, bs⟩
    · cases e; exact .nil
    · cases e
  | succ f ih =>
    intro a a' bs e
    rcases bs with _ | ⟨b, bs⟩
    · cases e; exact .nil
    · rw [merge] at e
      split at e
      · cases e
      · rename_i tag wire r hk
        split at e
        · rename_i s1 r' hm
          obtain ⟨k, he, hkey⟩ := readTag_sound hk
          obtain ⟨t, g, rfl, hs, rfl⟩ := h.sound hkey hm
          rw [he, ← List.append_assoc]
          exact .cons hs (ih e)
        · cases e

theorem merge_complete {α : Type} {field : α → Nat → Nat → Bytes → Option (α × Bytes)} {S : Bytes → (α → α) → Prop} (h : Reads field S) {a a' : α} {bs : Bytes} (hc : Changes S a bs a') :
    ∀ f, bs.length ≤ f → merge field f a bs = some a' := by
  induction hc with
  | nil => intro f _; cases f <;> rfl
  | @cons a a' t u g ht _ ih =>
    intro f hf
    have hne := h.ne_nil ht
    have : 0 < t.length := List.length_pos_iff.2 hne
    obtain ⟨f, rfl⟩ : ∃ k, f = k + 1 := ⟨f - 1, by simp at hf; omega⟩
    obtain ⟨k, v, tag, wire, rfl, hk, hfield⟩ := h.complete ht
    have hu : merge field (f + 1) a ((k ++ v) ++ u) = match readTag ((k ++ v) ++ u) with
        | none => none
        | some ((tag, wire), r) =>
          match field a tag wire r with
          | some (a', r') => merge field f a' r'
          | none => none := by
      obtain ⟨b, m, e⟩ := List.exists_cons_of_ne_nil hne
      rw [e]; rfl
    rw [hu, List.append_assoc, readTag_complete hk]
    simp only [hfield]
    exact ih f (by simp only [List.length_append] at hf this; omega)

theorem merge_iff {α : Type} {field : α → Nat → Nat → Bytes → Option (α × Bytes)} {S : Bytes → (α → α) → Prop} (h : Reads field S) (a a' : α) (bs : Bytes) :
    merge field bs.length a bs = some a' ↔ Changes S a bs a' := ⟨merge_sound h _, fun hc => merge_complete h hc _ (Nat.le_refl _)⟩

theorem reads_key : Reads keyField SetsKey := by
  refine ⟨?_, ?_⟩
  · intro a a' tag wire bs r k hk h
    unfold keyField at h
    split at h
    · split at h
      · rename_i hw
        subst hw
        obtain ⟨t, e, ht⟩ := readBytes_sound h
        exact ⟨t, _, e, .data hk ht, rfl⟩
      · cases h
    · rename_i h1
      rw [Option.map_eq_some_iff] at h
      obtain ⟨r', hs, h4⟩ := h
      cases h4
      obtain ⟨t, e, ht⟩ := skip_sound hs
      obtain ⟨v, -, -, h0, -⟩ := id hk
      have h1' : tag ≠ 1 := h1
      exact ⟨t, id, e, .unknown hk (by omega) ht, rfl⟩
  · intro t f h
    cases h with
    | @data k t b hk ht => exact ⟨k, t, 1, 2, rfl, hk, fun a r => by simp only [keyField, if_true]; exact readBytes_complete ht r⟩
    | @unknown k t field wire hk hf ht =>
      refine ⟨k, t, field, wire, rfl, hk, fun a r => ?_⟩
      unfold keyField
      split
      · omega
      · rw [skip_complete ht]; rfl

theorem readKey_iff (bs k : Bytes) : readKey bs = some k ↔ HoldsKey bs k := merge_iff reads_key _ _ _

/-- The specification's parts are the reader's. -/
def partsOf (a : Raw) : Parts := ⟨a.key, a.id, a.data⟩
def rawOf (p : Parts) : Raw := ⟨p.key, p.label, p.content⟩

/-- The specification, said of the reader's type. -/
def SetsRaw (t : Bytes) (f : Raw → Raw) : Prop := ∃ g, SetsPart t g ∧ ∀ a, partsOf (f a) = g (partsOf a)

theorem reads_tx : Reads txField SetsRaw := by
  refine ⟨?_, ?_⟩
  · intro a a' tag wire bs r k hk h
    unfold txField at h
    split at h
    · split at h
      · rename_i hw
        subst hw
        split at h
        · rename_i b r' hm
          rw [Option.map_eq_some_iff] at h
          obtain ⟨x, hx, h4⟩ := h
          cases h4
          obtain ⟨t, e, ht⟩ := readMessage_sound hm
          exact ⟨t, fun a => { a with key := x }, e, ⟨_, .key hk ht ((readKey_iff _ _).1 hx), fun _ => rfl⟩, rfl⟩
        · cases h
      · cases h
    · split at h
      · rename_i hw
        subst hw
        split at h
        · rename_i b r' hm
          split at h
          · rename_i hu
            cases h
            obtain ⟨t, e, ht⟩ := readBytes_sound hm
            exact ⟨t, fun a => { a with id := b }, e, ⟨_, .label hk ht ((validUtf8_iff _).1 hu), fun _ => rfl⟩, rfl⟩
          · cases h
        · cases h
      · cases h
    · split at h
      · rename_i hw
        subst hw
        rw [Option.map_eq_some_iff] at h
        obtain ⟨⟨b, r'⟩, hb, h4⟩ := h
        cases h4
        obtain ⟨t, e, ht⟩ := readBytes_sound hb
        exact ⟨t, fun a => { a with data := b }, e, ⟨_, .content hk ht, fun _ => rfl⟩, rfl⟩
      · cases h
    · rename_i h1 h2 h3
      rw [Option.map_eq_some_iff] at h
      obtain ⟨r', hs, h4⟩ := h
      cases h4
      obtain ⟨t, e, ht⟩ := skip_sound hs
      obtain ⟨v, -, -, h0, -⟩ := id hk
      have h1' : tag ≠ 1 := h1
      have h2' : tag ≠ 2 := h2
      have h3' : tag ≠ 3 := h3
      exact ⟨t, id, e, ⟨_, .unknown hk (by omega) ht, fun _ => rfl⟩, rfl⟩
  · rintro t f ⟨g, h, hfg⟩
    have hf : ∀ a, f a = rawOf (g (partsOf a)) := fun a => by rw [← hfg]; rfl
    cases h with
    | @key k t b x hk ht hx =>
      refine ⟨k, t, 1, 2, rfl, hk, fun a r => ?_⟩
      simp only [txField, if_true]
      rw [readMessage_complete ht, hf]
      simp only [(readKey_iff _ _).2 hx]
      rfl
    | @label k t b hk ht hu =>
      refine ⟨k, t, 2, 2, rfl, hk, fun a r => ?_⟩
      simp only [txField, if_true]
      rw [readBytes_complete ht, hf]
      simp only [(validUtf8_iff b).2 hu]
      rfl
    | @content k t b hk ht =>
      refine ⟨k, t, 3, 2, rfl, hk, fun a r => ?_⟩
      simp only [txField, if_true]
      rw [readBytes_complete ht, hf]
      rfl
    | @unknown k t field wire hk hn ht =>
      refine ⟨k, t, field, wire, rfl, hk, fun a r => ?_⟩
      rw [hf]
      unfold txField
      split
      · omega
      · omega
      · omega
      · rw [skip_complete ht]; rfl

theorem changes_raw {a a' : Raw} {bs : Bytes} : Changes SetsRaw a bs a' ↔ Changes SetsPart (partsOf a) bs (partsOf a') := by
  constructor
  · intro h
    induction h with
    | nil => exact .nil
    | cons hs _ ih =>
      obtain ⟨g, hg, hfg⟩ := hs
      rw [hfg] at ih
      exact .cons hg ih
  · intro h
    generalize hp : partsOf a = p at h
    generalize hp' : partsOf a' = p' at h
    induction h generalizing a with
    | nil =>
      have : a = a' := by
        have := congrArg rawOf (hp.trans hp'.symm)
        exact this
      rw [this]; exact .nil
    | @cons p p' t u g hs _ ih =>
      refine .cons (f := fun a => rawOf (g (partsOf a))) ⟨g, hs, fun a => rfl⟩ (ih ?_ hp')
      rw [← hp]; rfl

theorem decode_iff (bs : Bytes) (e : Envelope) : decode bs = some e ↔ Says bs e := by
  have key : Says bs e ↔ merge txField bs.length ⟨[], [], []⟩ bs = some ⟨e.pubKey.val, e.id, e.data⟩ := by
    rw [merge_iff reads_tx, changes_raw]
    rfl
  rw [key]
  unfold decode
  constructor
  · intro h
    split at h
    · cases h
    · rename_i a ha
      split at h
      · cases h; exact ha
      · cases h
  · intro h
    rw [h]
    simp only
    rw [dif_pos e.pubKey.property]

/-! ## What is written is read -/

theorem varint_enc {n : Nat} (h : n < 2 ^ 64) : Varint (encodeVarint n) n := by
  obtain ⟨t, e, ht, -⟩ := decodeVarint_sound (decodeVarint_enc h [])
  rw [List.append_nil, List.append_nil] at e
  rwa [e]

theorem tag_byte {b : UInt8} (hb : b.toNat < 128) {f w : Nat} (h : b.toNat = 8 * f + w) (hf : 0 < f) (hw : w ≤ 5) : Tag [b] f w :=
  ⟨b.toNat, ⟨by simp, b.toNat, .last hb, by omega⟩, by omega, hf, hw⟩

theorem sized32_enc {b : Bytes} (h : b.length < 2 ^ 32) : Sized32 (encodeVarint b.length ++ b) b :=
  .mk (varint_enc (by omega)) (by omega)

theorem changes_append {α : Type} {S : Bytes → (α → α) → Prop} {a b c : α} {t u : Bytes} (h : Changes S a t b) (h' : Changes S b u c) : Changes S a (t ++ u) c := by
  induction h with
  | nil => exact h'
  | cons hs _ ih => rw [List.append_assoc]; exact .cons hs (ih h')

theorem changes_one {α : Type} {S : Bytes → (α → α) → Prop} {a : α} {t : Bytes} {f : α → α} (h : S t f) : Changes S a t (f a) := by
  have := Changes.cons (a := a) h Changes.nil
  rwa [List.append_nil] at this

theorem holdsKey_enc (k : BArr 32) : HoldsKey (putBytes 0x0a k.val) k.val := by
  have hne : k.val ≠ [] := fun e => by have := k.property; rw [e] at this; cases this
  unfold putBytes
  rw [if_neg hne]
  exact changes_one (S := SetsKey) (a := []) (.data (k := [0x0a]) (tag_byte (by decide) (by decide) (by decide) (by decide)) (sized32_enc (by rw [k.property]; decide)))

theorem putBytes_length (key : UInt8) (k : BArr 32) : (putBytes key k.val).length = 34 := by
  have hne : k.val ≠ [] := fun e => by have := k.property; rw [e] at this; cases this
  unfold putBytes
  rw [if_neg hne, k.property]
  simp only [List.cons_append, List.length_cons, List.length_append, k.property]
  decide

theorem says_encode (e : Envelope) (hi : validUtf8 e.id = true) (hl : e.id.length < 2 ^ 32) (hd : e.data.length < 2 ^ 32) : Says (encode e) e := by
  unfold Spec.Wire.Says encode
  refine changes_append (b := ⟨e.pubKey.val, e.id, []⟩) (changes_append (b := ⟨e.pubKey.val, [], []⟩) ?_ ?_) ?_
  · have hs : Sized (encodeVarint (putBytes 0x0a e.pubKey.val).length ++ putBytes 0x0a e.pubKey.val) (putBytes 0x0a e.pubKey.val) := .mk (varint_enc (by rw [putBytes_length]; decide))
    exact changes_one (S := SetsPart) (a := ⟨[], [], []⟩) (.key (k := [0x0a]) (tag_byte (by decide) (by decide) (by decide) (by decide)) hs (holdsKey_enc e.pubKey))
  · unfold putBytes
    split
    · rename_i h; rw [h]; exact .nil
    · exact changes_one (S := SetsPart) (a := ⟨e.pubKey.val, [], []⟩)
        (.label (k := [0x12]) (tag_byte (by decide) (by decide) (by decide) (by decide)) (sized32_enc hl) ((validUtf8_iff _).1 hi))
  · unfold putBytes
    split
    · rename_i h; rw [h]; exact .nil
    · exact changes_one (S := SetsPart) (a := ⟨e.pubKey.val, e.id, []⟩) (.content (k := [0x1a]) (tag_byte (by decide) (by decide) (by decide) (by decide)) (sized32_enc hd))

theorem decode_encode (e : Envelope) (hi : validUtf8 e.id = true) (hl : e.id.length < 2 ^ 32) (hd : e.data.length < 2 ^ 32) : decode (encode e) = some e :=
  (decode_iff _ _).2 (says_encode e hi hl hd)

/-! ## What is read can be written -/

theorem changes_inv {α : Type} {S : Bytes → (α → α) → Prop} (Q : α → Prop) {a b : α} {t : Bytes} (h : Changes S a t b) (h0 : Q a)
    (hs : ∀ u f a, S u f → u.length ≤ t.length → Q a → Q (f a)) : Q b := by
  induction h with
  | nil => exact h0
  | @cons a b t u f hsf _ ih =>
    exact ih (hs _ _ _ hsf (by simp) h0) fun v g a hg hv => hs v g a hg (by simp; omega)

theorem sized32_le {t b : Bytes} (h : Sized32 t b) : b.length ≤ t.length := by
  cases h; simp

/-- Label and content of what is read are no longer than what was sent, and the label is text. -/
theorem decode_bounds {bs : Bytes} {e : Envelope} (h : decode bs = some e) : validUtf8 e.id = true ∧ e.id.length ≤ bs.length ∧ e.data.length ≤ bs.length := by
  rw [decode_iff] at h
  refine changes_inv (fun p : Parts => validUtf8 p.label = true ∧ p.label.length ≤ bs.length ∧ p.content.length ≤ bs.length) h ⟨rfl, by simp, by simp⟩ ?_
  intro u f p hs hu hp
  cases hs with
  | key => exact hp
  | @label k t b hk ht hb =>
    have := sized32_le ht
    simp only [List.length_append] at hu
    exact ⟨(validUtf8_iff _).2 hb, by show b.length ≤ _; omega, hp.2.2⟩
  | @content k t b hk ht =>
    have := sized32_le ht
    simp only [List.length_append] at hu
    exact ⟨hp.1, hp.2.1, by show b.length ≤ _; omega⟩
  | unknown => exact hp

end CB.Exonum.Wire
