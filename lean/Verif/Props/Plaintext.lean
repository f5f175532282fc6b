import Verif.Lemmas.ProtoText
import Verif.Props.Decrypting
import Verif.Spec.Cbor
/-!
# C95: which plaintext is which vote
-/

namespace CB
open Spec

/-- A vote with the score 300 given as 300 with a superfluous digit, after an earlier score 1, an unknown group holding an unknown number, and a text. -/
def oddPlaintext : Bytes :=
  [0x10, 0x01] ++ [0x2b, 0x30, 0x07, 0x2c] ++ [0x10, 0xac, 0x82, 0x00] ++ [0x1a, 0x02] ++ str "ab"

/-- **C95** The decoder makes a selection of exactly the bytes that say it: protobuf fields in any order, the last of a number counting, fields of other numbers (of any
wire type, groups nested less than 100 deep) without meaning; anything else is refused. -/
theorem C95_decoder_reads_exactly (bs : Bytes) (s : Selection) : Selection.decode bs = some s ↔ Says bs s := Selection.decode_iff bs s

example : Says oddPlaintext ⟨false, 300, str "ab"⟩ := (C95_decoder_reads_exactly _ _).1 (by decide +kernel)
example : (∀ s, ¬ Says [0x08] s) ∧ (∀ s, ¬ Says [0x1a, 0x01, 0xff] s) ∧ (∀ s, ¬ Says [0x0a, 0x00] s) ∧ ∀ s, ¬ Says [0x2b, 0x34] s := by
  refine ⟨?_, ?_, ?_, ?_⟩ <;> intro s h <;>
    · have h1 := (C95_decoder_reads_exactly _ s).2 h
      revert h1
      rw [show Selection.decode _ = none by decide +kernel]
      simp

/-- **C95** No bytes say two selections. -/
theorem C95_plaintext_is_unambiguous {bs : Bytes} {s s' : Selection} (h : Says bs s) (h' : Says bs s') : s = s' := by
  rw [← C95_decoder_reads_exactly] at h h'
  exact Option.some.inj (h.symm.trans h')

/-- **C95** What the client encrypts says the voter's selection. -/
theorem C95_encoded_selection_says_it (s : Selection) (h : IsText s.selection) : Says s.encode s :=
  (C95_decoder_reads_exactly _ _).1 (Selection.decode_encode s h.1 h.2)

example : Says (Selection.encode ⟨true, 7, str "x"⟩) ⟨true, 7, str "x"⟩ := C95_encoded_selection_says_it _ ⟨by decide +kernel, by decide +kernel⟩

theorem Selection.updates_append {s s1 s2 : Selection} {a b : Bytes} (h : Updates s a s1) (h' : Updates s1 b s2) : Updates s (a ++ b) s2 := by
  induction h with
  | nil => exact h'
  | cons ht _ ih => rw [List.append_assoc]; exact .cons ht (ih h')

theorem Selection.merge_append {s s1 : Selection} {a : Bytes} (h : Updates s a s1) (b : Bytes) :
    ∀ f, a.length ≤ f → ∃ f', Selection.merge f s (a ++ b) = Selection.merge f' s1 b := by
  induction h with
  | nil => intro f _; exact ⟨f, rfl⟩
  | @cons s s' t u g ht _ ih =>
    intro f hf
    have : 0 < t.length := List.length_pos_iff.2 (Selection.Sets.ne_nil ht)
    obtain ⟨f, rfl⟩ : ∃ k, f = k + 1 := ⟨f - 1, by simp at hf; omega⟩
    obtain ⟨f', h'⟩ := ih f (by simp at hf; omega)
    exact ⟨f', by rw [List.append_assoc, Selection.merge_field ht, h']⟩

/-- **C95** Bytes put behind a plaintext are read as changes to what it says: the later ones win. -/
theorem C95_later_fields_win {a b : Bytes} {s : Selection} (h : Says a s) (s' : Selection) : Says (a ++ b) s' ↔ Updates s b s' := by
  refine ⟨fun h' => ?_, fun h' => Selection.updates_append h h'⟩
  obtain ⟨f, hf⟩ := Selection.merge_append h b (a ++ b).length (by simp)
  exact Selection.merge_sound f (hf.symm.trans (Selection.merge_complete h' _ (Nat.le_refl _)))

example : Says (str "" ++ [0x1a, 0x01] ++ str "a" ++ ([0x1a, 0x01] ++ str "b")) ⟨false, 0, str "b"⟩ := (C95_decoder_reads_exactly _ _).1 (by decide +kernel)

/-- **C95** In an accepted decryption each selection is what the plaintext of its ciphertext says: the one found by threshold decryption with the stored shares. -/
theorem C95_accepted_decryption_says_the_plaintext (E : Env) (m : MemStore) (hm : Replay E m) (t : DecryptionTx) (sig : Signature)
    (h : (SignedTx.decryption ⟨t, sig⟩).validate E m.toStore = .ok ()) :
    ∃ e cts, ElectionAt m.toStore t.electionId e ∧ ItemAt m.toStore t.upstreamId t.upstreamIndex t.contestIndex e.mixConfig cts ∧
      t.decryptedVote.length = cts.length ∧
      ∀ (j : Nat) (c : Ciphertext), cts[j]? = some c → ∃ shares raw s, Shares m.toStore t j e.trustees shares ∧
        E.thresholdDecrypt e.trusteesThreshold.toNat c shares = .ok raw ∧ t.decryptedVote[j]? = some s ∧ Says raw s := by
  obtain ⟨-, e, cts, he, hc, -, -, hl, hs⟩ := C30_decryption_is_threshold_decryption_partial E m hm t sig h
  refine ⟨e, cts, he, hc, hl, fun j c hj => ?_⟩
  have hi : j < t.decryptedVote.length := by rw [hl]; exact (List.getElem?_eq_some_iff.1 hj).1
  obtain ⟨sh, raw, a, b, d⟩ := hs j c t.decryptedVote[j] hj (List.getElem?_eq_getElem hi)
  exact ⟨sh, raw, _, a, b, List.getElem?_eq_getElem hi, (C95_decoder_reads_exactly _ _).1 d⟩

example : Replay Toy.env (MemStore.ofList (Toy.complete.take 17)) ∧ (Toy.decTx 0 "a").validate Toy.env (MemStore.ofList (Toy.complete.take 17)).toStore = .ok () :=
  ⟨replay_of_run (by decide +kernel), by decide +kernel⟩

theorem Selection.varint_encode {n : Nat} (h : n < 2 ^ 64) : Varint (encodeVarint n) n := by
  obtain ⟨t, e, ht, -⟩ := decodeVarint_sound (decodeVarint_enc h [])
  rw [List.append_nil, List.append_nil] at e
  rwa [e]

/-- The plaintext followed by a field 4 with the given content. -/
def marked (s : Selection) (mark : Bytes) : Bytes := s.encode ++ (0x22 :: encodeVarint mark.length ++ mark)

/-- **C95** A plaintext can carry any mark without a trace in the selection: for every selection and every bytes `mark` there is a plaintext that says the selection, and
different marks give different plaintexts. -/
theorem C95_plaintexts_can_be_marked (s : Selection) (h : IsText s.selection) :
    (∀ mark, mark.length < 2 ^ 64 → Says (marked s mark) s) ∧
    ∀ mark mark', mark.length < 2 ^ 64 → mark'.length < 2 ^ 64 → marked s mark = marked s mark' → mark = mark' := by
  refine ⟨fun mark hm => ?_, fun mark mark' hm hm' e => ?_⟩
  · refine (C95_later_fields_win (C95_encoded_selection_says_it s h) s).2 ?_
    have hk : FieldKey [0x22] 4 2 := ⟨⟨by simp, 34, by exact Base128.last (b := 0x22) (by decide), rfl⟩, by decide, by decide, by decide⟩
    have hs : Sets ([0x22] ++ (encodeVarint mark.length ++ mark)) id := .unknown hk (by decide) (.sized (.mk (Selection.varint_encode hm)))
    have := Updates.cons (s := s) (s' := s) hs .nil
    simpa using this
  · have e1 : encodeVarint mark.length ++ mark = encodeVarint mark'.length ++ mark' := by
      have := List.append_cancel_left e
      simpa using this
    have h1 := decodeVarint_enc hm mark
    rw [e1, decodeVarint_enc hm' mark'] at h1
    simp only [Option.some.injEq, Prod.mk.injEq] at h1
    exact h1.2.symm

example : IsText (str "candidate-7") ∧ marked ⟨true, 0, str "a"⟩ (str "sold to bob") ≠ Selection.encode ⟨true, 0, str "a"⟩ :=
  ⟨⟨by decide +kernel, by decide +kernel⟩, by decide +kernel⟩

/-- **C95 is false of the code** as far as equal selections would mean equal plaintexts. -/
theorem C95_one_plaintext_for_each_selection_false : ¬ ∀ (a b : Bytes) (s : Selection), Says a s → Says b s → a = b := by
  intro h
  have h1 := C95_plaintexts_can_be_marked ⟨true, 0, str "a"⟩ ⟨by decide +kernel, by decide +kernel⟩
  have := h1.2 [1] [2] (by decide) (by decide) (h _ _ _ (h1.1 [1] (by decide)) (h1.1 [2] (by decide)))
  exact absurd this (by decide)

end CB
