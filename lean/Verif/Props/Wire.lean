import Verif.Lemmas.Wire
import Verif.Lemmas.SerdeFits
import Verif.Props.Encoding
/-!
# C103: submissions and the ledger in bytes
-/

namespace CB
open Spec
namespace Exonum
open Wire

/-- **C103** A node takes exactly those bytes for a submission that say one: protobuf fields in any order, the last of a number counting, fields of other numbers without meaning. -/
theorem C103_reader_reads_exactly (bs : Bytes) (e : Envelope) : Wire.decode bs = some e ↔ Spec.Wire.Says bs e := Wire.decode_iff bs e

/-- **C103** No bytes say two submissions. -/
theorem C103_submission_is_unambiguous {bs : Bytes} {e e' : Envelope} (h : Spec.Wire.Says bs e) (h' : Spec.Wire.Says bs e') : e = e' := by
  rw [← C103_reader_reads_exactly] at h h'
  exact Option.some.inj (h.symm.trans h')

/-- **C103** What is written is read back: every submission with a label of text, shorter than 4 GiB. -/
theorem C103_wire_roundtrip (e : Envelope) (hi : Utf8 e.id) (hl : e.id.length < 2 ^ 32) (hd : e.data.length < 2 ^ 32) :
    Wire.decode (Wire.encode e) = some e := Wire.decode_encode e ((validUtf8_iff _).2 hi) hl hd

theorem Wire.utf8_ofTx (t : SignedTx) : Utf8 (Envelope.ofTx t).id := by
  refine (validUtf8_iff _).1 (validUtf8_ascii fun c hc => ?_)
  exact lower_lt c (hexEncode_lower _ c hc)

example : Utf8 (str "any label") ∧ Wire.decode (Wire.encode ⟨BArr.fill 32 9, str "any label", [1, 2, 3]⟩) = some ⟨BArr.fill 32 9, str "any label", [1, 2, 3]⟩ :=
  ⟨(validUtf8_iff _).1 (by decide +kernel), C103_wire_roundtrip _ ((validUtf8_iff _).1 (by decide +kernel)) (by decide +kernel) (by decide)⟩

/-- Fields in another order, a label given twice, an unknown field, a size with a superfluous digit. -/
def Wire.odd : Bytes := [0x1a, 0x81, 0x00, 0x05] ++ [0x12, 0x01, 0x61] ++ [0x48, 0x07] ++ ([0x0a, 0x22, 0x0a, 0x20] ++ List.replicate 32 9) ++ [0x12, 0x01, 0x62]
example : Spec.Wire.Says Wire.odd ⟨BArr.fill 32 9, str "b", [5]⟩ := (C103_reader_reads_exactly _ _).1 (by rfl)
/-- No key, a key of the wrong size, a label that is not text, content cut short. -/
example : Wire.decode [0x1a, 0x01, 0x05] = none ∧ Wire.decode [0x0a, 0x03, 0x0a, 0x01, 0x09] = none ∧
    Wire.decode ([0x0a, 0x22, 0x0a, 0x20] ++ List.replicate 32 9 ++ [0x12, 0x01, 0xff]) = none ∧
    Wire.decode ([0x0a, 0x22, 0x0a, 0x20] ++ List.replicate 32 9 ++ [0x1a, 0x02, 0x05]) = none := ⟨rfl, rfl, rfl, rfl⟩

/-- **C103** What clients and nodes send of a transaction is read as that transaction under its own id. -/
theorem C103_sent_is_received (t : SignedTx) (h : t.asBytes.length < 2 ^ 32) : Wire.decode (Wire.encode (Envelope.ofTx t)) = some (Envelope.ofTx t) := by
  refine C103_wire_roundtrip _ (Wire.utf8_ofTx t) ?_ h
  show t.id.toString.length < _
  rw [Identifier.toString_length]
  decide

namespace Wire

/-- the storage that holds the ledger -/
def Holds (s : Storage) (m : Schema) : Prop :=
  s.entries = m.entries.map (fun e => (e.1, encode e.2)) ∧ ∀ e ∈ m.entries, decode (encode e.2) = some e.2

theorem read_of_holds {s : Storage} {m : Schema} (h : Holds s m) : s.read = some m := by
  obtain ⟨he, hd⟩ := h
  have h1 : ∀ e ∈ s.entries, (decode e.2).isSome = true := by
    intro e hm
    rw [he, List.mem_map] at hm
    obtain ⟨x, hx, rfl⟩ := hm
    simp [hd x hx]
  have h2 : (s.entries.map fun e => (e.1, (decode e.2).getD ⟨BArr.fill 32 0, [], []⟩)) = m.entries := by
    rw [he, List.map_map]
    conv => rhs; rw [← List.map_id m.entries]
    refine List.map_congr_left fun e hm => ?_
    simp [hd e hm]
  unfold Storage.read
  rw [if_pos h1]
  congr 1
  cases m
  simpa using h2

theorem insert_of_verify {E : Env} {m m' : Schema} {e : Envelope} (hv : verifyAndStore E m e = .ok m') : m' = m.insert e.id e := by
  unfold verifyAndStore at hv
  split at hv
  · cases hv
  · cases h1 : SignedTx.fromBytes e.data <;> rw [h1] at hv <;> try cases hv
    rename_i t
    simp only [Res.mapErr, Res.bind] at hv
    cases h2 : t.validate E (toStore m) <;> rw [h2] at hv <;> cases hv
    rfl

theorem holds_submit (E : Env) {s : Storage} {m : Schema} (h : Holds s m) (msg : Bytes) (hl : msg.length < 2 ^ 32) :
    Holds (submit E s msg) (match decode msg with | some e => deliver E m e | none => m) := by
  unfold submit
  rw [read_of_holds h]
  cases hd : decode msg with
  | none => exact h
  | some e =>
    simp only
    unfold deliver
    cases hv : verifyAndStore E m e with
    | err => exact h
    | panic => exact h
    | ok m' =>
      simp only
      have hm' := insert_of_verify hv
      subst hm'
      obtain ⟨b1, b2, b3⟩ := decode_bounds hd
      refine ⟨?_, ?_⟩
      · show OMap.insertList e.id (encode e) s.entries = (OMap.insertList e.id e m.entries).map _
        rw [insertList_map, h.1]
      · intro x hx
        rcases OMap.mem_insertList hx with rfl | hx
        · exact decode_encode e b1 (by omega) (by omega)
        · exact h.2 x hx

theorem holds_submitAll (E : Env) : ∀ (msgs : List Bytes) (s : Storage) (m : Schema), (∀ m ∈ msgs, m.length < 2 ^ 32) → Holds s m →
    Holds (submitAll E s msgs) (deliverAll E m (msgs.filterMap Wire.decode)) := by
  intro msgs
  induction msgs with
  | nil => intro s m _ hh; exact hh
  | cons x l ih =>
    intro s m hl hh
    have h1 := holds_submit E hh x (hl x (by simp))
    have h2 := ih _ _ (fun y hy => hl y (by simp [hy])) h1
    show Holds (submitAll E (submit E s x) l) _
    rw [List.filterMap_cons]
    cases hd : Wire.decode x with
    | none => rw [hd] at h2; exact h2
    | some e => rw [hd] at h2; exact h2

end Wire

/-- **C103** Whatever messages reach the service in whatever order, the bytes on the ledger all can be read, and what is read is what the submissions among the messages have left there. -/
theorem C103_storage_is_the_ledger (E : Env) (msgs : List Bytes) (h : ∀ m ∈ msgs, m.length < 2 ^ 32) :
    (submitAll E OMap.empty msgs).read = some (deliverAll E OMap.empty (msgs.filterMap Wire.decode)) := by
  exact read_of_holds (holds_submitAll E msgs _ _ h ⟨rfl, fun e he => by cases he⟩)

/-- **C103** The bytes that a submission comes in make no difference, and sent again, in whatever bytes, it changes nothing. -/
theorem C103_carried_out_once (E : Env) (msgs : List Bytes) (h : ∀ m ∈ msgs, m.length < 2 ^ 32) {a b : Bytes} {e : Envelope} (ha : Spec.Wire.Says a e) (hb : Spec.Wire.Says b e)
    (hl : a.length < 2 ^ 32) :
    submitAll E OMap.empty (msgs ++ [b]) = submitAll E OMap.empty (msgs ++ [a]) ∧ submitAll E OMap.empty (msgs ++ [a, b]) = submitAll E OMap.empty (msgs ++ [a]) := by
  rw [← C103_reader_reads_exactly] at ha hb
  have happ : ∀ l, submitAll E OMap.empty (msgs ++ l) = submitAll E (submitAll E OMap.empty msgs) l := fun l => List.foldl_append
  have hh := holds_submitAll E msgs OMap.empty OMap.empty h ⟨rfl, fun e he => by cases he⟩
  simp only [happ]
  generalize submitAll E OMap.empty msgs = s at hh
  generalize deliverAll E OMap.empty (msgs.filterMap Wire.decode) = m at hh
  have same : ∀ s, submit E s b = submit E s a := fun s => by unfold submit; rw [ha, hb]
  refine ⟨same s, ?_⟩
  show submit E (submit E s a) b = submit E s a
  have h2 := holds_submit E hh a hl
  rw [ha] at h2
  simp only at h2
  rw [same]
  generalize submit E s a = s' at h2
  unfold submit
  rw [ha, read_of_holds h2]
  simp only
  cases hv : verifyAndStore E m e with
  | ok m' =>
    have hm' := insert_of_verify hv
    have hsome : (deliver E m e).get e.id = some e := by
      unfold deliver
      rw [hv]
      simp only
      rw [hm', OMap.get_insert, if_pos rfl]
    have : verifyAndStore E (deliver E m e) e = .err .transactionAlreadyExists := by
      unfold verifyAndStore
      rw [if_pos (by rw [hsome]; rfl)]
    rw [this]
  | err x =>
    have : deliver E m e = m := by unfold deliver; rw [hv]
    rw [this, hv]
  | panic x =>
    have : deliver E m e = m := by unfold deliver; rw [hv]
    rw [this, hv]

example : (∀ m ∈ (Toy.complete.take 4).map fun t => Wire.encode (Envelope.ofTx t), m.length < 2 ^ 32) ∧ (Toy.complete.take 4).length = 4 ∧
    ((Toy.complete.take 4).map fun t => Wire.encode (Envelope.ofTx t)).filterMap (fun m => (Wire.decode m).map Envelope.id) = (Toy.complete.take 4).map fun t => t.id.toString := by
  refine ⟨by decide +kernel, by decide +kernel, by decide +kernel⟩

/-- The bytes of a submission followed by a field 9 that means nothing. -/
def Wire.marked (e : Envelope) : Bytes := Wire.encode e ++ [0x48, 0x07]

/-- **C103 is false of the code** as far as equal submissions would mean equal bytes: a message with an unknown field behind it is another message, and is carried out alike. -/
theorem C103_one_encoding_false : ¬ ∀ (a b : Bytes) (e : Envelope), Spec.Wire.Says a e → Spec.Wire.Says b e → a = b := by
  intro h
  let e : Envelope := ⟨BArr.fill 32 0, [], []⟩
  have := h (Wire.encode e) (Wire.marked e) e ((C103_reader_reads_exactly _ _).1 (by rfl)) ((C103_reader_reads_exactly _ _).1 (by rfl))
  exact absurd this (by decide)

end Exonum
end CB
