import Verif.Lemmas.Serde
import Verif.Lemmas.Proto
import Verif.Props.Robust
import Verif.Props.Identifiers
/-!
# C47–C49, C57: serialization
-/

namespace CB
open Spec

/-! ## C47 -/

/-- **C47** Serializing any signed transaction and deserializing the bytes gives the same transaction, up to the two unserialized trustee fields. -/
theorem C47_serialization_roundtrip (t : SignedTx) (h : RustData t) : SignedTx.fromBytes t.asBytes = .ok (forget t) := by
  unfold SignedTx.fromBytes SignedTx.asBytes
  rw [Cbor.decode_encode h]
  exact De.de_signedTx t

theorem forget_of_not_election (t : SignedTx) (h : kindOf t ≠ .election) : forget t = t := by
  cases t <;> first | rfl | exact absurd rfl h

/-- A transaction of any type but election comes back exactly. -/
theorem C47_roundtrip_exact (t : SignedTx) (h : RustData t) (hk : kindOf t ≠ .election) : SignedTx.fromBytes t.asBytes = .ok t := by
  rw [C47_serialization_roundtrip t h, forget_of_not_election t hk]

/-- What is lost does not matter for identity, signature or validity: the decoded transaction has the same id, the same signed bytes and the same verdict against every store. -/
theorem C47_forget_harmless (E : Env) (S : Store) (t : SignedTx) :
    (forget t).id = t.id ∧ signedBytes (forget t) = signedBytes t ∧ (forget t).validate E S = t.validate E S := by
  have hc : ∀ e : ElectionTx, (forgetElection e).toCbor = e.toCbor := by
    intro e
    have : (e.trustees.map forgetTrustee).map Trustee.toCbor = e.trustees.map Trustee.toCbor := by
      rw [List.map_map]; exact List.map_congr_left fun _ _ => rfl
    simp only [forgetElection, ElectionTx.toCbor, this]
  cases t with
  | election s =>
    refine ⟨rfl, ?_, ?_⟩
    · show (forgetElection s.tx).toCbor.encode = s.tx.toCbor.encode
      rw [hc]
    · rw [SignedTx.validate_eq, SignedTx.validate_eq]
      have hs : (forget (.election s)).verifySignature E = SignedTx.verifySignature E (.election s) := by
        simp only [forget, SignedTx.verifySignature, Signed.verifySignature, CBTransaction.asBytes, CBTransaction.pub, CBTransaction.toCbor, hc]
        rfl
      have hv : (forget (.election s)).validateInner E S = SignedTx.validateInner E (.election s) S := by
        show (forgetElection s.tx).validateTx = s.tx.validateTx
        simp [ElectionTx.validateTx, forgetElection]
      rw [hs, hv]
      rfl
  | _ => exact ⟨rfl, rfl, rfl⟩

/-- Serialized transactions are never confused: equal bytes mean equal transactions. -/
theorem C47_bytes_injective (t t' : SignedTx) (h : RustData t) (h' : RustData t') (e : t.asBytes = t'.asBytes) : forget t = forget t' := by
  have h1 := C47_serialization_roundtrip t h
  rw [e, C47_serialization_roundtrip t' h'] at h1
  exact (Res.ok.inj h1).symm

/-- Computable check for `Fits`, used in the examples. -/
def fitsCheck : Nat → Cbor → Bool
  | _, .uint _ => true
  | _, .nint n => decide (n.toNat < 2 ^ 63)
  | _, .bool _ => true
  | _, .null => true
  | _, .float n => finiteFloat n
  | _, .bytes b => decide (b.length < 2 ^ 64)
  | _, .text s => validUtf8 s && decide (s.length < 2 ^ 64)
  | d + 1, .array l => decide (l.length < 2 ^ 64) && l.all (fitsCheck d)
  | d + 1, .map l => decide (l.length < 2 ^ 64) && l.all fun e => (validUtf8 e.1 && decide (e.1.length < 2 ^ 64)) && fitsCheck d e.2
  | 0, _ => false

theorem fits_of_check : ∀ (d : Nat) (c : Cbor), fitsCheck d c = true → Fits d c := by
  intro d
  induction d with
  | zero =>
    intro c h
    cases c with
    | array l => simp [fitsCheck] at h
    | map l => simp [fitsCheck] at h
    | _ => first | (constructor; simpa [fitsCheck, IsText] using h) | constructor
  | succ d ih =>
    intro c h
    cases c with
    | array l =>
      simp only [fitsCheck, Bool.and_eq_true, List.all_eq_true, decide_eq_true_eq] at h
      exact .array h.1 fun c hc => ih c (h.2 c hc)
    | map l =>
      simp only [fitsCheck, Bool.and_eq_true, List.all_eq_true, decide_eq_true_eq] at h
      exact .map h.1 (fun e he => (h.2 e he).1) fun e he => ih _ (h.2 e he).2
    | _ => first | (constructor; simpa [fitsCheck, IsText] using h) | constructor

/-- Every transaction of the sample election (a complete election from creation to decrypted result) is Rust data. -/
theorem toy_rustData : ∀ t ∈ Toy.complete, RustData t := by
  have h : (Toy.complete.all fun t => fitsCheck 127 t.toCbor) = true := by decide +kernel
  exact fun t ht => fits_of_check _ _ (List.all_eq_true.1 h t ht)

example : Toy.complete.length = 19 ∧ ∀ t ∈ Toy.complete, SignedTx.fromBytes t.asBytes = .ok (forget t) :=
  ⟨by decide +kernel, fun t ht => C47_serialization_roundtrip t (toy_rustData t ht)⟩

/-! ## C48 -/

/-- The field names of a serialized transaction of each type. -/
def keysOf : Cbor → List Str
  | .map l => l.map Prod.fst
  | _ => []

/-- The unsigned serialization. -/
def innerCbor : SignedTx → Cbor
  | .election s => s.tx.toCbor
  | .keyGenCommitment s => s.tx.toCbor
  | .keyGenShare s => s.tx.toCbor
  | .keyGenPublicKey s => s.tx.toCbor
  | .encryptionKey s => s.tx.toCbor
  | .vote s => s.tx.toCbor
  | .votingEnd s => s.tx.toCbor
  | .mix s => s.tx.toCbor
  | .partialDecryption s => s.tx.toCbor
  | .decryption s => s.tx.toCbor

def typeKeys : TxType → List Str
  | .election => ["id", "authority_public", "trustees", "trustees_threshold", "authenticators", "authenticators_threshold", "mix_config", "ballots", "contests", "properties"].map str
  | .keyGenCommitment => ["id", "election", "trustee_index", "trustee_public_key", "x25519_public_key", "commitment"].map str
  | .keyGenShare => ["id", "election", "trustee_index", "trustee_public_key", "shares"].map str
  | .keyGenPublicKey => ["id", "election", "trustee_index", "trustee_public_key", "public_key", "public_key_proof"].map str
  | .encryptionKey => ["id", "election", "authority_public_key", "encryption_key"].map str
  | .vote => ["id", "election", "ballot_id", "encrypted_votes", "anonymous_key", "authentication"].map str
  | .votingEnd => ["id", "election", "authority_public_key"].map str
  | .mix => ["id", "election_id", "prev_mix_id", "trustee_index", "trustee_public_key", "mix_index", "contest_index", "batch", "vote_ids", "mixed_ciphertexts", "proof"].map str
  | .partialDecryption => ["id", "election_id", "upstream_id", "upstream_index", "contest_index", "trustee_index", "trustee_public_key", "partial_decryption"].map str
  | .decryption => ["id", "election_id", "upstream_id", "upstream_index", "contest_index", "trustees", "decrypted_vote"].map str

theorem typeKeys_inj : ∀ a b : TxType, typeKeys a = typeKeys b → a = b := by
  have : ∀ a b : TxType, a ≠ b → typeKeys a ≠ typeKeys b := by
    intro a b
    cases a <;> cases b <;> decide +kernel
  intro a b h
  exact Decidable.byContradiction fun hn => this a b hn h

theorem keysOf_inner (t : SignedTx) : keysOf (innerCbor t) = typeKeys (kindOf t) := by
  cases t <;> rfl

theorem fits_inner {t : SignedTx} (h : RustData t) : Fits 126 (innerCbor t) := by
  have key : ∀ a b c : Cbor, Fits 127 (.map [(str "type", a), (str "tx", b), (str "sig", c)]) → Fits 126 b := by
    intro a b c h
    cases h with
    | map _ _ h => exact h (str "tx", b) (by simp)
  unfold RustData at h
  cases t <;> exact key _ _ _ h

/-- **C48** Two transactions with the same signing bytes have the same type and the same content (up to the unserialized fields): a signature can never be moved to a
different transaction, nor to one of a different type. -/
theorem C48_signing_bytes_bind (t t' : SignedTx) (h : RustData t) (h' : RustData t') (e : signedBytes t = signedBytes t') :
    kindOf t = kindOf t' ∧ SameContent t t' := by
  have hi : innerCbor t = innerCbor t' := by
    refine Cbor.encode_inj (fits_inner h) (fits_inner h') ?_
    have : ∀ x, signedBytes x = (innerCbor x).encode := by intro x; cases x <;> rfl
    rw [← this, ← this, e]
  have hk : kindOf t = kindOf t' := by
    have := congrArg keysOf hi
    rw [keysOf_inner, keysOf_inner] at this
    exact typeKeys_inj _ _ this
  refine ⟨hk, fun sig => ?_⟩
  cases t <;> cases t' <;> try (exfalso; simp [kindOf] at hk; done)
  case election.election a b =>
    have h1 := De.de_election a.tx
    rw [show a.tx.toCbor = b.tx.toCbor from hi, De.de_election b.tx] at h1
    simp only [forget, withSig, (Res.ok.inj h1)]
  case keyGenCommitment.keyGenCommitment a b =>
    have h1 := De.de_keyGenCommitment a.tx
    rw [show a.tx.toCbor = b.tx.toCbor from hi, De.de_keyGenCommitment b.tx] at h1
    simp only [forget, withSig, (Res.ok.inj h1)]
  case keyGenShare.keyGenShare a b =>
    have h1 := De.de_keyGenShare a.tx
    rw [show a.tx.toCbor = b.tx.toCbor from hi, De.de_keyGenShare b.tx] at h1
    simp only [forget, withSig, (Res.ok.inj h1)]
  case keyGenPublicKey.keyGenPublicKey a b =>
    have h1 := De.de_keyGenPublicKey a.tx
    rw [show a.tx.toCbor = b.tx.toCbor from hi, De.de_keyGenPublicKey b.tx] at h1
    simp only [forget, withSig, (Res.ok.inj h1)]
  case encryptionKey.encryptionKey a b =>
    have h1 := De.de_encryptionKey a.tx
    rw [show a.tx.toCbor = b.tx.toCbor from hi, De.de_encryptionKey b.tx] at h1
    simp only [forget, withSig, (Res.ok.inj h1)]
  case vote.vote a b =>
    have h1 := De.de_vote a.tx
    rw [show a.tx.toCbor = b.tx.toCbor from hi, De.de_vote b.tx] at h1
    simp only [forget, withSig, (Res.ok.inj h1)]
  case votingEnd.votingEnd a b =>
    have h1 := De.de_votingEnd a.tx
    rw [show a.tx.toCbor = b.tx.toCbor from hi, De.de_votingEnd b.tx] at h1
    simp only [forget, withSig, (Res.ok.inj h1)]
  case mix.mix a b =>
    have h1 := De.de_mix a.tx
    rw [show a.tx.toCbor = b.tx.toCbor from hi, De.de_mix b.tx] at h1
    simp only [forget, withSig, (Res.ok.inj h1)]
  case partialDecryption.partialDecryption a b =>
    have h1 := De.de_partialDecryption a.tx
    rw [show a.tx.toCbor = b.tx.toCbor from hi, De.de_partialDecryption b.tx] at h1
    simp only [forget, withSig, (Res.ok.inj h1)]
  case decryption.decryption a b =>
    have h1 := De.de_decryption a.tx
    rw [show a.tx.toCbor = b.tx.toCbor from hi, De.de_decryption b.tx] at h1
    simp only [forget, withSig, (Res.ok.inj h1)]

/-- Two different sample transactions of the same type have different signed bytes; the same one has the same. -/
example : ¬ SameContent (Toy.voteTx 31 "a") (Toy.voteTx 32 "b") ∧ SameContent Toy.endTx (withSig (Toy.sig 9) Toy.endTx) := by
  refine ⟨fun h => ?_, fun _ => rfl⟩
  have := h (Toy.sig 0)
  simp only [Toy.voteTx, forget, withSig, SignedTx.vote.injEq, Signed.mk.injEq, and_true] at this
  have h2 := congrArg VoteTx.anonymousKey this
  revert h2
  decide +kernel

/-! ## C49 -/

/-- **C49** Encoding a selection for encryption and decoding the bytes gives the selection back. -/
theorem C49_selection_roundtrip (s : Selection) (h : IsText s.selection) : Selection.decode s.encode = some s :=
  Selection.decode_encode s h.1 h.2

example : IsText (str "candidate-7") ∧ Selection.decode (Selection.encode ⟨true, 300, str "candidate-7"⟩) = some ⟨true, 300, str "candidate-7"⟩ := by
  refine ⟨⟨by decide +kernel, by decide +kernel⟩, by decide +kernel⟩

/-! ## C57 -/

/-- `r` is the given panic, as a computable check. -/
def isPanic {ε α : Type} (p : Panic) : Res ε α → Bool
  | .panic q => p == q
  | _ => false

theorem isPanic_of_true {ε α : Type} {p : Panic} {r : Res ε α} (h : isPanic p r = true) : r = .panic p := by
  cases r <;> simp_all [isPanic]

/-- **C57 is false of the code**: there are bytes on which `SignedTransaction::from_bytes` panics instead of returning an error, because parsing an identifier with an
unknown type byte unwraps. -/
theorem C57_decoding_never_crashes_false : ¬ ∀ (bs : Bytes) (p : Panic), SignedTx.fromBytes bs ≠ .panic p := by
  intro h
  refine h ((Cbor.map [(str "type", .text (str "voting_end")),
    (str "tx", .map [(str "id", .text (hexEncode (List.replicate 32 0)))])]).encode) .unwrapFailed ?_
  exact isPanic_of_true (by decide +kernel)

/-! Bytes without a malformed identifier are decoded without a crash; the sample bytes of the counterexample contain one. -/
example : isPanic .unwrapFailed (SignedTx.fromBytes (Cbor.map [(str "type", .text (str "voting_end")), (str "tx", .map [])]).encode) = false := by
  decide +kernel

/-- `x` occurs in `c`. -/
inductive Spec.Within (x : Cbor) : Cbor → Prop
  | here : Within x x
  | item {l c} : c ∈ l → Within x c → Within x (.array l)
  | value {l e} : e ∈ l → Within x e.2 → Within x (.map l)

/-- The string occurs in `c`, as text or as a byte string. -/
def Spec.StringIn (s : Str) (c : Cbor) : Prop := Within (.text s) c ∨ Within (.bytes s) c

theorem Spec.StringIn.item {s : Str} {l : List Cbor} {c : Cbor} (hc : c ∈ l) (h : StringIn s c) : StringIn s (.array l) := h.imp (.item hc) (.item hc)
theorem Spec.StringIn.value {s : Str} {l : List (Str × Cbor)} {e : Str × Cbor} (he : e ∈ l) (h : StringIn s e.2) : StringIn s (.map l) := h.imp (.value he) (.value he)

/-- The item contains a string that looks like an identifier (32 or 64 hexadecimal digits) but is not one. -/
def Spec.BadIdentifierIn (c : Cbor) : Prop := ∃ s, StringIn s c ∧ ∃ p, Identifier.fromStr s = .panic p

/-- `x` panics only if `P`. -/
def PanicsOnly {α : Type} (P : Prop) (x : DRes α) : Prop := ∀ p, x = .panic p → P

namespace PanicsOnly
variable {α β : Type} {P : Prop}

theorem ok (a : α) : PanicsOnly P (.ok a : DRes α) := by intro p h; cases h
theorem err (e : DeErr) : PanicsOnly P (.err e : DRes α) := by intro p h; cases h
theorem bind {x : DRes α} {f : α → DRes β} (hx : PanicsOnly P x) (hf : ∀ a, PanicsOnly P (f a)) : PanicsOnly P (x.bind f) := by
  intro p h
  rcases Res.bind_eq_panic.1 h with h | ⟨a, _, h⟩
  · exact hx p h
  · exact hf a p h
theorem bind_ok {x : DRes α} {f : α → DRes β} (hx : PanicsOnly P x) (hf : ∀ a, x = .ok a → PanicsOnly P (f a)) : PanicsOnly P (x.bind f) := by
  intro p h
  rcases Res.bind_eq_panic.1 h with h | ⟨a, h', h⟩
  · exact hx p h
  · exact hf a h' p h
theorem ofOption (o : Option α) (e : DeErr) : PanicsOnly P (Res.ofOption o e) := by intro p h; simp at h

/-- A reader that panics only on bad identifiers inside what it reads. -/
def Reads {α : Type} (f : Cbor → DRes α) : Prop := ∀ c, PanicsOnly (BadIdentifierIn c) (f c)

theorem find (l : List (Str × Cbor)) (k : Str) : PanicsOnly P (De.find l k) := by
  intro p h
  unfold De.find at h
  split at h <;> cases h

theorem mem_find {l : List (Str × Cbor)} {k : Str} {v : Cbor} (h : De.find l k = .ok (some v)) : ∃ e ∈ l, e.2 = v := by
  unfold De.find at h
  split at h
  · cases h
  · rename_i e he
    have hm : e ∈ l.filter fun e => e.1 == k := by rw [he]; simp
    rw [List.mem_filter] at hm
    exact ⟨e, hm.1, by cases h; rfl⟩
  · cases h

theorem field {f : Cbor → DRes α} (hf : Reads f) (l : List (Str × Cbor)) (k : String) : PanicsOnly (BadIdentifierIn (.map l)) (De.field l k f) := by
  refine bind_ok (find _ _) fun o ho => ?_
  cases o with
  | none => exact err _
  | some v =>
    intro p h
    obtain ⟨e, he, rfl⟩ := mem_find ho
    obtain ⟨s, hs, hp⟩ := hf _ p h
    exact ⟨s, .value he hs, hp⟩

theorem fieldOr {f : Cbor → DRes α} (hf : Reads f) (l : List (Str × Cbor)) (k : String) (d : α) : PanicsOnly (BadIdentifierIn (.map l)) (De.fieldOr l k d f) := by
  refine bind_ok (find _ _) fun o ho => ?_
  cases o with
  | none => exact ok _
  | some v =>
    intro p h
    obtain ⟨e, he, rfl⟩ := mem_find ho
    obtain ⟨s, hs, hp⟩ := hf _ p h
    exact ⟨s, .value he hs, hp⟩

theorem struct {ns : List String} {k : Nat} {g : List (Str × Cbor) → DRes α} (hg : ∀ l, PanicsOnly (BadIdentifierIn (.map l)) (g l)) :
    Reads fun c => (De.fields ns k c).bind g := by
  intro c
  cases c with
  | map l => exact hg l
  | array l =>
    simp only [De.fields]
    split
    · intro p h
      obtain ⟨s, hs, h'⟩ := hg _ p h
      refine ⟨s, ?_, h'⟩
      rcases hs with hs | hs <;> cases hs with
      | value he hw => first | exact .inl (.item (List.of_mem_zip he).2 hw) | exact .inr (.item (List.of_mem_zip he).2 hw)
    · exact err _
  | _ => exact err _

theorem reads_uint (n : Nat) : Reads (De.uint n) := by
  intro c
  unfold De.uint
  split
  · split
    · exact ok _
    · exact err _
  · exact err _
theorem reads_u8 : Reads De.u8 := fun c => bind (reads_uint _ c) fun _ => ok _
theorem reads_u16 : Reads De.u16 := fun c => bind (reads_uint _ c) fun _ => ok _
theorem reads_u32 : Reads De.u32 := fun c => bind (reads_uint _ c) fun _ => ok _
theorem reads_u64 : Reads De.u64 := fun c => bind (reads_uint _ c) fun _ => ok _
theorem reads_bool : Reads De.bool := by intro c; cases c <;> first | exact ok _ | exact err _
theorem reads_text : Reads De.text := by
  intro c
  unfold De.text
  split
  · exact ok _
  · split
    · exact ok _
    · exact err _
  · exact err _
theorem reads_hexBytes : Reads De.hexBytes := by intro c; cases c <;> first | exact ok _ | exact err _ | exact ofOption _ _
theorem reads_bytes : Reads De.bytes := reads_hexBytes
theorem reads_arr (n : Nat) : Reads (De.arr n) := by
  intro c
  refine bind (reads_hexBytes c) fun b => ?_
  split
  · exact ok _
  · exact err _
theorem reads_uuid : Reads De.uuid := by
  have hx : ∀ (P : Prop) (b : Bytes), PanicsOnly P (if h : b.length = 16 then (.ok ⟨b, h⟩ : DRes Uuid) else .err .malformed) := by
    intro P b
    split
    · exact ok _
    · exact err _
  intro c
  cases c with
  | bytes b => exact hx _ b
  | text s => exact bind (ofOption _ _) fun b => hx _ b
  | _ => exact err _
theorem reads_ident : Reads De.ident := by
  intro c p h
  cases c with
  | text s =>
    simp only [De.ident, De.text, Res.ok_bind, Res.mapErr_eq_panic] at h
    exact ⟨s, .inl .here, p, h⟩
  | bytes s =>
    simp only [De.ident, De.text] at h
    split at h
    · rw [Res.ok_bind, Res.mapErr_eq_panic] at h
      exact ⟨s, .inr .here, p, h⟩
    · cases h
  | _ => cases h
theorem reads_array {f : Cbor → DRes α} (hf : Reads f) : Reads (De.array f) := by
  intro c
  cases c with
  | array l =>
    intro p h
    obtain ⟨x, hx, h⟩ := Res.mapM'_eq_panic h
    obtain ⟨s, hs, hp⟩ := hf x p h
    exact ⟨s, .item hx hs, hp⟩
  | _ => exact err _
theorem reads_opt {f : Cbor → DRes α} (hf : Reads f) : Reads (De.opt f) := by
  intro c
  unfold De.opt
  split
  · exact ok _
  · exact bind (hf _) fun _ => ok _
theorem reads_indexMap {f : Cbor → DRes α} (hf : Reads f) : Reads (De.indexMap f) := by
  intro c
  cases c with
  | map l =>
    refine bind ?_ fun _ => ok _
    intro p h
    obtain ⟨x, hx, h⟩ := Res.mapM'_eq_panic h
    rcases Res.bind_eq_panic.1 h with h | ⟨_, _, h⟩
    · obtain ⟨s, hs, hp⟩ := hf _ p h
      exact ⟨s, .value hx hs, hp⟩
    · cases h
  | _ => exact err _
theorem reads_json : Reads De.json := by
  have key : ∀ (c : Cbor) (p : Panic), De.json c ≠ .panic p := by
    intro c
    refine Cbor.rec (motive_1 := fun c => ∀ p : Panic, De.json c ≠ .panic p) (motive_2 := fun l => ∀ p : Panic, De.jsonList l ≠ .panic p)
      (motive_3 := fun l => ∀ p : Panic, De.jsonMap l ≠ .panic p) (motive_4 := fun e => ∀ p : Panic, De.json e.2 ≠ .panic p)
      ?_ ?_ ?_ ?_ ?_ ?_ ?_ ?_ ?_ ?_ ?_ ?_ ?_ ?_ c
    · intro n p h; cases h
    · intro n p h; rw [De.json] at h; split at h <;> cases h
    · intro b p h; cases h
    · intro s p h; cases h
    · intro l ih p h
      rw [De.json] at h
      rcases Res.bind_eq_panic.1 h with h | ⟨_, _, h⟩
      · exact ih p h
      · cases h
    · intro l ih p h
      rw [De.json] at h
      rcases Res.bind_eq_panic.1 h with h | ⟨_, _, h⟩
      · exact ih p h
      · cases h
    · intro b p h; cases h
    · intro p h; cases h
    · intro n p h; cases h
    · intro p h; cases h
    · intro c cs h1 h2 p h
      rw [De.jsonList] at h
      rcases Res.bind_eq_panic.1 h with h | ⟨_, _, h⟩
      · exact h1 p h
      · rcases Res.bind_eq_panic.1 h with h | ⟨_, _, h⟩
        · exact h2 p h
        · cases h
    · intro p h; cases h
    · intro e es h1 h2 p h
      obtain ⟨k, v⟩ := e
      rw [De.jsonMap] at h
      rcases Res.bind_eq_panic.1 h with h | ⟨_, _, h⟩
      · exact h1 p h
      · rcases Res.bind_eq_panic.1 h with h | ⟨_, _, h⟩
        · exact h2 p h
        · cases h
    · intro k v ih; exact ih
  exact fun c p h => absurd h (key c p)
theorem reads_props : Reads De.props := reads_indexMap fun c => bind (reads_json c) fun _ => by
  split
  · exact ok _
  · exact err _

theorem reads_trustee : Reads De.trustee :=
  struct fun _ => bind (field (reads_arr _) _ _) fun _ => bind (field reads_u8 _ _) fun _ => bind (fieldOr (reads_uint _) _ _ _) fun _ =>
    bind (fieldOr reads_u8 _ _ _) fun _ => ok _
theorem reads_authenticator : Reads De.authenticator :=
  struct fun _ => bind (field reads_uuid _ _) fun _ => bind (field (reads_indexMap fun c => bind (reads_hexBytes c) fun _ => ok _) _ _) fun _ => ok _
theorem reads_authentication : Reads De.authentication :=
  struct fun _ => bind (field reads_uuid _ _) fun _ => bind (field (fun c => bind (reads_text c) fun _ => ofOption _ _) _ _) fun _ => ok _
theorem reads_mixConfig : Reads De.mixConfig :=
  struct fun _ => bind (field reads_u64 _ _) fun _ => bind (fieldOr (reads_opt reads_u16) _ _ _) fun _ => ok _
theorem reads_ballot : Reads De.ballot :=
  struct fun _ => bind (field reads_text _ _) fun _ => bind (field (reads_array reads_u32) _ _) fun _ => bind (fieldOr reads_props _ _ _) fun _ => ok _
theorem reads_candidate : Reads De.candidate :=
  struct fun _ => bind (field reads_text _ _) fun _ => bind (fieldOr reads_props _ _ _) fun _ => ok _
theorem reads_variant : Reads De.variant := by
  intro c
  unfold De.variant
  split
  · exact ok _
  · exact ok _
  · exact err _
theorem reads_contestType : Reads De.contestType := fun c => bind (reads_variant c) fun _ => ofOption _ _
theorem reads_contest : Reads De.contest :=
  struct fun _ => bind (field reads_text _ _) fun _ => bind (field reads_u32 _ _) fun _ => bind (field reads_contestType _ _) fun _ =>
    bind (field reads_u32 _ _) fun _ => bind (field reads_bool _ _) fun _ => bind (field (reads_array reads_candidate) _ _) fun _ =>
    bind (fieldOr reads_props _ _ _) fun _ => ok _
theorem reads_selection : Reads De.selection :=
  struct fun _ => bind (fieldOr reads_bool _ _ _) fun _ => bind (fieldOr reads_u32 _ _ _) fun _ => bind (field reads_text _ _) fun _ => ok _
theorem reads_ciphertext : Reads De.ciphertext := fun c => bind (reads_bytes c) fun _ => ok _
theorem reads_encryptedVote : Reads De.encryptedVote :=
  struct fun _ => bind (field reads_u32 _ _) fun _ => bind (field (reads_array reads_ciphertext) _ _) fun _ => ok _
theorem reads_share : Reads De.share := by
  intro c
  unfold De.share
  split
  · rename_i i s
    refine bind ?_ fun _ => bind ?_ fun _ => ok _
    · intro p h
      obtain ⟨x, hx, hp⟩ := reads_u8 _ p h
      exact ⟨x, .item (by simp) hx, hp⟩
    · intro p h
      obtain ⟨x, hx, hp⟩ := reads_hexBytes _ p h
      exact ⟨x, .item (by simp) hx, hp⟩
  · exact err _
theorem reads_election : Reads De.election :=
  struct fun _ => bind (field reads_ident _ _) fun _ => bind (field (reads_arr _) _ _) fun _ => bind (field (reads_array reads_trustee) _ _) fun _ =>
    bind (field reads_u8 _ _) fun _ => bind (field (reads_array reads_authenticator) _ _) fun _ => bind (field reads_u8 _ _) fun _ =>
    bind (fieldOr (reads_opt reads_mixConfig) _ _ _) fun _ => bind (field (reads_array reads_ballot) _ _) fun _ =>
    bind (field (reads_array reads_contest) _ _) fun _ => bind (fieldOr reads_props _ _ _) fun _ => ok _
theorem reads_keyGenCommitment : Reads De.keyGenCommitment :=
  struct fun _ => bind (field reads_ident _ _) fun _ => bind (field reads_ident _ _) fun _ => bind (field reads_u8 _ _) fun _ =>
    bind (field (reads_arr _) _ _) fun _ => bind (field (reads_arr _) _ _) fun _ => bind (field reads_bytes _ _) fun _ => ok _
theorem reads_keyGenShare : Reads De.keyGenShare :=
  struct fun _ => bind (field reads_ident _ _) fun _ => bind (field reads_ident _ _) fun _ => bind (field reads_u8 _ _) fun _ =>
    bind (field (reads_arr _) _ _) fun _ => bind (field (reads_array reads_share) _ _) fun _ => ok _
theorem reads_keyGenPublicKey : Reads De.keyGenPublicKey :=
  struct fun _ => bind (field reads_ident _ _) fun _ => bind (field reads_ident _ _) fun _ => bind (field reads_u8 _ _) fun _ =>
    bind (field (reads_arr _) _ _) fun _ => bind (field reads_bytes _ _) fun _ => bind (field reads_bytes _ _) fun _ => ok _
theorem reads_encryptionKey : Reads De.encryptionKey :=
  struct fun _ => bind (field reads_ident _ _) fun _ => bind (field reads_ident _ _) fun _ => bind (field (reads_arr _) _ _) fun _ =>
    bind (field reads_bytes _ _) fun _ => ok _
theorem reads_vote : Reads De.vote :=
  struct fun _ => bind (field reads_ident _ _) fun _ => bind (field reads_ident _ _) fun _ => bind (field reads_text _ _) fun _ =>
    bind (field (reads_array reads_encryptedVote) _ _) fun _ => bind (field (reads_arr _) _ _) fun _ =>
    bind (field (reads_array reads_authentication) _ _) fun _ => ok _
theorem reads_votingEnd : Reads De.votingEnd :=
  struct fun _ => bind (field reads_ident _ _) fun _ => bind (field reads_ident _ _) fun _ => bind (field (reads_arr _) _ _) fun _ => ok _
theorem reads_mix : Reads De.mix :=
  struct fun _ => bind (field reads_ident _ _) fun _ => bind (field reads_ident _ _) fun _ => bind (fieldOr (reads_opt reads_ident) _ _ _) fun _ =>
    bind (field reads_u8 _ _) fun _ => bind (field (reads_arr _) _ _) fun _ => bind (field reads_u8 _ _) fun _ => bind (field reads_u32 _ _) fun _ =>
    bind (field reads_u32 _ _) fun _ => bind (field (reads_array reads_ident) _ _) fun _ =>
    bind (field (reads_array (reads_array reads_ciphertext)) _ _) fun _ => bind (field reads_bytes _ _) fun _ => ok _
theorem reads_partialDecryption : Reads De.partialDecryption :=
  struct fun _ => bind (field reads_ident _ _) fun _ => bind (field reads_ident _ _) fun _ => bind (field reads_ident _ _) fun _ =>
    bind (field reads_u16 _ _) fun _ => bind (field reads_u32 _ _) fun _ => bind (field reads_u8 _ _) fun _ => bind (field (reads_arr _) _ _) fun _ =>
    bind (field (reads_array fun c => bind (reads_bytes c) fun _ => ok _) _ _) fun _ => ok _
theorem reads_decryption : Reads De.decryption :=
  struct fun _ => bind (field reads_ident _ _) fun _ => bind (field reads_ident _ _) fun _ => bind (field reads_ident _ _) fun _ =>
    bind (field reads_u16 _ _) fun _ => bind (field reads_u32 _ _) fun _ => bind (field (reads_array reads_u8) _ _) fun _ =>
    bind (field (reads_array reads_selection) _ _) fun _ => ok _

theorem reads_signed {T : Type} {f : Cbor → DRes T} (hf : Reads f) : Reads (De.signed f) :=
  struct fun _ => bind (field hf _ _) fun _ => bind (field (reads_arr _) _ _) fun _ => ok _

theorem sub {c c' : Cbor} (h : ∀ s, StringIn s c' → StringIn s c) {x : DRes α} (hx : PanicsOnly (BadIdentifierIn c') x) :
    PanicsOnly (BadIdentifierIn c) x := by
  intro p hp
  obtain ⟨s, hs, h'⟩ := hx p hp
  exact ⟨s, h s hs, h'⟩

theorem tagged (c : Cbor) : PanicsOnly (BadIdentifierIn c) (De.tagged c) := by
  unfold De.tagged
  split
  · exact bind (field reads_text _ _) fun _ => ok _
  · refine bind (sub (fun s hs => .item (by simp) hs) (reads_text _)) fun _ => ok _
  · exact err _

theorem tagged_sub {c : Cbor} {x : Str × Cbor} (h : De.tagged c = .ok x) (s : Str) (hs : StringIn s x.2) : StringIn s c := by
  unfold De.tagged at h
  split at h
  · rw [Res.bind_eq_ok] at h
    obtain ⟨ty, _, h⟩ := h
    cases h
    rcases hs with hs | hs <;> cases hs with
    | value he hw => first | exact .inl (.value (List.mem_filter.1 he).1 hw) | exact .inr (.value (List.mem_filter.1 he).1 hw)
  · rw [Res.bind_eq_ok] at h
    obtain ⟨ty, _, h⟩ := h
    cases h
    rcases hs with hs | hs <;> cases hs with
    | item he hw => first | exact .inl (.item (List.mem_cons_of_mem _ he) hw) | exact .inr (.item (List.mem_cons_of_mem _ he) hw)
  · cases h

theorem reads_signedTx : Reads De.signedTx := by
  have hs : ∀ {T : Type} {f : Cbor → DRes T} (_ : Reads f) (g : Signed T → SignedTx) (c : Cbor),
      PanicsOnly (BadIdentifierIn c) ((De.signed f c).bind fun s => .ok (g s)) := fun hf g c => bind (reads_signed hf c) fun _ => ok _
  intro c
  refine bind_ok (tagged c) fun x hx => ?_
  have hsub := tagged_sub hx
  obtain ⟨ty, l⟩ := x
  dsimp only
  split
  · exact sub hsub (hs reads_election _ _)
  split
  · exact sub hsub (hs reads_keyGenCommitment _ _)
  split
  · exact sub hsub (hs reads_keyGenShare _ _)
  split
  · exact sub hsub (hs reads_keyGenPublicKey _ _)
  split
  · exact sub hsub (hs reads_encryptionKey _ _)
  split
  · exact sub hsub (hs reads_vote _ _)
  split
  · exact sub hsub (hs reads_votingEnd _ _)
  split
  · exact sub hsub (hs reads_mix _ _)
  split
  · exact sub hsub (hs reads_partialDecryption _ _)
  split
  · exact sub hsub (hs reads_decryption _ _)
  · exact err _

end PanicsOnly

/-- **C57 (partial)** Decoding panics only on bytes that contain a malformed identifier, a string of 32 or 64 hexadecimal digits; on all other input it returns a value or an error. -/
theorem C57_decoding_never_crashes_partial (bs : Bytes) (p : Panic) (h : SignedTx.fromBytes bs = .panic p) :
    ∃ c s, Cbor.decode bs = some c ∧ StringIn s c ∧ (∃ b, HexOf s b ∧ (b.length = 16 ∨ b.length = 32)) ∧ ∀ i : Identifier, s ≠ i.toString := by
  unfold SignedTx.fromBytes at h
  rcases Res.bind_eq_panic.1 h with h | ⟨c, hc, h⟩
  · simp at h
  rw [Res.ofOption_eq_ok] at hc
  obtain ⟨s, hs, q, hq⟩ := PanicsOnly.reads_signedTx c p h
  refine ⟨c, s, hc, hs, ?_, ?_⟩
  · obtain ⟨b, hb, hl⟩ := (C02_parse_partial s).2.1.1 ⟨q, hq⟩
    exact ⟨b, hb, hl.imp id fun h => h.1⟩
  · rintro i rfl
    rw [(C01_identifier_text_roundtrip i).1] at hq
    cases hq

end CB
