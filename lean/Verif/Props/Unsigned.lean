import Verif.Model.Unsigned
import Verif.Lemmas.Accept
import Verif.Props.Serialization
/-!
# C82: unsigned transactions
-/

namespace CB
open Spec

/-- Without the fields that are deliberately not serialized. -/
def Spec.forgetUnsigned : UnsignedTx → UnsignedTx
  | .election tx => .election (forgetElection tx)
  | u => u

/-- All data of the transaction is data a Rust program can hold and serde_cbor can read. -/
def Spec.RustDataUnsigned (u : UnsignedTx) : Prop := Fits 127 u.toCbor

namespace UnsignedTx

/-- The transaction with a signature. -/
def signedWith (sig : Signature) : UnsignedTx → SignedTx
  | .election tx => .election ⟨tx, sig⟩
  | .keyGenCommitment tx => .keyGenCommitment ⟨tx, sig⟩
  | .keyGenShare tx => .keyGenShare ⟨tx, sig⟩
  | .keyGenPublicKey tx => .keyGenPublicKey ⟨tx, sig⟩
  | .encryptionKey tx => .encryptionKey ⟨tx, sig⟩
  | .vote tx => .vote ⟨tx, sig⟩
  | .votingEnd tx => .votingEnd ⟨tx, sig⟩
  | .mix tx => .mix ⟨tx, sig⟩
  | .partialDecryption tx => .partialDecryption ⟨tx, sig⟩
  | .decryption tx => .decryption ⟨tx, sig⟩

theorem tagged_withTag (ty : TxType) (l : List (Str × Cbor)) (h : str "type" ∉ l.map Prod.fst) :
    De.tagged (withTag ty (.map l)) = .ok (ty.name, .map l) := by
  have hf : l.filter (fun e => e.1 == str "type") = [] := by
    rw [List.filter_eq_nil_iff]
    intro e he hk
    exact h (by rw [← eq_of_beq hk]; exact List.mem_map_of_mem he)
  have hg : l.filter (fun e => e.1 != str "type") = l := by
    rw [List.filter_eq_self]
    intro e he
    rw [bne_iff_ne]
    exact fun hk => h (by rw [← hk]; exact List.mem_map_of_mem he)
  simp only [withTag, De.tagged, De.field, De.find]
  rw [List.filter_cons_of_pos (by simp), hf, List.filter_cons_of_neg (by simp), hg]
  rfl

/-- the content of a transaction -/
def innerOf : UnsignedTx → Cbor
  | .election tx => tx.toCbor
  | .keyGenCommitment tx => tx.toCbor
  | .keyGenShare tx => tx.toCbor
  | .keyGenPublicKey tx => tx.toCbor
  | .encryptionKey tx => tx.toCbor
  | .vote tx => tx.toCbor
  | .votingEnd tx => tx.toCbor
  | .mix tx => tx.toCbor
  | .partialDecryption tx => tx.toCbor
  | .decryption tx => tx.toCbor

theorem inner_map (u : UnsignedTx) : ∃ l, u.innerOf = .map l ∧ l.map Prod.fst = typeKeys u.transactionType := by
  have h := keysOf_inner (u.signedWith ⟨List.replicate 64 0, rfl⟩)
  cases u <;> exact ⟨_, rfl, h⟩

theorem toCbor_eq (u : UnsignedTx) : u.toCbor = withTag u.transactionType u.innerOf := by cases u <;> rfl

theorem type_not_key : ∀ ty : TxType, str "type" ∉ typeKeys ty := by intro ty; cases ty <;> decide +kernel

theorem tagged_toCbor (u : UnsignedTx) : De.tagged u.toCbor = .ok (u.transactionType.name, u.innerOf) := by
  obtain ⟨l, h1, h2⟩ := inner_map u
  rw [toCbor_eq, h1]
  exact tagged_withTag _ l (by rw [h2]; exact type_not_key _)

theorem de_unsignedTx (u : UnsignedTx) : De.unsignedTx u.toCbor = .ok (forgetUnsigned u) := by
  unfold De.unsignedTx
  rw [tagged_toCbor]
  cases u with
  | election tx => simp +decide only [bind, Res.ok_bind, transactionType, innerOf, De.de_election, if_pos, if_neg]; rfl
  | keyGenCommitment tx => simp +decide only [bind, Res.ok_bind, transactionType, innerOf, De.de_keyGenCommitment, reduceIte]; rfl
  | keyGenShare tx => simp +decide only [bind, Res.ok_bind, transactionType, innerOf, De.de_keyGenShare, reduceIte]; rfl
  | keyGenPublicKey tx => simp +decide only [bind, Res.ok_bind, transactionType, innerOf, De.de_keyGenPublicKey, reduceIte]; rfl
  | encryptionKey tx => simp +decide only [bind, Res.ok_bind, transactionType, innerOf, De.de_encryptionKey, reduceIte]; rfl
  | vote tx => simp +decide only [bind, Res.ok_bind, transactionType, innerOf, De.de_vote, reduceIte]; rfl
  | votingEnd tx => simp +decide only [bind, Res.ok_bind, transactionType, innerOf, De.de_votingEnd, reduceIte]; rfl
  | mix tx => simp +decide only [bind, Res.ok_bind, transactionType, innerOf, De.de_mix, reduceIte]; rfl
  | partialDecryption tx => simp +decide only [bind, Res.ok_bind, transactionType, innerOf, De.de_partialDecryption, reduceIte]; rfl
  | decryption tx => simp +decide only [bind, Res.ok_bind, transactionType, innerOf, De.de_decryption, reduceIte]; rfl

end UnsignedTx

/-! ## C82 -/

/-- **C82** Serializing any unsigned transaction and reading the bytes gives the same transaction, up to the two unserialized trustee fields. -/
theorem C82_unsigned_roundtrip (u : UnsignedTx) (h : RustDataUnsigned u) : UnsignedTx.fromBytes u.asBytes = .ok (forgetUnsigned u) := by
  unfold UnsignedTx.fromBytes UnsignedTx.asBytes
  rw [Cbor.decode_encode h]
  exact UnsignedTx.de_unsignedTx u

/-- A signed transaction is valid exactly if its id is of its type, its signature is valid, and its content is valid as an unsigned transaction: the signature is the only
difference. -/
theorem C82_signed_is_unsigned_and_signature (E : Env) (S : Store) (t : SignedTx) :
    t.id = t.unsigned.id ∧ t.transactionType = t.unsigned.transactionType ∧
      (t.validate E S = .ok () ↔ t.unsigned.id.txType = t.unsigned.transactionType ∧ SignatureValid E t ∧ t.unsigned.validateTx E S = .ok ()) := by
  have h1 : t.id = t.unsigned.id := by cases t <;> rfl
  have h2 : t.transactionType = t.unsigned.transactionType := by cases t <;> rfl
  have h3 : t.validateInner E S = t.unsigned.validateTx E S := by cases t <;> rfl
  refine ⟨h1, h2, ?_⟩
  rw [SignedTx.validate_ok, h1, h2, h3]

theorem find_absent {l : List (Str × Cbor)} {k : String} (h : str k ∉ l.map Prod.fst) {α : Type} (f : Cbor → DRes α) : De.field l k f = .err .malformed := by
  have hf : l.filter (fun e => e.1 == str k) = [] := by
    rw [List.filter_eq_nil_iff]
    intro e he hk
    exact h (by rw [← eq_of_beq hk]; exact List.mem_map_of_mem he)
  unfold De.field De.find
  rw [hf]
  rfl

theorem signed_absent {T : Type} (f : Cbor → DRes T) {l : List (Str × Cbor)} (h : str "tx" ∉ l.map Prod.fst) : De.signed f (.map l) = .err .malformed := by
  simp only [De.signed, De.fields, bind, find_absent h, Res.bind]

theorem tx_not_key : ∀ ty : TxType, str "tx" ∉ typeKeys ty := by intro ty; cases ty <;> decide +kernel

/-- What is written as one of the two, is never read as the other: an unsigned transaction is not read as a signed one, nor a signed as an unsigned one. -/
theorem C82_readable_as_one_only_partial (t : SignedTx) (u : UnsignedTx) (ht : RustData t) (hu : RustDataUnsigned u) :
    SignedTx.fromBytes u.asBytes = .err .malformed ∧ UnsignedTx.fromBytes t.asBytes = .err .malformed := by
  constructor
  · unfold SignedTx.fromBytes UnsignedTx.asBytes
    rw [Cbor.decode_encode hu]
    show De.signedTx u.toCbor = _
    obtain ⟨l, h1, h2⟩ := UnsignedTx.inner_map u
    have h3 : str "tx" ∉ l.map Prod.fst := by rw [h2]; exact tx_not_key _
    unfold De.signedTx
    rw [UnsignedTx.tagged_toCbor, h1]
    simp only [bind, signed_absent _ h3, Res.bind]
    simp only [ite_self]
  · unfold UnsignedTx.fromBytes SignedTx.asBytes
    rw [Cbor.decode_encode ht]
    show De.unsignedTx t.toCbor = _
    obtain ⟨ty, a, b, hc⟩ : ∃ ty a b, t.toCbor = .map [(str "type", .text ty), (str "tx", a), (str "sig", b)] := by cases t <;> exact ⟨_, _, _, rfl⟩
    have hg : De.tagged (.map [(str "type", .text ty), (str "tx", a), (str "sig", b)]) = .ok (ty, .map [(str "tx", a), (str "sig", b)]) := by
      simp +decide [De.tagged, De.field, De.find, De.text]
    have hid : ∀ {α : Type} (f : Cbor → DRes α), De.field [(str "tx", a), (str "sig", b)] "id" f = .err .malformed := fun f => find_absent (by
      simp only [List.map_cons, List.map_nil]; decide +kernel) f
    unfold De.unsignedTx
    rw [hc, hg]
    simp only [bind, De.election, De.keyGenCommitment, De.keyGenShare, De.keyGenPublicKey, De.encryptionKey, De.vote, De.votingEnd, De.mix, De.partialDecryption,
      De.decryption, De.fields, hid, Res.bind, ite_self]

/-- The tag is not among the bytes that are signed: the serialization of an unsigned transaction is never what is signed, of no transaction at all. -/
theorem C82_serialization_is_not_signed (t : SignedTx) (u : UnsignedTx) (ht : RustData t) (hu : RustDataUnsigned u) : signedBytes t ≠ u.asBytes := by
  intro h
  have hb : signedBytes t = (innerCbor t).encode := by cases t <;> rfl
  rw [hb] at h
  have he := Cbor.encode_inj ((fits_inner ht).mono (by omega)) hu h
  have hk := congrArg keysOf he
  obtain ⟨l, h1, _⟩ := UnsignedTx.inner_map u
  rw [keysOf_inner, UnsignedTx.toCbor_eq, h1] at hk
  have : str "type" ∈ typeKeys (kindOf t) := by rw [hk]; exact List.mem_cons_self
  exact UnsignedTx.type_not_key _ this

/-- Bytes that hold the fields of both. -/
def bothWays : Bytes :=
  match Toy.endTx with
  | .votingEnd s => (Cbor.map ((match (UnsignedTx.votingEnd s.tx).toCbor with | .map l => l | _ => []) ++ [(str "tx", s.tx.toCbor), (str "sig", .bytes s.sig.val)])).encode
  | _ => []

/-- **C82, what is false**: bytes that can be read as a signed transaction need not be refused as an unsigned one, since fields that are not in use are ignored.  (The command
`sign` was to tell the two apart in this way.) -/
theorem C82_readable_as_one_only_false : ¬ ∀ (bs : Bytes) (t : SignedTx), SignedTx.fromBytes bs = .ok t → ∀ u, UnsignedTx.fromBytes bs ≠ .ok u := by
  intro h
  have h1 : (match SignedTx.fromBytes bothWays with | .ok _ => true | _ => false) = true := by decide +kernel
  have h2 : (match UnsignedTx.fromBytes bothWays with | .ok _ => true | _ => false) = true := by decide +kernel
  cases e1 : SignedTx.fromBytes bothWays with
  | ok t =>
    cases e2 : UnsignedTx.fromBytes bothWays with
    | ok u => exact h _ t e1 u e2
    | _ => rw [e2] at h2; cases h2
  | _ => rw [e1] at h1; cases h1

/-! Every transaction of the sample election, without its signature, is Rust data. -/
theorem toy_rustDataUnsigned : ∀ t ∈ Toy.complete, RustDataUnsigned t.unsigned := by
  have h : (Toy.complete.all fun t => fitsCheck 127 t.unsigned.toCbor) = true := by decide +kernel
  exact fun t ht => fits_of_check _ _ (List.all_eq_true.1 h t ht)

example : ∀ t ∈ Toy.complete, UnsignedTx.fromBytes t.unsigned.asBytes = .ok (forgetUnsigned t.unsigned) ∧ SignedTx.fromBytes t.unsigned.asBytes = .err .malformed :=
  fun t ht => ⟨C82_unsigned_roundtrip _ (toy_rustDataUnsigned t ht), (C82_readable_as_one_only_partial t _ (toy_rustData t ht) (toy_rustDataUnsigned t ht)).1⟩

end CB
