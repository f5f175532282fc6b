import Verif.Spec.Serde
import Verif.Lemmas.Cbor
import Verif.Lemmas.Identifier
/-!
# Deserialization of serialized values
-/

namespace CB
open Spec

theorem Res.mapM'_map {ε α β γ : Type} {f : α → β} {g : β → Res ε γ} {h : α → γ} (l : List α) (hl : ∀ a ∈ l, g (f a) = .ok (h a)) :
    Res.mapM' g (l.map f) = .ok (l.map h) := by
  rw [Res.mapM'_eq_ok, List.map_map, List.map_map]
  exact List.map_congr_left hl

theorem IndexMap.insertList_new {κ ν : Type} [DecidableEq κ] {k : κ} {v : ν} {l : List (κ × ν)} (h : k ∉ l.map Prod.fst) :
    insertList k v l = l ++ [(k, v)] := by
  induction l with
  | nil => rfl
  | cons e es ih =>
    obtain ⟨k', v'⟩ := e
    simp only [List.map_cons, List.mem_cons, not_or] at h
    rw [insertList, if_neg (fun he => h.1 he.symm), ih h.2]
    rfl

theorem IndexMap.ofList_entries {κ ν : Type} [DecidableEq κ] (m : IndexMap κ ν) : IndexMap.ofList m.entries = m := by
  have key : ∀ (l : List (κ × ν)) (acc : IndexMap κ ν), ((acc.entries ++ l).map Prod.fst).Nodup →
      (l.foldl (fun m e => m.insert e.1 e.2) acc).entries = acc.entries ++ l := by
    intro l
    induction l with
    | nil => intro acc _; simp
    | cons e es ih =>
      intro acc hn
      have hne : e.1 ∉ acc.entries.map Prod.fst := by
        intro hm
        rw [List.map_append, List.map_cons, List.nodup_append] at hn
        exact hn.2.2 _ hm _ List.mem_cons_self rfl
      have hi : (acc.insert e.1 e.2).entries = acc.entries ++ [e] := insertList_new hne
      rw [List.foldl_cons, ih]
      · rw [hi, List.append_assoc]; rfl
      · rw [hi, List.append_assoc]; exact hn
  have := key m.entries IndexMap.empty (by simpa [IndexMap.empty] using m.nodup)
  have h2 : (IndexMap.ofList m.entries).entries = m.entries := by
    unfold IndexMap.ofList; rw [this]; rfl
  have ext : ∀ a b : IndexMap κ ν, a.entries = b.entries → a = b := by
    rintro ⟨a, _⟩ ⟨b, _⟩ h; cases h; rfl
  exact ext _ _ h2

namespace De

@[simp] theorem de_u8 (n : UInt8) : u8 (.u8 n) = .ok n := by
  have := n.toNat_lt
  simp only [u8, Cbor.u8, uint, UInt8.toNat_toUInt64]
  rw [if_pos (by simpa using this)]
  simp
@[simp] theorem de_u16 (n : UInt16) : u16 (.u16 n) = .ok n := by
  have := n.toNat_lt
  simp only [u16, Cbor.u16, uint, UInt16.toNat_toUInt64]
  rw [if_pos (by simpa using this)]
  simp
@[simp] theorem de_u32 (n : UInt32) : u32 (.u32 n) = .ok n := by
  have := n.toNat_lt
  simp only [u32, Cbor.u32, uint, UInt32.toNat_toUInt64]
  rw [if_pos (by simpa using this)]
  simp
@[simp] theorem de_u64 (n : UInt64) : u64 (.uint n) = .ok n := by
  have := n.toNat_lt
  simp only [u64, uint]
  rw [if_pos (by simpa using this)]
  simp
@[simp] theorem de_bool (b : Bool) : bool (.bool b) = .ok b := rfl
@[simp] theorem de_text (s : Str) : text (.text s) = .ok s := rfl
@[simp] theorem de_bytes (s : Bytes) : bytes (.bytes s) = .ok s := rfl
@[simp] theorem de_hexBytes (s : Bytes) : hexBytes (.bytes s) = .ok s := rfl
@[simp] theorem de_arr {n : Nat} (b : BArr n) : arr n (.bytes b.val) = .ok b := by
  simp [arr, b.property]
@[simp] theorem de_uuid (b : Uuid) : uuid (.bytes b.val) = .ok b := by
  simp [uuid, b.property]
@[simp] theorem de_ident (i : Identifier) : ident (.ident i) = .ok i := by
  simp only [ident, Cbor.ident, de_text, Res.ok_bind]
  rw [show Identifier.fromStr i.toString = .ok i from Identifier.fromStr_of_decode (hexDecode_hexEncode _)]
  rfl
theorem de_array {α : Type} {f : α → Cbor} {g : Cbor → DRes α} {h : α → α} (hfg : ∀ a, g (f a) = .ok (h a)) (l : List α) :
    array g (.array (l.map f)) = .ok (l.map h) := Res.mapM'_map l fun a _ => hfg a
theorem de_array_id {α : Type} {f : α → Cbor} {g : Cbor → DRes α} (hfg : ∀ a, g (f a) = .ok a) (l : List α) :
    array g (.array (l.map f)) = .ok l := by
  rw [de_array (h := id) hfg]; simp
theorem de_indexMap {α : Type} {f : α → Cbor} {g : Cbor → DRes α} (hfg : ∀ a, g (f a) = .ok a) (m : IndexMap Str α) :
    indexMap g (.map (m.entries.map fun e => (e.1, f e.2))) = .ok m := by
  simp only [indexMap]
  rw [Res.mapM'_map (h := id) _ (by intro a _; simp [hfg])]
  simp [IndexMap.ofList_entries]

/-- Reading an item that stands for a JSON value gives that item. -/
theorem json_of_isJson (c : Cbor) : c.isJson = true → json c = .ok c := by
  refine Cbor.rec (motive_1 := fun c => c.isJson = true → json c = .ok c) (motive_2 := fun l => Cbor.isJsonList l = true → jsonList l = .ok l)
    (motive_3 := fun l => Cbor.isJsonMap l = true → jsonMap l = .ok l) (motive_4 := fun e => e.2.isJson = true → json e.2 = .ok e.2)
    ?_ ?_ ?_ ?_ ?_ ?_ ?_ ?_ ?_ ?_ ?_ ?_ ?_ ?_ c
  · intro n _; rfl
  · intro n h
    rw [Cbor.isJson, decide_eq_true_eq] at h
    rw [json, if_pos h]
  · intro b h; cases h
  · intro s _; rfl
  · intro l ih h
    rw [Cbor.isJson] at h
    rw [json, ih h]; rfl
  · intro l ih h
    rw [Cbor.isJson, Bool.and_eq_true, decide_eq_true_eq] at h
    rw [json, ih h.2]
    have := IndexMap.ofList_entries ⟨l, h.1⟩
    rw [Res.ok_bind, show IndexMap.ofList l = ⟨l, h.1⟩ from this]
  · intro b _; rfl
  · intro _; rfl
  · intro n h
    rw [Cbor.isJson] at h
    rw [json, if_pos h]
  · intro _; rfl
  · intro c cs h1 h2 h
    rw [Cbor.isJsonList, Bool.and_eq_true] at h
    rw [jsonList, h1 h.1, Res.ok_bind, h2 h.2]; rfl
  · intro _; rfl
  · intro e es h1 h2 h
    obtain ⟨k, v⟩ := e
    rw [Cbor.isJsonMap, Bool.and_eq_true] at h
    rw [jsonMap, h1 h.1, Res.ok_bind, h2 h.2]; rfl
  · intro k v ih h; exact ih h

@[simp] theorem de_jsonValue (v : JsonValue) : jsonValue v.val = .ok v := by
  obtain ⟨c, h⟩ := v
  simp [jsonValue, json_of_isJson c h, h]

@[simp] theorem de_props (p : Properties) : props (.props p) = .ok p := de_indexMap (f := fun v : JsonValue => v.val) (g := jsonValue) de_jsonValue p

theorem IndexMap.eq_empty {κ ν : Type} {m : IndexMap κ ν} [DecidableEq κ] (h : m.entries = []) : m = IndexMap.empty := by
  cases m; cases h; rfl

@[simp] theorem de_trustee (t : Trustee) : trustee t.toCbor = .ok (forgetTrustee t) := by
  simp +decide [trustee, Trustee.toCbor, fields, field, fieldOr, find, forgetTrustee]

@[simp] theorem de_authenticator (t : Authenticator) : authenticator t.toCbor = .ok t := by
  have := de_indexMap (f := fun k : AuthPublicKey => .bytes k.raw) (g := fun v => (hexBytes v).bind fun b => .ok ⟨b⟩) (by simp) t.publicKeys
  simp +decide [authenticator, Authenticator.toCbor, fields, field, find, this]

@[simp] theorem de_authentication (t : Authentication) : authentication t.toCbor = .ok t := by
  simp +decide [authentication, Authentication.toCbor, fields, field, find, hexDecode_hexEncode, Res.ofOption]

@[simp] theorem de_mixConfig (t : MixConfig) : mixConfig t.toCbor = .ok t := by
  obtain ⟨a, _ | b⟩ := t
  · simp +decide [mixConfig, MixConfig.toCbor, fields, field, fieldOr, find, opt, Cbor.opt]
  · have : opt u16 (Cbor.u16 b) = .ok (some b) := by
      rw [show opt u16 (Cbor.u16 b) = (u16 (Cbor.u16 b)).bind fun a => .ok (some a) from rfl]; simp
    simp +decide [mixConfig, MixConfig.toCbor, fields, field, fieldOr, find, Cbor.opt, this]

theorem propsField_eq (p : Properties) : (p = IndexMap.empty ∧ Cbor.propsField p = []) ∨ Cbor.propsField p = [(str "properties", .props p)] := by
  unfold Cbor.propsField
  split
  · rename_i h
    exact .inl ⟨IndexMap.eq_empty (List.isEmpty_iff.1 h), rfl⟩
  · exact .inr rfl

@[simp] theorem de_candidate (t : Candidate) : candidate t.toCbor = .ok t := by
  rcases propsField_eq t.properties with ⟨h, h'⟩ | h'
  · simp +decide [candidate, Candidate.toCbor, fields, field, fieldOr, find, h', ← h]
  · simp +decide [candidate, Candidate.toCbor, fields, field, fieldOr, find, h']

@[simp] theorem de_ballot (t : Ballot) : ballot t.toCbor = .ok t := by
  have := de_array_id (f := Cbor.u32) (g := u32) de_u32 t.contests
  rcases propsField_eq t.properties with ⟨h, h'⟩ | h'
  · simp +decide [ballot, Ballot.toCbor, fields, field, fieldOr, find, h', ← h, this]
  · simp +decide [ballot, Ballot.toCbor, fields, field, fieldOr, find, h', this]

@[simp] theorem de_contestType (t : ContestType) : contestType (.text t.name) = .ok t := by
  cases t <;> decide +kernel

@[simp] theorem de_contest (t : Contest) : contest t.toCbor = .ok t := by
  have := de_array_id (f := Candidate.toCbor) (g := candidate) de_candidate t.candidates
  rcases propsField_eq t.properties with ⟨h, h'⟩ | h'
  · simp +decide [contest, Contest.toCbor, fields, field, fieldOr, find, h', ← h, this]
  · simp +decide [contest, Contest.toCbor, fields, field, fieldOr, find, h', this]

@[simp] theorem de_selection (t : Selection) : selection t.toCbor = .ok t := by
  simp +decide [selection, Selection.toCbor, fields, field, fieldOr, find]

@[simp] theorem de_ciphertext (c : Ciphertext) : ciphertext (.bytes c.raw) = .ok c := rfl

@[simp] theorem de_encryptedVote (t : EncryptedVote) : encryptedVote t.toCbor = .ok t := by
  have := de_array_id (f := fun c : Ciphertext => .bytes c.raw) (g := ciphertext) de_ciphertext t.selections
  simp +decide [encryptedVote, EncryptedVote.toCbor, fields, field, find, this]

theorem de_election (t : ElectionTx) : election t.toCbor = .ok (forgetElection t) := by
  have h1 := de_array (f := Trustee.toCbor) (g := trustee) de_trustee t.trustees
  have h2 := de_array_id (f := Authenticator.toCbor) (g := authenticator) de_authenticator t.authenticators
  have h3 := de_array_id (f := Ballot.toCbor) (g := ballot) de_ballot t.ballots
  have h4 := de_array_id (f := Contest.toCbor) (g := contest) de_contest t.contests
  have h5 : opt mixConfig (Cbor.opt MixConfig.toCbor t.mixConfig) = .ok t.mixConfig := by
    rcases t.mixConfig with _ | b
    · rfl
    · rw [show opt mixConfig (Cbor.opt MixConfig.toCbor (some b)) = (mixConfig b.toCbor).bind fun a => .ok (some a) from rfl]; simp
  simp +decide [election, ElectionTx.toCbor, fields, field, fieldOr, find, h1, h2, h3, h4, h5, forgetElection]

theorem de_keyGenCommitment (t : KeyGenCommitmentTx) : keyGenCommitment t.toCbor = .ok t := by
  simp +decide [keyGenCommitment, KeyGenCommitmentTx.toCbor, fields, field, find]

theorem de_keyGenShare (t : KeyGenShareTx) : keyGenShare t.toCbor = .ok t := by
  have := de_array_id (f := fun e : UInt8 × EncryptedShare => Cbor.array [.u8 e.1, .bytes e.2.raw]) (g := share)
    (by intro a; simp [share]) t.shares.entries
  simp +decide [keyGenShare, KeyGenShareTx.toCbor, fields, field, find, this, IndexMap.ofList_entries]

theorem de_keyGenPublicKey (t : KeyGenPublicKeyTx) : keyGenPublicKey t.toCbor = .ok t := by
  simp +decide [keyGenPublicKey, KeyGenPublicKeyTx.toCbor, fields, field, find]

theorem de_encryptionKey (t : EncryptionKeyTx) : encryptionKey t.toCbor = .ok t := by
  simp +decide [encryptionKey, EncryptionKeyTx.toCbor, fields, field, find]

theorem de_vote (t : VoteTx) : vote t.toCbor = .ok t := by
  have h1 := de_array_id (f := EncryptedVote.toCbor) (g := encryptedVote) de_encryptedVote t.encryptedVotes
  have h2 := de_array_id (f := Authentication.toCbor) (g := authentication) de_authentication t.authentication
  simp +decide [vote, VoteTx.toCbor, fields, field, find, h1, h2]

theorem de_votingEnd (t : VotingEndTx) : votingEnd t.toCbor = .ok t := by
  simp +decide [votingEnd, VotingEndTx.toCbor, fields, field, find]

theorem de_mix (t : MixTx) : mix t.toCbor = .ok t := by
  have h1 := de_array_id (f := Cbor.ident) (g := ident) de_ident t.voteIds
  have h2 := de_array_id (f := fun l : List Ciphertext => Cbor.array (l.map fun c => .bytes c.raw)) (g := array ciphertext)
    (de_array_id (f := fun c : Ciphertext => .bytes c.raw) (g := ciphertext) de_ciphertext) t.mixedCiphertexts
  have h3 : opt ident (Cbor.opt Cbor.ident t.prevMixId) = .ok t.prevMixId := by
    rcases t.prevMixId with _ | b
    · rfl
    · rw [show opt ident (Cbor.opt Cbor.ident (some b)) = (ident (.ident b)).bind fun a => .ok (some a) from rfl]; simp
  simp +decide [mix, MixTx.toCbor, fields, field, fieldOr, find, h1, h2, h3]

theorem de_partialDecryption (t : PartialDecryptionTx) : partialDecryption t.toCbor = .ok t := by
  have h1 := de_array_id (f := fun s : DecryptShare => .bytes s.raw) (g := fun c => (bytes c).bind fun b => .ok ⟨b⟩) (by simp) t.partialDecryption
  simp +decide [partialDecryption, PartialDecryptionTx.toCbor, fields, field, find, h1]

theorem de_decryption (t : DecryptionTx) : decryption t.toCbor = .ok t := by
  have h1 := de_array_id (f := Cbor.u8) (g := u8) de_u8 t.trustees
  have h2 := de_array_id (f := Selection.toCbor) (g := selection) de_selection t.decryptedVote
  simp +decide [decryption, DecryptionTx.toCbor, fields, field, find, h1, h2]

theorem de_signed {T : Type} {f : T → Cbor} {g : Cbor → DRes T} {h : T → T} (hfg : ∀ t, g (f t) = .ok (h t)) (s : Signed T) :
    signed g (.map [(str "tx", f s.tx), (str "sig", .bytes s.sig.val)]) = .ok ⟨h s.tx, s.sig⟩ := by
  simp +decide [signed, fields, field, find, hfg]

theorem fields_signed {T : Type} {f : T → Cbor} {ty : TxType} (s : Signed T) :
    (s.cborFields f ty) = .map [(str "type", .text ty.name), (str "tx", f s.tx), (str "sig", .bytes s.sig.val)] := rfl

theorem signedTx_map (ty : TxType) (a b : Cbor) :
    signedTx (.map [(str "type", .text ty.name), (str "tx", a), (str "sig", b)]) =
      match ty with
      | .election => (signed election (.map [(str "tx", a), (str "sig", b)])).bind fun s => .ok (.election s)
      | .keyGenCommitment => (signed keyGenCommitment (.map [(str "tx", a), (str "sig", b)])).bind fun s => .ok (.keyGenCommitment s)
      | .keyGenShare => (signed keyGenShare (.map [(str "tx", a), (str "sig", b)])).bind fun s => .ok (.keyGenShare s)
      | .keyGenPublicKey => (signed keyGenPublicKey (.map [(str "tx", a), (str "sig", b)])).bind fun s => .ok (.keyGenPublicKey s)
      | .encryptionKey => (signed encryptionKey (.map [(str "tx", a), (str "sig", b)])).bind fun s => .ok (.encryptionKey s)
      | .vote => (signed vote (.map [(str "tx", a), (str "sig", b)])).bind fun s => .ok (.vote s)
      | .votingEnd => (signed votingEnd (.map [(str "tx", a), (str "sig", b)])).bind fun s => .ok (.votingEnd s)
      | .mix => (signed mix (.map [(str "tx", a), (str "sig", b)])).bind fun s => .ok (.mix s)
      | .partialDecryption => (signed partialDecryption (.map [(str "tx", a), (str "sig", b)])).bind fun s => .ok (.partialDecryption s)
      | .decryption => (signed decryption (.map [(str "tx", a), (str "sig", b)])).bind fun s => .ok (.decryption s) := by
  cases ty <;> simp +decide [signedTx, tagged, field, find]

theorem de_signedTx (t : SignedTx) : signedTx t.toCbor = .ok (forget t) := by
  cases t with
  | election s => simp only [SignedTx.toCbor, fields_signed, signedTx_map, de_signed de_election]; rfl
  | keyGenCommitment s => simp only [SignedTx.toCbor, fields_signed, signedTx_map, de_signed (h := id) de_keyGenCommitment]; rfl
  | keyGenShare s => simp only [SignedTx.toCbor, fields_signed, signedTx_map, de_signed (h := id) de_keyGenShare]; rfl
  | keyGenPublicKey s => simp only [SignedTx.toCbor, fields_signed, signedTx_map, de_signed (h := id) de_keyGenPublicKey]; rfl
  | encryptionKey s => simp only [SignedTx.toCbor, fields_signed, signedTx_map, de_signed (h := id) de_encryptionKey]; rfl
  | vote s => simp only [SignedTx.toCbor, fields_signed, signedTx_map, de_signed (h := id) de_vote]; rfl
  | votingEnd s => simp only [SignedTx.toCbor, fields_signed, signedTx_map, de_signed (h := id) de_votingEnd]; rfl
  | mix s => simp only [SignedTx.toCbor, fields_signed, signedTx_map, de_signed (h := id) de_mix]; rfl
  | partialDecryption s => simp only [SignedTx.toCbor, fields_signed, signedTx_map, de_signed (h := id) de_partialDecryption]; rfl
  | decryption s => simp only [SignedTx.toCbor, fields_signed, signedTx_map, de_signed (h := id) de_decryption]; rfl

end De

end CB
