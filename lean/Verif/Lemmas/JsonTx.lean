import Verif.Lemmas.Json
import Verif.Lemmas.SerdeFits
/-!
# Transactions as JSON values
-/

namespace CB
namespace Json
open Spec De

/-! ## Reading what was written -/

@[simp] theorem de_hex (b : Bytes) : De.hexBytes (hex b) = .ok b := by
  simp [hex, De.hexBytes, hexDecode_hexEncode, Res.ofOption]
@[simp] theorem de_hex' (b : Bytes) : De.bytes (hex b) = .ok b := de_hex b
@[simp] theorem de_hexText (b : Bytes) : (De.text (hex b)).bind (fun s => Res.ofOption (hexDecode s) DeErr.malformed) = .ok b := by
  simp [hex, hexDecode_hexEncode, Res.ofOption]
@[simp] theorem de_hexArr {n : Nat} (b : BArr n) : De.arr n (hex b.val) = .ok b := by
  simp [De.arr, b.property]

@[simp] theorem de_uuid (u : Uuid) : De.uuid (uuid u) = .ok u := by
  have hl : (hexEncode u.val).length = 32 := by rw [hexEncode_length, u.property]
  have hd := hexDecode_hexEncode u.val
  obtain ⟨a, hx⟩ : ∃ h, h = hexEncode u.val := ⟨_, rfl⟩
  have key : ∀ h : Str, h.length = 32 → De.uuidText (h.take 8 ++ 0x2d :: ((h.drop 8).take 4 ++ 0x2d :: ((h.drop 12).take 4 ++ 0x2d :: ((h.drop 16).take 4 ++ 0x2d :: h.drop 20)))) = hexDecode h := by
    intro h hl
    repeat (rcases h with _ | ⟨_, h⟩; · simp at hl)
    rcases h with _ | ⟨_, h⟩
    · rfl
    · simp at hl
  simp only [uuid, De.uuid, key _ hl, hd, Res.ofOption, Res.ok_bind]
  rw [dif_pos u.property]

@[simp] theorem de_trustee (t : Trustee) : De.trustee (trustee t) = .ok (forgetTrustee t) := by
  simp +decide [De.trustee, trustee, fields, field, fieldOr, find, forgetTrustee]

@[simp] theorem de_authenticator (t : Authenticator) : De.authenticator (authenticator t) = .ok t := by
  have := de_indexMap (f := fun k : AuthPublicKey => hex k.raw) (g := fun v => (hexBytes v).bind fun b => .ok ⟨b⟩) (by simp) t.publicKeys
  simp +decide [De.authenticator, authenticator, fields, field, find, this]

@[simp] theorem de_authentication (t : Authentication) : De.authentication (authentication t) = .ok t := by
  simp +decide [De.authentication, authentication, fields, field, find]

@[simp] theorem de_ciphertext (c : Ciphertext) : De.ciphertext (hex c.raw) = .ok c := by
  simp [De.ciphertext]

@[simp] theorem de_encryptedVote (t : EncryptedVote) : De.encryptedVote (encryptedVote t) = .ok t := by
  have := de_array_id (f := fun c : Ciphertext => hex c.raw) (g := De.ciphertext) de_ciphertext t.selections
  simp +decide [De.encryptedVote, encryptedVote, fields, field, find, this]

theorem de_election (t : ElectionTx) : De.election (election t) = .ok (forgetElection t) := by
  have h1 := de_array (f := trustee) (g := De.trustee) de_trustee t.trustees
  have h2 := de_array_id (f := authenticator) (g := De.authenticator) de_authenticator t.authenticators
  have h3 := de_array_id (f := Ballot.toCbor) (g := De.ballot) De.de_ballot t.ballots
  have h4 := de_array_id (f := Contest.toCbor) (g := De.contest) De.de_contest t.contests
  have h5 : opt De.mixConfig (Cbor.opt MixConfig.toCbor t.mixConfig) = .ok t.mixConfig := by
    rcases t.mixConfig with _ | b
    · rfl
    · rw [show opt De.mixConfig (Cbor.opt MixConfig.toCbor (some b)) = (De.mixConfig b.toCbor).bind fun a => .ok (some a) from rfl]; simp
  simp +decide [De.election, election, fields, field, fieldOr, find, h1, h2, h3, h4, h5, forgetElection]

theorem de_keyGenCommitment (t : KeyGenCommitmentTx) : De.keyGenCommitment (keyGenCommitment t) = .ok t := by
  simp +decide [De.keyGenCommitment, keyGenCommitment, fields, field, find]

theorem de_keyGenShare (t : KeyGenShareTx) : De.keyGenShare (keyGenShare t) = .ok t := by
  have := de_array_id (f := fun e : UInt8 × EncryptedShare => Cbor.array [.u8 e.1, hex e.2.raw]) (g := De.share)
    (by intro a; simp [De.share]) t.shares.entries
  simp +decide [De.keyGenShare, keyGenShare, fields, field, find, this, IndexMap.ofList_entries]

theorem de_keyGenPublicKey (t : KeyGenPublicKeyTx) : De.keyGenPublicKey (keyGenPublicKey t) = .ok t := by
  simp +decide [De.keyGenPublicKey, keyGenPublicKey, fields, field, find]

theorem de_encryptionKey (t : EncryptionKeyTx) : De.encryptionKey (encryptionKey t) = .ok t := by
  simp +decide [De.encryptionKey, encryptionKey, fields, field, find]

theorem de_vote (t : VoteTx) : De.vote (vote t) = .ok t := by
  have h1 := de_array_id (f := encryptedVote) (g := De.encryptedVote) de_encryptedVote t.encryptedVotes
  have h2 := de_array_id (f := authentication) (g := De.authentication) de_authentication t.authentication
  simp +decide [De.vote, vote, fields, field, find, h1, h2]

theorem de_votingEnd (t : VotingEndTx) : De.votingEnd (votingEnd t) = .ok t := by
  simp +decide [De.votingEnd, votingEnd, fields, field, find]

theorem de_mix (t : MixTx) : De.mix (mix t) = .ok t := by
  have h1 := de_array_id (f := Cbor.ident) (g := ident) de_ident t.voteIds
  have h2 := de_array_id (f := fun l : List Ciphertext => Cbor.array (l.map fun c => hex c.raw)) (g := array De.ciphertext)
    (de_array_id (f := fun c : Ciphertext => hex c.raw) (g := De.ciphertext) de_ciphertext) t.mixedCiphertexts
  have h3 : opt ident (Cbor.opt Cbor.ident t.prevMixId) = .ok t.prevMixId := by
    rcases t.prevMixId with _ | b
    · rfl
    · rw [show opt ident (Cbor.opt Cbor.ident (some b)) = (ident (.ident b)).bind fun a => .ok (some a) from rfl]; simp
  simp +decide [De.mix, mix, fields, field, fieldOr, find, h1, h2, h3]

theorem de_partialDecryption (t : PartialDecryptionTx) : De.partialDecryption (partialDecryption t) = .ok t := by
  have h1 := de_array_id (f := fun s : DecryptShare => hex s.raw) (g := fun c => (De.bytes c).bind fun b => .ok ⟨b⟩) (by simp) t.partialDecryption
  simp +decide [De.partialDecryption, partialDecryption, fields, field, find, h1]

theorem de_signed {T : Type} {f : T → Cbor} {g : Cbor → DRes T} {h : T → T} (hfg : ∀ t, g (f t) = .ok (h t)) (s : Signed T) :
    De.signed g (.map [(str "tx", f s.tx), (str "sig", hex s.sig.val)]) = .ok ⟨h s.tx, s.sig⟩ := by
  simp +decide [De.signed, fields, field, find, hfg]

theorem de_ofTx (t : SignedTx) : De.signedTx (ofTx t) = .ok (forget t) := by
  cases t with
  | election s => simp only [ofTx, signed, signedTx_map, de_signed de_election]; rfl
  | keyGenCommitment s => simp only [ofTx, signed, signedTx_map, de_signed (h := id) de_keyGenCommitment]; rfl
  | keyGenShare s => simp only [ofTx, signed, signedTx_map, de_signed (h := id) de_keyGenShare]; rfl
  | keyGenPublicKey s => simp only [ofTx, signed, signedTx_map, de_signed (h := id) de_keyGenPublicKey]; rfl
  | encryptionKey s => simp only [ofTx, signed, signedTx_map, de_signed (h := id) de_encryptionKey]; rfl
  | vote s => simp only [ofTx, signed, signedTx_map, de_signed (h := id) de_vote]; rfl
  | votingEnd s => simp only [ofTx, signed, signedTx_map, de_signed (h := id) de_votingEnd]; rfl
  | mix s => simp only [ofTx, signed, signedTx_map, de_signed (h := id) de_mix]; rfl
  | partialDecryption s => simp only [ofTx, signed, signedTx_map, de_signed (h := id) de_partialDecryption]; rfl
  | decryption s => simp only [ofTx, signed, signedTx_map, de_signed (h := id) De.de_decryption]; rfl

/-! ## What is written can be carried -/

/-- Rust data, at whatever depth. -/
def AnyFits (c : Cbor) : Prop := ∃ d, Fits d c

theorem AnyFits.text {s : Str} (h : AnyFits (.text s)) : validUtf8 s = true := by
  obtain ⟨d, h⟩ := h
  cases h with
  | text h => exact h.1
theorem AnyFits.array {l : List Cbor} (h : AnyFits (.array l)) : ∀ c ∈ l, AnyFits c := by
  obtain ⟨d, h⟩ := h
  cases h with
  | array _ h => exact fun c hc => ⟨_, h c hc⟩
theorem AnyFits.keys {l : List (Str × Cbor)} (h : AnyFits (.map l)) : ∀ e ∈ l, validUtf8 e.1 = true := by
  obtain ⟨d, h⟩ := h
  cases h with
  | map _ h _ => exact fun e he => (h e he).1
theorem AnyFits.value {l : List (Str × Cbor)} (h : AnyFits (.map l)) (k : Str) {v : Cbor} (hm : (k, v) ∈ l) : AnyFits v := by
  obtain ⟨d, h⟩ := h
  cases h with
  | map _ _ h => exact ⟨_, h _ hm⟩
theorem AnyFits.items {α : Type} {f : α → Cbor} {l : List α} (h : AnyFits (.array (l.map f))) : ∀ a ∈ l, AnyFits (f a) :=
  fun a ha => h.array _ (List.mem_map.2 ⟨a, ha, rfl⟩)

theorem jf_map {d : Nat} {l : List (Str × Cbor)} (ks : List Str) (hk : l.map Prod.fst = ks) (hc : ks.all validUtf8 = true) (hv : ∀ e ∈ l, JsonFits d e.2) :
    JsonFits (d + 1) (.map l) := by
  refine .map (fun e he => ?_) hv
  exact List.all_eq_true.1 hc _ (by rw [← hk]; exact List.mem_map.2 ⟨e, he, rfl⟩)
theorem jf_list {d : Nat} {α : Type} {f : α → Cbor} {l : List α} (h : ∀ a ∈ l, JsonFits d (f a)) : JsonFits (d + 1) (.array (l.map f)) := by
  refine .array fun c hc => ?_
  obtain ⟨a, ha, rfl⟩ := List.mem_map.1 hc
  exact h a ha
theorem jf_hex (d : Nat) (b : Bytes) : JsonFits d (hex b) := .text (validUtf8_ascii fun c hc => lower_lt c (hexEncode_lower _ c hc))
theorem jf_ident (d : Nat) (i : Identifier) : JsonFits d (.ident i) := jf_hex d i.toArray
theorem jf_uuid (d : Nat) (u : Uuid) : JsonFits d (uuid u) := by
  refine .text (validUtf8_ascii fun c hc => ?_)
  have h1 : ∀ c ∈ hexEncode u.val, c < 0x80 := fun c hc => lower_lt c (hexEncode_lower _ c hc)
  simp only [List.mem_append, List.mem_cons] at hc
  rcases hc with hc | rfl | hc | rfl | hc | rfl | hc | rfl | hc
  · exact h1 _ (List.mem_of_mem_take hc)
  · decide
  · exact h1 _ (List.mem_of_mem_drop (List.mem_of_mem_take hc))
  · decide
  · exact h1 _ (List.mem_of_mem_drop (List.mem_of_mem_take hc))
  · decide
  · exact h1 _ (List.mem_of_mem_drop (List.mem_of_mem_take hc))
  · decide
  · exact h1 _ (List.mem_of_mem_drop hc)
theorem jf_opt {d : Nat} {α : Type} {f : α → Cbor} (h : ∀ a, JsonFits d (f a)) (o : Option α) : JsonFits d (.opt f o) := by
  cases o with
  | none => exact .null
  | some a => exact h a
theorem jf_u8 {d : Nat} (n : UInt8) : JsonFits d (.u8 n) := .uint
theorem jf_u16 {d : Nat} (n : UInt16) : JsonFits d (.u16 n) := .uint
theorem jf_u32 {d : Nat} (n : UInt32) : JsonFits d (.u32 n) := .uint

theorem jf_trustee (d : Nat) (t : Trustee) : JsonFits (d + 1) (trustee t) :=
  jf_map [str "public_key", str "index"] rfl (by decide +kernel) (by simp [jf_hex, jf_u8])

theorem jf_authenticator (d : Nat) (a : Authenticator) (h : AnyFits a.toCbor) : JsonFits (d + 2) (authenticator a) := by
  refine jf_map [str "id", str "public_keys"] rfl (by decide +kernel) ?_
  have hk := (h.value (str "public_keys") (v := .map (a.publicKeys.entries.map fun e => (e.1, .bytes e.2.raw))) (by simp)).keys
  have : JsonFits (d + 1) (.map (a.publicKeys.entries.map fun e => (e.1, hex e.2.raw))) := by
    refine .map (fun e he => ?_) (fun e he => ?_)
    · obtain ⟨x, hx, rfl⟩ := List.mem_map.1 he
      exact hk (x.1, .bytes x.2.raw) (List.mem_map.2 ⟨x, hx, rfl⟩)
    · obtain ⟨x, hx, rfl⟩ := List.mem_map.1 he
      exact jf_hex _ _
  simp [jf_uuid, this]

theorem jf_authentication (d : Nat) (a : Authentication) : JsonFits (d + 1) (authentication a) :=
  jf_map [str "authenticator", str "signature"] rfl (by decide +kernel) (by simp [jf_uuid, jf_hex])

theorem jf_mixConfig (d : Nat) (m : MixConfig) : JsonFits (d + 1) m.toCbor :=
  jf_map [str "timeout_secs", str "batch_size"] rfl (by decide +kernel) (by
    have : JsonFits d (.opt .u16 m.batchSize) := jf_opt (fun _ => jf_u16 _) _
    simp [this, JsonFits.uint])

theorem jf_props {d : Nat} {p : Properties} (hk : ∀ e ∈ p.entries, validUtf8 e.1 = true) (h : ∀ e ∈ p.entries, JsonFits d e.2.val) : JsonFits (d + 1) (.props p) :=
  .map (List.forall_mem_map.2 hk) (List.forall_mem_map.2 h)

theorem mem_propsField {p : Properties} {e : Str × Cbor} (h : e ∈ Cbor.propsField p) : e = (str "properties", .props p) := by
  unfold Cbor.propsField at h
  split at h
  · cases h
  · simpa using h

theorem propsField_keys {l : List (Str × Cbor)} {p : Properties} (h : AnyFits (.map (l ++ Cbor.propsField p))) : ∀ e ∈ p.entries, validUtf8 e.1 = true := by
  intro e he
  have hm : (str "properties", Cbor.props p) ∈ Cbor.propsField p := by
    unfold Cbor.propsField
    rw [if_neg (by intro hn; rw [List.isEmpty_iff.1 hn] at he; cases he)]
    simp
  exact (h.value (str "properties") (List.mem_append_right _ hm)).keys (e.1, e.2.val) (List.mem_map.2 ⟨e, he, rfl⟩)

theorem jf_map_props {d : Nat} {l : List (Str × Cbor)} {p : Properties}
    (hv : ∀ e ∈ l, JsonFits (d + 1) e.2) (ha : AnyFits (.map (l ++ Cbor.propsField p))) (hp : ∀ e ∈ p.entries, JsonFits d e.2.val) :
    JsonFits (d + 2) (.map (l ++ Cbor.propsField p)) := by
  refine .map (fun e he => ?_) (fun e he => ?_)
  · exact ha.keys e he
  · rcases List.mem_append.1 he with he | he
    · exact hv e he
    · rw [mem_propsField he]
      exact jf_props (propsField_keys ha) hp

theorem jf_ballot (d : Nat) (b : Ballot) (h : AnyFits b.toCbor) (hp : ∀ e ∈ b.properties.entries, JsonFits d e.2.val) : JsonFits (d + 2) b.toCbor := by
  have h1 := (h.value (str "id") (v := .text b.id) (by simp)).text
  refine jf_map_props ?_ h hp
  have : JsonFits (d + 1) (.array (b.contests.map .u32)) := jf_list fun _ _ => jf_u32 _
  simp [this, JsonFits.text h1]

theorem jf_candidate (d : Nat) (b : Candidate) (h : AnyFits b.toCbor) (hp : ∀ e ∈ b.properties.entries, JsonFits d e.2.val) : JsonFits (d + 2) b.toCbor := by
  have h1 := (h.value (str "id") (v := .text b.id) (by simp)).text
  refine jf_map_props ?_ h hp
  simp [JsonFits.text h1]

theorem jf_contest (d : Nat) (b : Contest) (h : AnyFits b.toCbor) (hp : ∀ e ∈ b.properties.entries, JsonFits d e.2.val)
    (hc : ∀ c ∈ b.candidates, ∀ e ∈ c.properties.entries, JsonFits d e.2.val) : JsonFits (d + 4) b.toCbor := by
  have h1 := (h.value (str "id") (v := .text b.id) (by simp)).text
  have h2 := (h.value (str "candidates") (v := .array (b.candidates.map Candidate.toCbor)) (by simp)).items
  have h3 : validUtf8 b.contestType.name = true := by cases b.contestType <;> decide +kernel
  refine jf_map_props (d := d + 2) ?_ h
    fun e he => (hp e he).mono (by omega)
  have : JsonFits (d + 3) (.array (b.candidates.map Candidate.toCbor)) := jf_list fun c hcm => jf_candidate d c (h2 c hcm) (hc c hcm)
  simp [this, JsonFits.text h1, JsonFits.text h3, jf_u32, JsonFits.bool]

theorem jf_selection (d : Nat) (s : Selection) (h : AnyFits s.toCbor) : JsonFits (d + 1) s.toCbor := by
  have h1 := (h.value (str "selection") (v := .text s.selection) (by simp)).text
  exact jf_map [str "write_in", str "score", str "selection"] rfl (by decide +kernel) (by simp [JsonFits.text h1, jf_u32, JsonFits.bool])

theorem jf_encryptedVote (d : Nat) (v : EncryptedVote) : JsonFits (d + 2) (encryptedVote v) :=
  jf_map [str "contest_index", str "selections"] rfl (by decide +kernel) (by
    have : JsonFits (d + 1) (.array (v.selections.map fun c => hex c.raw)) := jf_list fun _ _ => jf_hex _ _
    simp [this, jf_u32])

theorem jf_election (d : Nat) (t : ElectionTx) (h : AnyFits t.toCbor) (hp : ∀ e ∈ t.properties.entries, JsonFits d e.2.val)
    (hb : ∀ b ∈ t.ballots, ∀ e ∈ b.properties.entries, JsonFits d e.2.val) (hc : ∀ c ∈ t.contests, ∀ e ∈ c.properties.entries, JsonFits d e.2.val)
    (hcc : ∀ c ∈ t.contests, ∀ k ∈ c.candidates, ∀ e ∈ k.properties.entries, JsonFits d e.2.val) : JsonFits (d + 6) (election t) := by
  have h1 := (h.value (str "authenticators") (v := .array (t.authenticators.map Authenticator.toCbor)) (by simp)).items
  have h2 := (h.value (str "ballots") (v := .array (t.ballots.map Ballot.toCbor)) (by simp)).items
  have h3 := (h.value (str "contests") (v := .array (t.contests.map Contest.toCbor)) (by simp)).items
  have h4 := (h.value (str "properties") (v := .props t.properties) (by simp)).keys
  refine jf_map [str "id", str "authority_public", str "trustees", str "trustees_threshold", str "authenticators", str "authenticators_threshold", str "mix_config", str "ballots", str "contests", str "properties"]
    rfl (by decide +kernel) ?_
  have g1 : JsonFits (d + 5) (.array (t.trustees.map trustee)) := jf_list fun _ _ => jf_trustee _ _
  have g2 : JsonFits (d + 5) (.array (t.authenticators.map authenticator)) := jf_list fun a ha => jf_authenticator _ _ (h1 a ha)
  have g3 : JsonFits (d + 5) (.opt MixConfig.toCbor t.mixConfig) := jf_opt (fun _ => jf_mixConfig _ _) _
  have g4 : JsonFits (d + 5) (.array (t.ballots.map Ballot.toCbor)) :=
    jf_list fun a ha => (jf_ballot d a (h2 a ha) (hb a ha)).mono (by omega)
  have g5 : JsonFits (d + 5) (.array (t.contests.map Contest.toCbor)) := jf_list fun a ha => jf_contest d a (h3 a ha) (hc a ha) (hcc a ha)
  have g6 : JsonFits (d + 5) (.props t.properties) := (jf_props (List.forall_mem_map.1 h4) hp).mono (by omega)
  simp [g1, g2, g3, g4, g5, g6, jf_ident, jf_hex, jf_u8]

theorem jf_keyGenCommitment (d : Nat) (t : KeyGenCommitmentTx) : JsonFits (d + 1) (keyGenCommitment t) :=
  jf_map [str "id", str "election", str "trustee_index", str "trustee_public_key", str "x25519_public_key", str "commitment"] rfl (by decide +kernel) (by simp [jf_ident, jf_hex, jf_u8])

theorem jf_keyGenShare (d : Nat) (t : KeyGenShareTx) : JsonFits (d + 3) (keyGenShare t) :=
  jf_map [str "id", str "election", str "trustee_index", str "trustee_public_key", str "shares"] rfl (by decide +kernel) (by
    have : JsonFits (d + 2) (.array (t.shares.entries.map fun e => .array [.u8 e.1, hex e.2.raw])) := jf_list fun a _ => .array (by simp [jf_hex, jf_u8])
    simp [this, jf_ident, jf_hex, jf_u8])

theorem jf_keyGenPublicKey (d : Nat) (t : KeyGenPublicKeyTx) : JsonFits (d + 1) (keyGenPublicKey t) :=
  jf_map [str "id", str "election", str "trustee_index", str "trustee_public_key", str "public_key", str "public_key_proof"] rfl (by decide +kernel) (by simp [jf_ident, jf_hex, jf_u8])

theorem jf_encryptionKey (d : Nat) (t : EncryptionKeyTx) : JsonFits (d + 1) (encryptionKey t) :=
  jf_map [str "id", str "election", str "authority_public_key", str "encryption_key"] rfl (by decide +kernel) (by simp [jf_ident, jf_hex])

theorem jf_vote (d : Nat) (t : VoteTx) (h : AnyFits t.toCbor) : JsonFits (d + 4) (vote t) := by
  have h1 := (h.value (str "ballot_id") (v := .text t.ballotId) (by simp)).text
  refine jf_map [str "id", str "election", str "ballot_id", str "encrypted_votes", str "anonymous_key", str "authentication"] rfl (by decide +kernel) ?_
  have g1 : JsonFits (d + 3) (.array (t.encryptedVotes.map encryptedVote)) := jf_list fun _ _ => jf_encryptedVote _ _
  have g2 : JsonFits (d + 3) (.array (t.authentication.map authentication)) := jf_list fun _ _ => jf_authentication _ _
  simp [g1, g2, jf_ident, jf_hex, JsonFits.text h1]

theorem jf_votingEnd (d : Nat) (t : VotingEndTx) : JsonFits (d + 1) (votingEnd t) :=
  jf_map [str "id", str "election", str "authority_public_key"] rfl (by decide +kernel) (by simp [jf_ident, jf_hex])

theorem jf_mix (d : Nat) (t : MixTx) : JsonFits (d + 3) (mix t) := by
  refine jf_map [str "id", str "election_id", str "prev_mix_id", str "trustee_index", str "trustee_public_key", str "mix_index", str "contest_index", str "batch", str "vote_ids", str "mixed_ciphertexts", str "proof"]
    rfl (by decide +kernel) ?_
  have g1 : JsonFits (d + 2) (.opt .ident t.prevMixId) := jf_opt (fun _ => jf_ident _ _) _
  have g2 : JsonFits (d + 2) (.array (t.voteIds.map .ident)) := jf_list fun _ _ => jf_ident _ _
  have g3 : JsonFits (d + 2) (.array (t.mixedCiphertexts.map fun l => .array (l.map fun c => hex c.raw))) := jf_list fun _ _ => jf_list fun _ _ => jf_hex _ _
  simp [g1, g2, g3, jf_ident, jf_hex, jf_u8, jf_u32]

theorem jf_partialDecryption (d : Nat) (t : PartialDecryptionTx) : JsonFits (d + 2) (partialDecryption t) := by
  refine jf_map [str "id", str "election_id", str "upstream_id", str "upstream_index", str "contest_index", str "trustee_index", str "trustee_public_key", str "partial_decryption"] rfl (by decide +kernel) ?_
  have g1 : JsonFits (d + 1) (.array (t.partialDecryption.map fun s => hex s.raw)) := jf_list fun _ _ => jf_hex _ _
  simp [g1, jf_ident, jf_hex, jf_u8, jf_u16, jf_u32]

theorem jf_decryption (d : Nat) (t : DecryptionTx) (h : AnyFits t.toCbor) : JsonFits (d + 3) t.toCbor := by
  have h1 := (h.value (str "decrypted_vote") (v := .array (t.decryptedVote.map Selection.toCbor)) (by simp)).items
  refine jf_map [str "id", str "election_id", str "upstream_id", str "upstream_index", str "contest_index", str "trustees", str "decrypted_vote"] rfl (by decide +kernel) ?_
  have g1 : JsonFits (d + 2) (.array (t.trustees.map .u8)) := jf_list fun _ _ => jf_u8 _
  have g2 : JsonFits (d + 2) (.array (t.decryptedVote.map Selection.toCbor)) := jf_list fun a ha => jf_selection _ _ (h1 a ha)
  simp [g1, g2, jf_ident, jf_u16, jf_u32]

theorem jf_signed {T : Type} {d : Nat} {f : T → Cbor} {ty : TxType} {s : Signed T} (h : JsonFits d (f s.tx)) : JsonFits (d + 1) (signed f ty s) := by
  have h3 : validUtf8 ty.name = true := by cases ty <;> decide +kernel
  exact jf_map [str "type", str "tx", str "sig"] rfl (by decide +kernel) (by simp [h, jf_hex, JsonFits.text h3])

/-- Every transaction of Rust data whose properties JSON can carry is carried by JSON. -/
theorem jf_ofTx (d : Nat) (t : SignedTx) (h : RustData t) (hp : JsonProperties d t) : JsonFits (d + 7) (ofTx t) := by
  have key : ∀ a b c : Cbor, Fits 127 (.map [(str "type", a), (str "tx", b), (str "sig", c)]) → AnyFits b := fun a b c h =>
    AnyFits.value ⟨_, h⟩ (str "tx") (by simp)
  unfold RustData at h
  cases t with
  | election s =>
    refine jf_signed (jf_election d s.tx (key _ _ _ h) (fun e he => hp _ ?_ e he) (fun b hb e he => hp b.properties ?_ e he)
      (fun c hc e he => hp c.properties ?_ e he) fun c hc k hk e he => hp k.properties ?_ e he)
    · simp [propertiesOf]
    · simp only [propertiesOf, List.cons_append, List.mem_cons, List.mem_append]
      exact .inr (.inl (List.mem_map.2 ⟨b, hb, rfl⟩))
    · simp only [propertiesOf, List.cons_append, List.mem_cons, List.mem_append]
      exact .inr (.inr (List.mem_flatMap.2 ⟨c, hc, List.mem_cons_self⟩))
    · simp only [propertiesOf, List.cons_append, List.mem_cons, List.mem_append]
      exact .inr (.inr (List.mem_flatMap.2 ⟨c, hc, List.mem_cons_of_mem _ (List.mem_map.2 ⟨k, hk, rfl⟩)⟩))
  | keyGenCommitment s => exact jf_signed (jf_keyGenCommitment _ s.tx)
  | keyGenShare s => exact jf_signed (jf_keyGenShare _ s.tx)
  | keyGenPublicKey s => exact jf_signed (jf_keyGenPublicKey _ s.tx)
  | encryptionKey s => exact jf_signed (jf_encryptionKey _ s.tx)
  | vote s => exact jf_signed (jf_vote _ s.tx (key _ _ _ h))
  | votingEnd s => exact jf_signed (jf_votingEnd _ s.tx)
  | mix s => exact jf_signed (jf_mix _ s.tx)
  | partialDecryption s => exact jf_signed (jf_partialDecryption _ s.tx)
  | decryption s => exact jf_signed (jf_decryption _ s.tx (key _ _ _ h))

end Json
end CB
