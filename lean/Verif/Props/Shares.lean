import Verif.Lemmas.IndexMap
import Verif.Lemmas.Bytes
import Verif.Lemmas.Res
import Verif.Spec.Laws
import Verif.Examples.ToyNode
/-!
# C50: encrypted key shares
-/

namespace CB
open Spec

/-- **C50** Whoever holds the secret a share was encrypted under gets exactly that share back, whatever the nonce. -/
theorem C50_share_roundtrip (N : NodeEnv) (hA : AesCorrect N) (nonce : BArr 12) (secret : BArr 32) (share : Scalar) (hs : ScalarReads N share) :
    (EncryptedShare.new N nonce secret share).decrypt N secret = .ok share := by
  have hl : 12 ≤ (EncryptedShare.new N nonce secret share).raw.length := by
    simp [EncryptedShare.new, nonce.property]
  have ht : (EncryptedShare.new N nonce secret share).raw.take 12 = nonce.val := by
    unfold EncryptedShare.new
    exact List.take_left' nonce.property
  have hd : (EncryptedShare.new N nonce secret share).raw.drop 12 = N.aesEncrypt secret nonce share.raw := by
    unfold EncryptedShare.new
    exact List.drop_left' nonce.property
  unfold EncryptedShare.decrypt
  rw [dif_pos hl, hd]
  have : (⟨(EncryptedShare.new N nonce secret share).raw.take 12, by simp [hl]⟩ : BArr 12) = nonce := Subtype.ext ht
  rw [this, hA]
  simp only [Res.ofOption, Res.ok_bind]
  rw [hs]

/-- Sender and recipient derive the same secret. -/
theorem sharedSecret_agrees (N : NodeEnv) (hD : DhAgrees N) (a b : SecretKey) (election : Identifier) :
    Trustee.sharedSecret N a election (Trustee.x25519Key N b election) = Trustee.sharedSecret N b election (Trustee.x25519Key N a election) := by
  unfold Trustee.sharedSecret Trustee.x25519Key
  rw [hD]

theorem encryptShares_get {ε : Type} {N : NodeEnv} {rng : Rng} {sk : SecretKey} {election : Identifier} {g : N.Gen} :
    ∀ (keys : List (UInt8 × X25519Pub)) (k : Nat) (m m' : IndexMap UInt8 EncryptedShare),
      (Trustee.encryptShares N rng sk election g k m keys : Res ε _) = .ok m' →
      (∀ i, i ∉ keys.map Prod.fst → m'.get i = m.get i) ∧
      ((keys.map Prod.fst).Nodup → ∀ i key, (i, key) ∈ keys → ∃ share nonce, N.genShare g i.toNat = .ok share ∧
        m'.get i = some (EncryptedShare.new N nonce (Trustee.sharedSecret N sk election key) share)) := by
  intro keys
  induction keys with
  | nil =>
    intro k m m' h
    simp only [Trustee.encryptShares, Res.ok.injEq] at h
    subst h
    simp
  | cons x xs ih =>
    obtain ⟨i₀, key₀⟩ := x
    intro k m m' h
    simp only [Trustee.encryptShares, Res.bind_eq_ok] at h
    obtain ⟨share, hs, h⟩ := h
    have hs' : N.genShare g i₀.toNat = .ok share := by
      unfold Res.expect at hs
      split at hs
      · rename_i a ha
        cases hs
        exact ha
      · cases hs
    obtain ⟨h1, h2⟩ := ih _ _ _ h
    refine ⟨fun i hi => ?_, fun hn i key hm => ?_⟩
    · simp only [List.map_cons, List.mem_cons, not_or] at hi
      rw [h1 i hi.2, IndexMap.get_insert, if_neg hi.1]
    · simp only [List.map_cons, List.nodup_cons] at hn
      rcases List.mem_cons.1 hm with he | hm
      · cases he
        refine ⟨share, rng.nonce [k], hs', ?_⟩
        rw [h1 _ hn.1, IndexMap.get_insert, if_pos rfl]
      · exact h2 hn.2 i key hm

/-- **C50** The share a trustee posts for a recipient is decrypted by that recipient (who knows the sender's X25519 key) to exactly the polynomial share the sender
computed for that recipient.  The sender's key list has one entry per trustee, the recipient's last entry for the sender is the sender's key. -/
theorem C50_recipient_reads_share {ε : Type} (N : NodeEnv) (hA : AesCorrect N) (hD : DhAgrees N) (rng : Rng) (sender : Trustee) (a b : SecretKey)
    (election : Identifier) (keys keys' : List (UInt8 × X25519Pub)) (commitments : List (UInt8 × KeygenCommitment)) (m : IndexMap UInt8 EncryptedShare)
    (i j : UInt8) (hscalar : ∀ g k s, N.genShare g k = .ok s → ScalarReads N s)
    (h : (sender.generateShares N rng a keys election commitments : Res ε _) = .ok m)
    (hn : (keys.map Prod.fst).Nodup) (hj : (j, Trustee.x25519Key N b election) ∈ keys)
    (hi : (keys'.filter fun k => k.1 == i).getLast? = some (i, Trustee.x25519Key N a election)) :
    ∃ e share g, m.get j = some e ∧
      (Trustee.receiveCommitments N (sender.generator N a election) commitments : Res ε _) = .ok g ∧ N.genShare g j.toNat = .ok share ∧
      Trustee.decryptShares N b keys' election [(i, e)] = .ok [(i, share)] := by
  simp only [Trustee.generateShares, Res.bind_eq_ok] at h
  obtain ⟨g, hg, h⟩ := h
  obtain ⟨share, nonce, h1, h2⟩ := (encryptShares_get keys 0 _ _ h).2 hn j _ hj
  refine ⟨_, share, g, h2, hg, h1, ?_⟩
  have := C50_share_roundtrip N hA nonce (Trustee.sharedSecret N a election (Trustee.x25519Key N b election)) share (hscalar _ _ _ h1)
  rw [sharedSecret_agrees N hD a b election] at this
  rw [sharedSecret_agrees N hD a b election]
  simp [Trustee.decryptShares, Res.mapM', hi, Res.ofOption, this]

/-- **C50** Shares are bound to their election: if key derivation with different elections' salts gives different keys, and the cipher detects wrong keys, then nobody reads a share that
was encrypted for one election as a share of another, whoever sent it and whoever reads it. -/
theorem C50_share_of_other_election (N : NodeEnv) (e e' : Identifier) (hsalt : ∀ ikm ikm' info, N.hkdf e.toArray ikm info ≠ N.hkdf e'.toArray ikm' info)
    (hA : ∀ k k' nonce m, k ≠ k' → N.aesDecrypt k' nonce (N.aesEncrypt k nonce m) = none) (nonce : BArr 12) (a b : SecretKey) (key key' : X25519Pub) (share : Scalar) :
    (EncryptedShare.new N nonce (Trustee.sharedSecret N a e key) share).decrypt N (Trustee.sharedSecret N b e' key') = .err .shareDecryptionError := by
  have hne : Trustee.sharedSecret N a e key ≠ Trustee.sharedSecret N b e' key' := hsalt _ _ _
  generalize Trustee.sharedSecret N a e key = k at hne
  generalize Trustee.sharedSecret N b e' key' = k' at hne
  have hl : 12 ≤ (EncryptedShare.new N nonce k share).raw.length := by
    simp [EncryptedShare.new, nonce.property]
  have ht : (EncryptedShare.new N nonce k share).raw.take 12 = nonce.val := by
    unfold EncryptedShare.new
    exact List.take_left' nonce.property
  have hd : (EncryptedShare.new N nonce k share).raw.drop 12 = N.aesEncrypt k nonce share.raw := by
    unfold EncryptedShare.new
    exact List.drop_left' nonce.property
  unfold EncryptedShare.decrypt
  rw [dif_pos hl, hd]
  have : (⟨(EncryptedShare.new N nonce k share).raw.take 12, by simp [hl]⟩ : BArr 12) = nonce := Subtype.ext ht
  rw [this, hA _ _ _ _ hne]
  rfl

/-- **C50** The hexadecimal form of an encrypted share reads back as that share. -/
theorem C50_hex_roundtrip (e : EncryptedShare) : EncryptedShare.fromHex e.encodeHex = some e := by
  simp [EncryptedShare.fromHex, EncryptedShare.encodeHex, hexDecode_hexEncode]

/-- **C50 (partial)** Decrypting at least 12 arbitrary bytes never crashes: it gives a share or `ShareDecryptionError`.  Missing: shorter inputs, which do crash
(`C50_decrypt_never_crashes_false`). -/
theorem C50_decrypt_never_crashes_partial (N : NodeEnv) (e : EncryptedShare) (secret : BArr 32) :
    (12 ≤ e.raw.length ↔ (∃ s, e.decrypt N secret = .ok s) ∨ e.decrypt N secret = .err .shareDecryptionError) ∧
    (e.raw.length < 12 ↔ ∃ p, e.decrypt N secret = .panic p) := by
  unfold EncryptedShare.decrypt
  by_cases h : 12 ≤ e.raw.length
  · rw [dif_pos h]
    generalize N.aesDecrypt _ _ _ = r
    cases r with
    | none => simp [Res.ofOption, h]
    | some plain =>
      simp only [Res.ofOption, Res.ok_bind]
      cases N.scalarOf plain <;> simp [h]
  · rw [dif_neg h]
    simp; omega

/-- **C50 is false of the code**: bytes shorter than the nonce crash the decryption. -/
theorem C50_decrypt_never_crashes_false : ¬ ∀ (N : NodeEnv) (e : EncryptedShare) (secret : BArr 32) (p : Panic), e.decrypt N secret ≠ .panic p := by
  intro h
  exact h Toy.node ⟨[]⟩ (BArr.fill 32 0) .sliceLen rfl

/-! ## The hypotheses are met -/

theorem Toy.aes_correct : AesCorrect Toy.node := by
  intro key nonce m
  have : (m ++ key.val).length - 32 = m.length := by simp [key.property]
  simp [Toy.node, key.property]

theorem Toy.dh_agrees : DhAgrees Toy.node := by
  intro a b
  apply Subtype.ext
  show List.zipWith (· ^^^ ·) a.val b.val = List.zipWith (· ^^^ ·) b.val a.val
  rw [List.zipWith_comm]
  congr 1
  funext x y
  exact UInt8.xor_comm _ _

/-- A toy environment that derives keys from the salt alone meets the hypotheses of `C50_share_of_other_election`. -/
example : ∃ N : NodeEnv, (∀ ikm ikm' info, N.hkdf Toy.eid.toArray ikm info ≠ N.hkdf Toy.eid2.toArray ikm' info) ∧
    ∀ k k' nonce m, k ≠ k' → N.aesDecrypt k' nonce (N.aesEncrypt k nonce m) = none := by
  refine ⟨{ Toy.node with hkdf := fun salt _ _ => Toy.pad32 salt }, fun _ _ _ => ?_, ?_⟩
  · show Toy.pad32 _ ≠ Toy.pad32 _
    decide
  · intro k k' nonce m hne
    show (if _ then _ else _) = _
    rw [if_neg]
    have : (m ++ k.val).drop ((m ++ k.val).length - 32) = k.val := by simp [k.property]
    exact fun h => hne (Subtype.ext (this.symm.trans h))

/-- Trustee 1 (secret key 11) posts shares for trustees 1 and 2; trustee 2 (secret key 12) reads the share meant for it. -/
example : ∃ m, ((Toy.trustee 1 11).generateShares Toy.node Toy.rng (Toy.key 11)
      [(1, Trustee.x25519Key Toy.node (Toy.key 11) Toy.eid), (2, Trustee.x25519Key Toy.node (Toy.key 12) Toy.eid)] Toy.eid [] : VRes _) = .ok m ∧
    ∃ e share g, m.get 2 = some e ∧
      (Trustee.receiveCommitments Toy.node ((Toy.trustee 1 11).generator Toy.node (Toy.key 11) Toy.eid) [] : VRes _) = .ok g ∧
      Toy.node.genShare g 2 = .ok share ∧
      Trustee.decryptShares Toy.node (Toy.key 12) [(1, Trustee.x25519Key Toy.node (Toy.key 11) Toy.eid)] Toy.eid [(1, e)] = .ok [(1, share)] := by
  refine ⟨_, rfl, ?_⟩
  exact C50_recipient_reads_share Toy.node Toy.aes_correct Toy.dh_agrees Toy.rng (Toy.trustee 1 11) (Toy.key 11) (Toy.key 12) Toy.eid
    [(1, Trustee.x25519Key Toy.node (Toy.key 11) Toy.eid), (2, Trustee.x25519Key Toy.node (Toy.key 12) Toy.eid)] _ [] _ 1 2
    (fun _ _ _ _ => rfl) rfl (by decide +kernel) (by simp) (by decide +kernel)

end CB
