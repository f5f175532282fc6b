import Verif.Model.Validate
import Verif.Lemmas.Identifier
/-!
# C07, C08: the id builders
-/

namespace CB

theorem u8_ofNat_inj {x y : Nat} (h : UInt8.ofNat x = UInt8.ofNat y) : x % 256 = y % 256 := by
  have := congrArg UInt8.toNat h
  simpa using this

theorem u32be_inj {a b : UInt32} (h : u32be a = u32be b) : a = b := by
  simp only [u32be, List.cons.injEq, and_true] at h
  obtain ⟨h1, h2, h3, h4⟩ := h
  have h1 := u8_ofNat_inj h1
  have h2 := u8_ofNat_inj h2
  have h3 := u8_ofNat_inj h3
  have h4 := u8_ofNat_inj h4
  have := a.toNat_lt
  have := b.toNat_lt
  apply UInt32.toNat_inj.1
  omega

theorem u16be_inj {a b : UInt16} (h : u16be a = u16be b) : a = b := by
  simp only [u16be, List.cons.injEq, and_true] at h
  obtain ⟨h1, h2⟩ := h
  have h1 := u8_ofNat_inj h1
  have h2 := u8_ofNat_inj h2
  have := a.toNat_lt
  have := b.toNat_lt
  apply UInt16.toNat_inj.1
  omega

theorem u32be_length (a : UInt32) : (u32be a).length = 4 := rfl
theorem u16be_length (a : UInt16) : (u16be a).length = 2 := rfl

namespace Spec

/-- A position in the ledger, as its meaning: an election together with a step.  Votes are identified by (the first 16 bytes of)
their anonymous key. -/
inductive Step
  | election
  | commitment (trustee : UInt8)
  | share (trustee : UInt8)
  | publicKey (trustee : UInt8)
  | encryptionKey
  | vote (key16 : BArr 16)
  | votingEnd
  | mix (contest batch : UInt32) (mixIndex trustee : UInt8)
  deriving DecidableEq

/-- Something to be decrypted: an output of a mix, or (no mixnet) a contest of the vote with this anonymous-key prefix. -/
inductive Item
  | mixOutput (contest batch : UInt32) (mixIndex mixTrustee : UInt8) (index : UInt16)
  | voteOf (contest : UInt32) (key10 : BArr 10)
  deriving DecidableEq

end Spec
open Spec

/-- an anonymous key starting with the given 16 bytes -/
def keyOf16 (k : BArr 16) : PublicKey := ⟨k.val ++ List.replicate 16 0, by simp [k.property]⟩

/-- The id the code builds for a step, any `election` identifier standing for its election. -/
def stepId (election : Identifier) : Step → Identifier
  | .election => ElectionTx.buildId election.electionId
  | .commitment i => KeyGenCommitmentTx.buildId election i
  | .share i => KeyGenShareTx.buildId election i
  | .publicKey i => KeyGenPublicKeyTx.buildId election i
  | .encryptionKey => EncryptionKeyTx.buildId election
  | .vote k => VoteTx.buildId election (keyOf16 k)
  | .votingEnd => (VotingEndTx.new election (BArr.fill 32 0)).id
  | .mix c b m t => MixTx.buildId election c b m t

theorem keyPrefix16_keyOf16 (k : BArr 16) : VoteTx.keyPrefix16 (keyOf16 k) = k := by
  apply Subtype.ext
  simp only [VoteTx.keyPrefix16, keyOf16]
  rw [List.take_append_of_le_length (by rw [k.property]; exact Nat.le_refl _), List.take_of_length_le (by rw [k.property]; exact Nat.le_refl _)]

theorem trusteeUnique_inj {i j : UInt8} (h : trusteeUnique i = trusteeUnique j) : i = j := by
  have := congrArg Subtype.val h
  simp only [trusteeUnique, List.cons.injEq] at this
  exact this.1

theorem mixUnique_inj {c c' b b' : UInt32} {m m' t t' : UInt8} (h : MixTx.uniqueInfo c b m t = MixTx.uniqueInfo c' b' m' t') :
    c = c' ∧ b = b' ∧ m = m' ∧ t = t' := by
  have h := congrArg Subtype.val h
  simp only [MixTx.uniqueInfo, List.append_assoc] at h
  obtain ⟨h1, h⟩ := List.append_inj h (by simp [u32be_length])
  obtain ⟨h2, h⟩ := List.append_inj h (by simp [u32be_length])
  simp only [List.cons_append, List.nil_append, List.cons.injEq, and_true] at h
  exact ⟨u32be_inj h1, u32be_inj h2, h.1, h.2⟩

/-- **C07** The ids of steps coincide only for the same election and the same step; and a vote's id depends on its anonymous key exactly
through the key's first 16 bytes. -/
theorem C07_step_ids_collision_free :
    (∀ (e e' : Identifier) (s s' : Step), stepId e s = stepId e' s' ↔ e.electionId = e'.electionId ∧ s = s') ∧
    (∀ (e : Identifier) (k : PublicKey) (p : BArr 16), (∀ n, n < 16 → k.val[n]? = p.val[n]?) → VoteTx.buildId e k = stepId e (.vote p)) ∧
    (∀ (e : Identifier) (k : PublicKey), (VotingEndTx.new e k).id = stepId e .votingEnd) := by
  refine ⟨fun e e' s s' => ⟨fun h => ?_, ?_⟩, fun e k p hp => ?_, fun _ _ => rfl⟩
  · have he : e.electionId = e'.electionId := by
      have := congrArg Identifier.electionId h
      cases s <;> cases s' <;> exact this
    refine ⟨he, ?_⟩
    have ht := congrArg Identifier.txType h
    have hu := congrArg Identifier.uniqueInfo h
    cases s <;> cases s' <;> first | rfl | (exfalso; revert ht; simp [stepId, ElectionTx.buildId, KeyGenCommitmentTx.buildId, KeyGenShareTx.buildId, KeyGenPublicKeyTx.buildId, EncryptionKeyTx.buildId, VoteTx.buildId, VotingEndTx.new, MixTx.buildId, Identifier.new]; done) | skip
    · rw [trusteeUnique_inj hu]
    · rw [trusteeUnique_inj hu]
    · rw [trusteeUnique_inj hu]
    · have hu : VoteTx.keyPrefix16 (keyOf16 _) = VoteTx.keyPrefix16 (keyOf16 _) := hu
      rw [keyPrefix16_keyOf16, keyPrefix16_keyOf16] at hu
      rw [hu]
    · obtain ⟨h1, h2, h3, h4⟩ := mixUnique_inj hu
      rw [h1, h2, h3, h4]
  · rintro ⟨he, rfl⟩
    cases s <;> simp [stepId, ElectionTx.buildId, KeyGenCommitmentTx.buildId, KeyGenShareTx.buildId, KeyGenPublicKeyTx.buildId, EncryptionKeyTx.buildId, VoteTx.buildId, VotingEndTx.new, MixTx.buildId, Identifier.new, he]
  · have : VoteTx.keyPrefix16 k = p := by
      apply Subtype.ext
      apply List.ext_getElem?
      intro n
      by_cases hn : n < 16
      · simp only [VoteTx.keyPrefix16]
        rw [List.getElem?_take, if_pos hn, hp n hn]
      · rw [List.getElem?_eq_none (by rw [(VoteTx.keyPrefix16 k).property]; omega), List.getElem?_eq_none (by rw [p.property]; omega)]
    simp only [stepId, VoteTx.buildId, keyPrefix16_keyOf16, this]

example : stepId ⟨BArr.fill 15 7, .election, BArr.fill 16 0⟩ (.mix 1 0 0 1) ≠ stepId ⟨BArr.fill 15 7, .election, BArr.fill 16 0⟩ (.mix 0 1 0 1) := by
  decide +kernel

/-- The id the code builds for the partial decryption of an item by a trustee. -/
def partialId (e : Identifier) (i : Item) (trustee : UInt8) : Identifier :=
  match i with
  | .mixOutput c b m t n => PartialDecryptionTx.buildId e (MixTx.buildId e c b m t) c n trustee
  | .voteOf c k => PartialDecryptionTx.buildId e ⟨e.electionId, .vote, ⟨k.val ++ List.replicate 6 0, by simp [k.property]⟩⟩ c 0 trustee

/-- The id the code builds for the decryption of an item. -/
def decryptionId (e : Identifier) (i : Item) : Identifier :=
  match i with
  | .mixOutput c b m t n => DecryptionTx.buildId e (MixTx.buildId e c b m t) c n
  | .voteOf c k => DecryptionTx.buildId e ⟨e.electionId, .vote, ⟨k.val ++ List.replicate 6 0, by simp [k.property]⟩⟩ c 0

theorem mixUnique_mid (c b : UInt32) (m t : UInt8) :
    ((MixTx.uniqueInfo c b m t).val.drop 4).take 8 = u32be b ++ [m, t, 0, 0] := by
  simp [MixTx.uniqueInfo, u32be, List.replicate]

theorem uniqueInfo_mix_inj {e e' : Identifier} {c c' b b' : UInt32} {m m' t t' tr tr' : UInt8} {n n' : UInt16}
    (h : buildUniqueInfo (MixTx.buildId e c b m t) c n tr = buildUniqueInfo (MixTx.buildId e' c' b' m' t') c' n' tr') :
    c = c' ∧ b = b' ∧ m = m' ∧ t = t' ∧ n = n' ∧ tr = tr' := by
  have h := congrArg Subtype.val h
  simp only [buildUniqueInfo, MixTx.buildId, Identifier.new, Option.getD_some, mixUnique_mid, List.append_assoc] at h
  obtain ⟨h1, h⟩ := List.append_inj h (by simp [u32be_length])
  obtain ⟨_, h⟩ := List.append_inj h (by simp)
  obtain ⟨h2, h⟩ := List.append_inj h (by simp [u32be_length])
  simp only [List.cons_append, List.nil_append, List.cons.injEq, true_and] at h
  obtain ⟨h3, h4, h⟩ := h
  obtain ⟨h5, h⟩ := List.append_inj h (by simp [u16be_length])
  simp only [List.cons.injEq, and_true] at h
  exact ⟨u32be_inj h1, u32be_inj h2, h3, h4, u16be_inj h5, h⟩

theorem uniqueInfo_vote_inj {e e' : BArr 15} {c c' : UInt32} {k k' : BArr 16} {tr tr' : UInt8} {n n' : UInt16}
    (h : buildUniqueInfo ⟨e, .vote, k⟩ c n tr = buildUniqueInfo ⟨e', .vote, k'⟩ c' n' tr') :
    c = c' ∧ k.val.take 10 = k'.val.take 10 ∧ tr = tr' := by
  have h := congrArg Subtype.val h
  simp only [buildUniqueInfo, List.append_assoc] at h
  obtain ⟨h1, h⟩ := List.append_inj h (by simp [u32be_length])
  obtain ⟨_, h⟩ := List.append_inj h (by simp)
  obtain ⟨h2, h⟩ := List.append_inj h (by simp [k.property, k'.property])
  simp only [List.cons.injEq, and_true] at h
  exact ⟨u32be_inj h1, h2, h⟩

theorem uniqueInfo_mix_ne_vote {e : Identifier} {c c' b : UInt32} {m t tr tr' : UInt8} {n n' : UInt16} {x : BArr 15} {k : BArr 16}
    (h : buildUniqueInfo (MixTx.buildId e c b m t) c n tr = buildUniqueInfo ⟨x, .vote, k⟩ c' n' tr') : False := by
  have h := congrArg Subtype.val h
  simp only [buildUniqueInfo, MixTx.buildId, Identifier.new, Option.getD_some, List.append_assoc] at h
  obtain ⟨h1, h⟩ := List.append_inj h (by simp [u32be_length])
  simp only [List.cons_append, List.nil_append, List.cons.injEq] at h
  exact absurd h.1 (by decide)

/-- **C08 (partial)** Partial decryption ids are equal only for the same election, item and trustee, decryption ids only for the same election and
item, and the two kinds never meet — where a *vote item* is known only by the first 10 bytes of the voter's key.
Missing for the full C08: votes whose keys agree in 10 bytes but differ later share ids, see `C08_decryption_ids_false`. -/
theorem C08_decryption_ids_partial :
    (∀ (e e' : Identifier) (i i' : Item) (t t' : UInt8),
      partialId e i t = partialId e' i' t' ↔ e.electionId = e'.electionId ∧ i = i' ∧ t = t') ∧
    (∀ (e e' : Identifier) (i i' : Item), decryptionId e i = decryptionId e' i' ↔ e.electionId = e'.electionId ∧ i = i') ∧
    (∀ (e e' : Identifier) (i i' : Item) (t : UInt8), partialId e i t ≠ decryptionId e' i') ∧
    (∀ (e : Identifier) (k : PublicKey) (p : BArr 10) (c : UInt32) (n : UInt16) (t : UInt8), (∀ j, j < 10 → k.val[j]? = p.val[j]?) →
      PartialDecryptionTx.buildId e (VoteTx.buildId e k) c n t = partialId e (.voteOf c p) t ∧
      DecryptionTx.buildId e (VoteTx.buildId e k) c n = decryptionId e (.voteOf c p)) := by
  have take10 : ∀ k : BArr 10, (k.val ++ List.replicate 6 (0 : UInt8)).take 10 = k.val := by
    intro k
    rw [List.take_append_of_le_length (by rw [k.property]; exact Nat.le_refl _), List.take_of_length_le (by rw [k.property]; exact Nat.le_refl _)]
  refine ⟨fun e e' i i' t t' => ⟨fun h => ?_, ?_⟩, fun e e' i i' => ⟨fun h => ?_, ?_⟩, fun e e' i i' t h => ?_, fun e k p c n t hp => ?_⟩
  · have he : e.electionId = e'.electionId := by
      have := congrArg Identifier.electionId h
      cases i <;> cases i' <;> exact this
    have hu := congrArg Identifier.uniqueInfo h
    refine ⟨he, ?_⟩
    cases i <;> cases i'
    · obtain ⟨h1, h2, h3, h4, h5, h6⟩ := uniqueInfo_mix_inj hu
      exact ⟨by rw [h1, h2, h3, h4, h5], h6⟩
    · exact (uniqueInfo_mix_ne_vote (n' := 0) hu).elim
    · exact (uniqueInfo_mix_ne_vote (n' := 0) hu.symm).elim
    · obtain ⟨h1, h2, h3⟩ := uniqueInfo_vote_inj (n := 0) (n' := 0) hu
      rw [take10, take10] at h2
      exact ⟨by rw [h1, Subtype.ext h2], h3⟩
  · rintro ⟨he, rfl, rfl⟩
    cases i <;> simp [partialId, PartialDecryptionTx.buildId, MixTx.buildId, Identifier.new, he]
  · have he : e.electionId = e'.electionId := by
      have := congrArg Identifier.electionId h
      cases i <;> cases i' <;> exact this
    have hu := congrArg Identifier.uniqueInfo h
    refine ⟨he, ?_⟩
    cases i <;> cases i'
    · obtain ⟨h1, h2, h3, h4, h5, h6⟩ := uniqueInfo_mix_inj hu
      rw [h1, h2, h3, h4, h5]
    · exact (uniqueInfo_mix_ne_vote (n' := 0) hu).elim
    · exact (uniqueInfo_mix_ne_vote (n' := 0) hu.symm).elim
    · obtain ⟨h1, h2, h3⟩ := uniqueInfo_vote_inj (n := 0) (n' := 0) hu
      rw [take10, take10] at h2
      rw [h1, Subtype.ext h2]
  · rintro ⟨he, rfl⟩
    cases i <;> simp [decryptionId, DecryptionTx.buildId, MixTx.buildId, Identifier.new, he]
  · have := congrArg Identifier.txType h
    cases i <;> cases i' <;> cases this
  · have hk : (VoteTx.keyPrefix16 k).val.take 10 = p.val := by
      apply List.ext_getElem?
      intro j
      by_cases hj : j < 10
      · simp only [VoteTx.keyPrefix16]
        rw [List.getElem?_take, if_pos hj, List.getElem?_take, if_pos (by omega), hp j hj]
      · rw [List.getElem?_eq_none (by simp; omega), List.getElem?_eq_none (by rw [p.property]; omega)]
    have hu : ∀ t, buildUniqueInfo (VoteTx.buildId e k) c n t =
        buildUniqueInfo ⟨e.electionId, .vote, ⟨p.val ++ List.replicate 6 0, by simp [p.property]⟩⟩ c 0 t := by
      intro t
      apply Subtype.ext
      simp only [buildUniqueInfo, VoteTx.buildId, Identifier.new, Option.getD_some, hk, take10]
    simp only [PartialDecryptionTx.buildId, DecryptionTx.buildId, partialId, decryptionId, hu, and_self]

/-- **C08 is false of the code**: two votes with different ids (keys equal in their first 10 bytes only) get the same partial decryption id and the
same decryption id. -/
theorem C08_decryption_ids_false :
    ¬ ∀ (e : Identifier) (k k' : PublicKey) (c : UInt32) (t : UInt8),
      VoteTx.buildId e k ≠ VoteTx.buildId e k' →
      PartialDecryptionTx.buildId e (VoteTx.buildId e k) c 0 t ≠ PartialDecryptionTx.buildId e (VoteTx.buildId e k') c 0 t ∧
      DecryptionTx.buildId e (VoteTx.buildId e k) c 0 ≠ DecryptionTx.buildId e (VoteTx.buildId e k') c 0 := by
  intro h
  have := h ⟨BArr.fill 15 7, .election, BArr.fill 16 0⟩ (BArr.fill 32 1) ⟨List.replicate 10 1 ++ List.replicate 22 2, by simp⟩ 0 1
    (by decide +kernel)
  exact this.1 (by decide +kernel)

end CB
