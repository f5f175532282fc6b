import Verif.Model.Sawtooth
import Verif.Lemmas.SerdeFits
import Verif.Props.Serialization
/-!
# C62: what is received can be stored and read back; C55: the Sawtooth transaction processor
-/

namespace CB
open Spec

/-! ## C62 -/

/-- **C62** Whatever bytes a node accepts as a transaction, serializing the transaction again gives bytes that are read back as the same transaction (up to the two
unserialized trustee fields): same id, same signed bytes, same bytes when serialized once more, and the same verdict against every store. -/
theorem C62_received_can_be_stored (bs : Bytes) (t : SignedTx) (h : SignedTx.fromBytes bs = .ok t) :
    ∃ t', SignedTx.fromBytes t.asBytes = .ok t' ∧ forget t' = forget t ∧ t'.id = t.id ∧ kindOf t' = kindOf t ∧ signedBytes t' = signedBytes t ∧
      t'.asBytes = t.asBytes ∧ ∀ E S, t'.validate E S = t.validate E S := by
  have hc : ∀ e : ElectionTx, (forgetElection e).toCbor = e.toCbor := by
    intro e
    have : (e.trustees.map forgetTrustee).map Trustee.toCbor = e.trustees.map Trustee.toCbor := by
      rw [List.map_map]; exact List.map_congr_left fun _ _ => rfl
    simp only [forgetElection, ElectionTx.toCbor, this]
  refine ⟨forget t, C47_serialization_roundtrip t (rustData_of_fromBytes h), ?_, (C47_forget_harmless Toy.env (Store.mk (fun _ => none) fun _ _ => .ok []) t).1, ?_,
    (C47_forget_harmless Toy.env (Store.mk (fun _ => none) fun _ _ => .ok []) t).2.1, ?_, fun E S => (C47_forget_harmless E S t).2.2⟩
  · cases t with
    | election s =>
      simp only [forget, forgetElection, List.map_map]
      congr 3
    | _ => rfl
  · cases t <;> rfl
  · cases t with
    | election s => simp only [forget, SignedTx.asBytes, SignedTx.toCbor, Signed.cborFields, hc]
    | _ => rfl

/-- a voting-end transaction sent with an extra field: it is read, and its own serialization is different bytes -/
def withExtra : Bytes :=
  (Cbor.map [(str "type", .text (str "voting_end")), (str "comment", .null), (str "tx", (VotingEndTx.new Toy.eid (Toy.key 1)).toCbor), (str "sig", .bytes (Toy.sig 1).val)]).encode

example : (match SignedTx.fromBytes withExtra with | .ok t => t.asBytes == Toy.endTx.asBytes && t.asBytes != withExtra | _ => false) = true := by decide +kernel

namespace Sawtooth

/-! ## C55 -/

theorem getTransaction_eq_some {pre : Str} {s : State} {id : Identifier} {t : SignedTx} :
    getTransaction pre s id = some t ↔ ∃ b, s.get (address pre id) = some b ∧ SignedTx.fromBytes b = .ok t := by
  unfold getTransaction
  split
  · rename_i b hb
    simp only [hb, Option.some.injEq, exists_eq_left']
    split <;> simp_all
  · simp_all

theorem address_injective {pre : Str} {a b : Identifier} (h : address pre a = address pre b) : a = b :=
  Identifier.toString_injective (List.append_cancel_left h)

theorem apply_ok {E : Env} {pre : Str} {s s' : State} {p : Bytes} :
    apply E pre s p = .ok s' ↔ ∃ t, SignedTx.fromBytes p = .ok t ∧ (kindOf t = .election ∨ getTransaction pre s t.id = none) ∧
      t.validate E (toStore pre s) = .ok () ∧ s' = s.insert (address pre t.id) t.asBytes := by
  unfold apply validateTransaction
  simp only [Res.bind_eq_ok, Res.mapErr_eq_ok, Res.exists_unit, Res.ok.injEq]
  refine exists_congr fun t => and_congr_right fun _ => ?_
  rw [and_assoc]
  refine and_congr ?_ (and_congr_right fun _ => eq_comm)
  cases t <;> simp [kindOf]

end Sawtooth

namespace Spec

/-- The kinds of transactions that are needed before voting, and the end of voting. -/
def setupKinds : List TxType := [.election, .keyGenCommitment, .keyGenShare, .keyGenPublicKey, .votingEnd]

end Spec

namespace Sawtooth

/-- Every entry is a setup transaction, filed under its own id, which has its own type. -/
def WF (pre : Str) (s : State) : Prop :=
  ∀ k b, s.get k = some b → ∃ t, k = address pre t.id ∧ SignedTx.fromBytes b = .ok t ∧ t.id.txType = kindOf t ∧ kindOf t ∈ setupKinds

theorem get_setup {pre : Str} {s : State} (h : WF pre s) {id : Identifier} {t : SignedTx} (ht : getTransaction pre s id = some t) :
    t.id = id ∧ t.id.txType = kindOf t ∧ kindOf t ∈ setupKinds := by
  obtain ⟨b, hb, hd⟩ := getTransaction_eq_some.1 ht
  obtain ⟨t', h1, h2, h3⟩ := h _ _ hb
  rw [hd] at h2
  cases h2
  exact ⟨(address_injective h1).symm, h3⟩

/-- Against a Sawtooth state without votes and mixes, only setup transactions validate: everything else needs a range scan, a vote or a mix. -/
theorem validates_setup {E : Env} {pre : Str} {s : State} (h : WF pre s) {t : SignedTx} (ht : t.validate E (toStore pre s) = .ok ()) : kindOf t ∈ setupKinds := by
  obtain ⟨_, _, hv⟩ := SignedTx.validate_ok.1 ht
  have hup : ∀ u i c m l, encryptedVoteFromUpstream (toStore pre s) u i c m ≠ .ok l := by
    intro u i c m l hl
    unfold encryptedVoteFromUpstream at hl
    split at hl
    · simp only [Res.bind_def, Res.bind_eq_ok, Res.exists_unit, Store.getVote_ok] at hl
      obtain ⟨_, _, v, hv, _⟩ := hl
      exact absurd (get_setup h hv).2.2 (by decide : TxType.vote ∉ setupKinds)
    · simp only [Res.bind_def, Res.bind_eq_ok, Store.getMix_ok] at hl
      obtain ⟨v, hv, _⟩ := hl
      exact absurd (get_setup h hv).2.2 (by decide : TxType.mix ∉ setupKinds)
    · cases hl
  cases t with
  | election s => exact (by decide : TxType.election ∈ setupKinds)
  | keyGenCommitment s => exact (by decide : TxType.keyGenCommitment ∈ setupKinds)
  | keyGenShare s => exact (by decide : TxType.keyGenShare ∈ setupKinds)
  | keyGenPublicKey s => exact (by decide : TxType.keyGenPublicKey ∈ setupKinds)
  | votingEnd s => exact (by decide : TxType.votingEnd ∈ setupKinds)
  | encryptionKey x =>
    exfalso
    have hv : x.tx.validateTx (toStore pre s) = .ok () := hv
    simp only [EncryptionKeyTx.validateTx, Res.bind_def, Res.bind_eq_ok] at hv
    obtain ⟨_, _, _, _, _, hl, _⟩ := hv
    simp only [Store.getMultiple, Identifier.start_none, Identifier.end_none] at hl
    cases hl
  | vote x =>
    exfalso
    have hv : x.tx.validateTx E (toStore pre s) = .ok () := hv
    simp only [VoteTx.validateTx, Res.bind_def, Res.bind_eq_ok] at hv
    obtain ⟨_, _, _, _, _, _, _, _, _, hl, _⟩ := hv
    cases hl
  | mix x =>
    exfalso
    have hv : x.tx.validateTx E (toStore pre s) = .ok () := hv
    simp only [MixTx.validateTx, Res.bind_def, Res.bind_eq_ok] at hv
    obtain ⟨_, _, _, _, _, _, _, _, _, _, _, _, _, _, _, hl, _⟩ := hv
    unfold MixTx.inputs at hl
    split at hl
    · simp only [MixTx.inputsFromPrev, Res.bind_def, Res.bind_eq_ok, Res.ofOption_eq_ok, SignedTx.intoMix_ok] at hl
      obtain ⟨_, hr, m, rfl, _⟩ := hl
      exact absurd (get_setup h hr).2.2 (by decide : TxType.mix ∉ setupKinds)
    · simp only [MixTx.inputsFromVotes, Res.bind_def, Res.bind_eq_ok] at hl
      obtain ⟨_, _, _, _, _, _, _, _, _, _, _, hl, _⟩ := hl
      cases hl
  | partialDecryption x =>
    exfalso
    have hv : x.tx.validateTx E (toStore pre s) = .ok () := hv
    simp only [PartialDecryptionTx.validateTx, Res.bind_def, Res.bind_eq_ok] at hv
    obtain ⟨_, _, _, _, _, _, _, _, _, hl, _⟩ := hv
    exact hup _ _ _ _ _ hl
  | decryption x =>
    exfalso
    have hv : x.tx.validateTx E (toStore pre s) = .ok () := hv
    simp only [DecryptionTx.validateTx, Res.bind_def, Res.bind_eq_ok] at hv
    obtain ⟨_, _, _, _, _, hl, _⟩ := hv
    exact hup _ _ _ _ _ hl

theorem wf_apply {E : Env} {pre : Str} {s s' : State} {p : Bytes} (h : WF pre s) (ha : apply E pre s p = .ok s') : WF pre s' := by
  obtain ⟨t, hd, _, hv, rfl⟩ := apply_ok.1 ha
  intro k b hk
  rw [OMap.get_insert] at hk
  split at hk
  · rename_i he
    cases hk
    obtain ⟨t', h1, _, h2, h3, _⟩ := C62_received_can_be_stored p t hd
    refine ⟨t', by rw [h2]; exact he, h1, ?_, ?_⟩
    · rw [h2, h3, kindOf_eq]; exact (SignedTx.validate_ok.1 hv).1
    · rw [h3]; exact validates_setup h hv
  · exact h k b hk

theorem applyAll_snoc (E : Env) (pre : Str) (s : State) (l : List Bytes) (p : Bytes) :
    applyAll E pre s (l ++ [p]) = match apply E pre (applyAll E pre s l) p with | .ok s' => s' | _ => applyAll E pre s l := by
  unfold applyAll; rw [List.foldl_append]; rfl

theorem wf_applyAll {E : Env} {pre : Str} {l : List Bytes} {s : State} (h : WF pre s) : WF pre (applyAll E pre s l) := by
  induction l generalizing s with
  | nil => exact h
  | cons p l ih =>
    show WF pre (applyAll E pre (match apply E pre s p with | .ok s' => s' | _ => s) l)
    refine ih ?_
    split
    · exact wf_apply h ‹_›
    · exact h

theorem wf_empty (pre : Str) : WF pre OMap.empty := by
  intro k b h; cases h

/-- **C55 (partial)** Over every history of payloads, anything stored under the id of a transaction that is not an election stays, byte for byte; everything stored is
filed under its own id; and nothing but setup transactions is ever stored. -/
theorem C55_sawtooth_immutable_partial (E : Env) (pre : Str) (l more : List Bytes) (id : Identifier) (t : SignedTx)
    (h : getTransaction pre (applyAll E pre OMap.empty l) id = some t) :
    t.id = id ∧ kindOf t ∈ setupKinds ∧
    (kindOf t ≠ .election → (applyAll E pre OMap.empty (l ++ more)).get (address pre id) = (applyAll E pre OMap.empty l).get (address pre id) ∧
      getTransaction pre (applyAll E pre OMap.empty (l ++ more)) id = some t) := by
  have hw := wf_applyAll (E := E) (l := l) (wf_empty pre)
  obtain ⟨h1, h2, h3⟩ := get_setup hw h
  refine ⟨h1, h3, fun hk => ?_⟩
  have key : (applyAll E pre OMap.empty (l ++ more)).get (address pre id) = (applyAll E pre OMap.empty l).get (address pre id) := by
    have : applyAll E pre OMap.empty (l ++ more) = applyAll E pre (applyAll E pre OMap.empty l) more := by unfold applyAll; rw [List.foldl_append]
    rw [this]
    generalize applyAll E pre OMap.empty l = s at *
    clear this
    induction more generalizing s with
    | nil => rfl
    | cons p more ih =>
      show (applyAll E pre (match apply E pre s p with | .ok s' => s' | _ => s) more).get _ = _
      split
      · rename_i s' ha
        obtain ⟨u, hd, hn, hv, hs⟩ := apply_ok.1 ha
        have hne : address pre id ≠ address pre u.id := by
          intro he
          have he := address_injective he
          rcases hn with hn | hn
          · refine hk ?_
            rw [← h2, h1, he, (SignedTx.validate_ok.1 hv).1, ← kindOf_eq, hn]
          · rw [← he, h] at hn; cases hn
        have hg : s'.get (address pre id) = s.get (address pre id) := by rw [hs, OMap.get_insert, if_neg hne]
        rw [ih s' (by unfold getTransaction; rw [hg]; exact h) (wf_apply hw ha), hg]
      · exact ih s h hw
  refine ⟨key, ?_⟩
  unfold getTransaction
  rw [key]
  exact h

/-- the sample election under Sawtooth: of its nineteen transactions only the election, the key generation and the voting end get in -/
example : let s := applyAll Toy.env (str "abc123") OMap.empty (Toy.complete.map SignedTx.asBytes)
    (Toy.complete.filterMap fun t => (getTransaction (str "abc123") s t.id).map kindOf) =
      [.election, .keyGenCommitment, .keyGenCommitment, .keyGenShare, .keyGenShare, .keyGenPublicKey, .keyGenPublicKey, .votingEnd] := by decide +kernel

/-- **C55 is false of the code**: a vote is never accepted, whatever was applied before — nor an encryption key, a mix, a partial decryption or a decryption. -/
theorem C55_votes_accepted_false (E : Env) (pre : Str) (l : List Bytes) (p : Bytes) (t : SignedTx) (hp : SignedTx.fromBytes p = .ok t)
    (hk : kindOf t ∈ [TxType.vote, .encryptionKey, .mix, .partialDecryption, .decryption]) :
    ∀ s', apply E pre (applyAll E pre OMap.empty l) p ≠ .ok s' := by
  intro s' h
  obtain ⟨t', hd, _, hv, _⟩ := apply_ok.1 h
  rw [hp] at hd
  cases hd
  have := validates_setup (wf_applyAll (wf_empty pre)) hv
  revert this hk
  generalize kindOf t = k
  revert k
  intro k
  cases k <;> decide

/-- and validating one that is well-formed and refers to a stored election crashes the processor -/
example : (match apply Toy.env (str "abc123") (applyAll Toy.env (str "abc123") OMap.empty (Toy.setup.map SignedTx.asBytes)) (Toy.voteTx 31 "a").asBytes with
    | .panic .todo => true | _ => false) = true := by decide +kernel

/-- the same vote is accepted by the other ledgers -/
example : (Toy.voteTx 31 "a").validate Toy.env (MemStore.ofList Toy.setup).toStore = .ok () := by decide +kernel

/-- the sample election, created anew by somebody else -/
def stolen : SignedTx := .election ⟨{ Toy.election with authorityPublic := Toy.key 99 }, Toy.sig 99⟩

/-- **C55 is false of the code**: a stored election can be replaced by somebody who does not hold its authority's key. -/
theorem C55_election_replaced_false : ¬ ∀ (E : Env) (pre : Str) (l : List Bytes) (p : Bytes) (id : Identifier) (a b : Signed ElectionTx),
    getTransaction pre (applyAll E pre OMap.empty l) id = some (.election a) →
    getTransaction pre (applyAll E pre OMap.empty (l ++ [p])) id = some (.election b) → b.tx.authorityPublic = a.tx.authorityPublic := by
  intro h
  have key : ∀ l : List Bytes, ∀ k : PublicKey, (match getTransaction (str "abc123") (applyAll Toy.env (str "abc123") OMap.empty l) Toy.eid with
      | some (.election a) => a.tx.authorityPublic == k | _ => false) = true →
      ∃ a, getTransaction (str "abc123") (applyAll Toy.env (str "abc123") OMap.empty l) Toy.eid = some (.election a) ∧ a.tx.authorityPublic = k := by
    intro l k hk
    split at hk
    · exact ⟨_, ‹_›, eq_of_beq hk⟩
    · cases hk
  obtain ⟨a, ha, ha'⟩ := key [Toy.electionTx.asBytes] (Toy.key 1) (by decide +kernel)
  obtain ⟨b, hb, hb'⟩ := key ([Toy.electionTx.asBytes] ++ [stolen.asBytes]) (Toy.key 99) (by decide +kernel)
  have := h _ _ _ _ _ _ _ ha hb
  rw [ha', hb'] at this
  exact absurd this (by decide +kernel)

end Sawtooth
end CB
