import Verif.Lemmas.Exonum
import Verif.Props.Serialization
import Mathlib.Data.List.Induction
/-!
# C35–C38, C58: the Exonum ledger
-/

namespace CB
open Spec

/-- A submission filed under the id of the transaction it carries, as the command line tool and the server make them. -/
def Spec.Labelled (e : Exonum.Envelope) : Prop := ∀ t, SignedTx.fromBytes e.data = .ok t → e.id = t.id.toString

namespace Exonum

/-! ## C35 -/

/-- **C35** Whatever is submitted afterwards, an entry of the ledger is never changed or removed; what is new in the ledger was submitted, under that key; and a
submission to an occupied key is refused as already existing. -/
theorem C35_exonum_append_only (E : Env) (s : Schema) (l : List Envelope) :
    (∀ k e, s.get k = some e → (deliverAll E s l).get k = some e) ∧
    (∀ k e, (deliverAll E s l).get k = some e → s.get k = some e ∨ (e ∈ l ∧ e.id = k)) ∧
    (∀ e e', (deliverAll E s l).get e.id = some e' → verifyAndStore E (deliverAll E s l) e = .err .transactionAlreadyExists) := by
  refine ⟨fun k e h => deliverAll_keeps h, ?_, ?_⟩
  · induction l generalizing s with
    | nil => exact fun k e h => .inl h
    | cons x l ih =>
      intro k e h
      rcases ih (deliver E s x) k e h with h | ⟨h, hk⟩
      · rcases get_deliver h with h | ⟨_, hk, he, _⟩
        · exact .inl h
        · exact .inr ⟨by simp [he], by rw [he, hk]⟩
      · exact .inr ⟨List.mem_cons_of_mem _ h, hk⟩
  · intro e e' h
    simp [verifyAndStore, h]

/-- The envelopes of the sample election are all accepted, in order. -/
theorem toy_all_stored : ((Toy.complete.map Envelope.ofTx).all fun e =>
    ((deliverAll Toy.env OMap.empty (Toy.complete.map Envelope.ofTx)).get e.id).isSome) = true := by decide +kernel

example : (deliverAll Toy.env OMap.empty (Toy.complete.map Envelope.ofTx)).entries.length = 19 := by decide +kernel

/-! ## C36 -/

/-- **C36 (stored entries were validated)** Every entry decodes, and its transaction passed validation against the ledger as it was right before the entry was added. -/
theorem C36_stored_was_validated (E : Env) (l : List Envelope) (k : Str) (e : Envelope) (h : (deliverAll E OMap.empty l).get k = some e) :
    e.id = k ∧ ∃ t before after, SignedTx.fromBytes e.data = .ok t ∧ l = before ++ e :: after ∧
      (deliverAll E OMap.empty before).get k = none ∧ t.validate E (toStore (deliverAll E OMap.empty before)) = .ok () := by
  induction l using List.reverseRecOn with
  | nil => cases h
  | append_singleton l x ih =>
    rw [deliverAll_snoc] at h
    rcases get_deliver h with h | ⟨hn, hk, rfl, t, ht, hv⟩
    · obtain ⟨hid, t, b, a, h1, h2, h3⟩ := ih h
      exact ⟨hid, t, b, a ++ [x], h1, by rw [h2]; simp, h3⟩
    · exact ⟨hk.symm, t, l, [], ht, rfl, hn, hv⟩

/-- **C36 is false of the code**: an accepted transaction can be filed under a key that is not its id. -/
theorem C36_filed_under_own_id_false : ¬ ∀ (E : Env) (l : List Envelope) (k : Str) (e : Envelope) (t : SignedTx),
    (deliverAll E OMap.empty l).get k = some e → SignedTx.fromBytes e.data = .ok t → k = t.id.toString := by
  intro h
  have h1 : ((deliverAll Toy.env OMap.empty [{ Envelope.ofTx Toy.electionTx with id := str "x" }]).get (str "x")).isSome = true := by decide +kernel
  obtain ⟨e, he⟩ := Option.isSome_iff_exists.1 h1
  obtain ⟨_, t, _, _, ht, _⟩ := C36_stored_was_validated _ _ _ _ he
  have := h _ _ _ _ t he ht
  have hl := congrArg List.length this
  rw [Identifier.toString_length] at hl
  revert hl
  decide +kernel

/-- **C36 (partial)** When all submissions are labelled with the id of the transaction they carry, every entry is filed under its own id. -/
theorem C36_filed_under_own_id_partial (E : Env) (l : List Envelope) (hl : ∀ e ∈ l, Labelled e) (k : Str) (e : Envelope)
    (h : (deliverAll E OMap.empty l).get k = some e) : ∃ t, SignedTx.fromBytes e.data = .ok t ∧ k = t.id.toString := by
  obtain ⟨hid, t, b, a, ht, hs, _⟩ := C36_stored_was_validated E l k e h
  exact ⟨t, ht, by rw [← hid]; exact hl e (by rw [hs]; simp) t ht⟩

theorem wf_deliverAll {E : Env} {l : List Envelope} (hl : ∀ e ∈ l, Labelled e) : WF (deliverAll E OMap.empty l) := by
  intro k e h
  exact C36_filed_under_own_id_partial E l hl k e h

/-! ## C37 -/

/-- **C37** The envelope made from a transaction carries its id as text and its public key (zero when it has none), and gives the transaction back (without the
unserialized trustee fields). -/
theorem C37_envelope_roundtrip (t : SignedTx) (h : RustData t) :
    (Envelope.ofTx t).toTx = .ok (forget t) ∧ Identifier.fromStr (Envelope.ofTx t).id = .ok t.id ∧ Labelled (Envelope.ofTx t) ∧
    (∀ k, signerOf t = some k → (Envelope.ofTx t).pubKey = k) ∧ (signerOf t = none → (Envelope.ofTx t).pubKey = BArr.fill 32 0) := by
  have hb : SignedTx.fromBytes (Envelope.ofTx t).data = .ok (forget t) := C47_serialization_roundtrip t h
  have hp : t.pub = signerOf t := by cases t <;> rfl
  refine ⟨hb, (C01_identifier_text_roundtrip t.id).1, ?_, ?_, ?_⟩
  · intro t' ht'
    rw [hb] at ht'
    cases ht'
    show t.id.toString = (forget t).id.toString
    cases t <;> rfl
  · intro k hk
    simp [Envelope.ofTx, hp, hk]
  · intro hk
    simp [Envelope.ofTx, hp, hk]

example : Toy.complete.length = 19 ∧ ∀ t ∈ Toy.complete, RustData t := ⟨by decide +kernel, toy_rustData⟩

/-! ## C38 -/

/-- The same answers to every lookup and every ordered range query. -/
def Spec.SameStore (S S' : Store) : Prop :=
  (∀ id, S.getTransaction id = S'.getTransaction id) ∧ ∀ a b, IdLe a b → S.range a b = S'.range a b

theorem sameStore_of_get {S S' : Store} (h : Lawful S) (h' : Lawful S') (hg : ∀ id, S.getTransaction id = S'.getTransaction id) : Spec.SameStore S S' := by
  refine ⟨hg, fun a b hab => ?_⟩
  obtain ⟨l, h1, h2, h3⟩ := h.range_ok a b hab
  obtain ⟨l', h1', h2', h3'⟩ := h'.range_ok a b hab
  rw [h1, h1']
  congr 1
  exact MemStore.idLt_ext h3 h3' fun t => by rw [h2, h2', hg]

theorem refines (E : Env) (l : List Envelope) (hl : ∀ e ∈ l, Labelled e) :
    ∃ m, Ledger E m ∧ ∀ id, getTransaction (deliverAll E OMap.empty l) id = m.getTransaction id := by
  induction l using List.reverseRecOn with
  | nil => exact ⟨.empty, .empty, fun _ => rfl⟩
  | append_singleton l e ih =>
    obtain ⟨m, hm, hg⟩ := ih fun x hx => hl x (by simp [hx])
    have hw : WF (deliverAll E OMap.empty l) := wf_deliverAll fun x hx => hl x (by simp [hx])
    rw [deliverAll_snoc]
    rcases deliver_cases E (deliverAll E OMap.empty l) e with h' | ⟨hn, t, h1, h2, h'⟩
    · rw [h']; exact ⟨m, hm, hg⟩
    · have hid : e.id = t.id.toString := hl e (by simp) t h1
      have hv : t.validate E m.toStore = .ok () := by
        rw [← C34_elections_isolated E _ _ (lawful hw) hm.lawful t fun _ _ id _ => hg id]
        exact h2
      have hf : m.getTransaction t.id = none := by
        rw [← hg]; unfold getTransaction; rw [← hid, hn]
      refine ⟨m.set t, .append hm hf hv, fun id => ?_⟩
      rw [h', MemStore.get_set]
      unfold getTransaction
      rw [OMap.get_insert, hid]
      simp only [Identifier.toString_inj]
      by_cases hi : id = t.id
      · rw [if_pos hi, if_pos hi]; exact decoded_eq_some.2 h1
      · rw [if_neg hi, if_neg hi]; exact hg id

/-- **C38 (partial)** When all submissions are labelled with the id of the transaction they carry, the Exonum ledger behaves like an append-only `MemStore` ledger:
it answers all lookups and range queries alike, accepts exactly the same transactions, and afterwards holds the same. -/
theorem C38_exonum_refines_memstore_partial (E : Env) (l : List Envelope) (hl : ∀ e ∈ l, Labelled e) :
    ∃ m, Ledger E m ∧ Spec.SameStore (toStore (deliverAll E OMap.empty l)) m.toStore ∧
      ∀ e t, SignedTx.fromBytes e.data = .ok t → Labelled e →
        ((∃ s', verifyAndStore E (deliverAll E OMap.empty l) e = .ok s') ↔ m.getTransaction t.id = none ∧ t.validate E m.toStore = .ok ()) ∧
        ∀ s', verifyAndStore E (deliverAll E OMap.empty l) e = .ok s' → Spec.SameStore (toStore s') (m.set t).toStore := by
  obtain ⟨m, hm, hg⟩ := refines E l hl
  have hw := wf_deliverAll (E := E) hl
  refine ⟨m, hm, sameStore_of_get (lawful hw) hm.lawful hg, fun e t ht he => ?_⟩
  have hid := he t ht
  have hval : t.validate E (toStore (deliverAll E OMap.empty l)) = t.validate E m.toStore :=
    C34_elections_isolated E _ _ (lawful hw) hm.lawful t fun _ _ id _ => hg id
  have hnone : (deliverAll E OMap.empty l).get e.id = none ↔ m.getTransaction t.id = none := by
    rw [← hg, hid]
    unfold getTransaction
    cases hc : (deliverAll E OMap.empty l).get t.id.toString with
    | none => simp
    | some x =>
      obtain ⟨u, hu, _⟩ := hw _ _ hc
      simp [decoded_eq_some.2 hu]
  constructor
  · simp only [verifyAndStore_ok, hnone]
    constructor
    · rintro ⟨_, h1, u, hu, h2, _⟩
      rw [ht] at hu; cases hu
      exact ⟨h1, hval ▸ h2⟩
    · rintro ⟨h1, h2⟩
      exact ⟨_, h1, t, ht, hval.symm ▸ h2, rfl⟩
  · intro s' hs'
    obtain ⟨h1, u, hu, h2, rfl⟩ := verifyAndStore_ok.1 hs'
    refine sameStore_of_get (lawful ?_) (MemStore.lawful (MemStore.wf_set hm.wf t)) fun id => ?_
    · intro k x hx
      rw [OMap.get_insert] at hx
      split at hx
      · rename_i hk; cases hx; exact ⟨t, ht, hk.trans hid⟩
      · exact hw _ _ hx
    · show getTransaction _ _ = (m.set t).getTransaction id
      rw [MemStore.get_set]
      unfold getTransaction
      rw [OMap.get_insert, hid]
      simp only [Identifier.toString_inj]
      by_cases hi : id = t.id
      · rw [if_pos hi, if_pos hi]; exact decoded_eq_some.2 ht
      · rw [if_neg hi, if_neg hi]; exact hg id

/-- the sample election, submitted by honest clients -/
example : (∀ e ∈ Toy.complete.map Envelope.ofTx, Labelled e) ∧
    (deliverAll Toy.env OMap.empty (Toy.complete.map Envelope.ofTx)).entries.length = 19 := by
  refine ⟨fun e he => ?_, by decide +kernel⟩
  obtain ⟨t, ht, rfl⟩ := List.mem_map.1 he
  exact (C37_envelope_roundtrip t (toy_rustData t ht)).2.2.1

/-- A copy of a stored vote, filed under another key among the election's votes. -/
def toyCopy : Envelope := { Envelope.ofTx (Toy.voteTx 31 "a") with id := Identifier.toString ⟨Toy.eid.electionId, .vote, BArr.fill 16 77⟩ }

/-- the sample election just before the end of voting, as submitted -/
def toyVoted : List Envelope := (Toy.complete.take 10).map Envelope.ofTx

/-- **C38 is false of the code**: with a mislabelled submission, the ledger lists one transaction twice, which no `MemStore` does. -/
theorem C38_exonum_refines_memstore_false : ¬ ∀ (E : Env) (l : List Envelope), ∃ m : MemStore, m.WF ∧ Spec.SameStore (toStore (deliverAll E OMap.empty l)) m.toStore := by
  intro h
  obtain ⟨m, hm, _, hr⟩ := h Toy.env (toyVoted ++ [toyCopy])
  obtain ⟨l, h1, _, h3⟩ := (MemStore.lawful hm).range_ok _ _ (Identifier.start_le_end Toy.eid.electionId .vote)
  rw [← hr _ _ (Identifier.start_le_end Toy.eid.electionId .vote)] at h1
  have h2 := Res.ok.inj h1
  have h4 : (range (deliverAll Toy.env OMap.empty (toyVoted ++ [toyCopy])) ⟨Toy.eid.electionId, .vote, BArr.fill 16 0⟩
      ⟨Toy.eid.electionId, .vote, BArr.fill 16 255⟩).map SignedTx.id = [VoteTx.buildId Toy.eid (Toy.key 31), VoteTx.buildId Toy.eid (Toy.key 32),
      VoteTx.buildId Toy.eid (Toy.key 31)] := by decide +kernel
  rw [h2] at h4
  have h5 : (l.map SignedTx.id).Nodup := by
    rw [List.Nodup, List.pairwise_map]
    refine h3.imp fun {a b} hab heq => ?_
    unfold IdLt at hab
    rw [heq, (Identifier.cmp_eq_iff _ _).2 rfl] at hab
    cases hab
  rw [h4] at h5
  revert h5
  decide +kernel

/-! ## C58 -/

/-- Two keys among the votes of `el` hold transactions with the same id, and no mix of `el` is stored. -/
def Spec.Jammed (s : Schema) (el : Identifier) : Prop :=
  (∃ k k' e e' t t', cmpBytes k k' = .lt ∧ s.get k = some e ∧ s.get k' = some e' ∧ SignedTx.fromBytes e.data = .ok t ∧ SignedTx.fromBytes e'.data = .ok t' ∧ t.id = t'.id ∧
    (∀ x ∈ [k, k'], cmpBytes (Identifier.toString ⟨el.electionId, .vote, BArr.fill 16 0⟩) x ≠ .gt ∧
      cmpBytes x (Identifier.toString ⟨el.electionId, .vote, BArr.fill 16 255⟩) ≠ .gt)) ∧
  ∀ k e m, s.get k = some e → SignedTx.fromBytes e.data = .ok (.mix m) → m.tx.electionId ≠ el

theorem pair_sublist {α : Type} {r : α → α → Prop} (hirr : ∀ a b, r a b → r b a → False) (hne : ∀ a, ¬ r a a) {l : List α} (hl : l.Pairwise r) {a b : α} (ha : a ∈ l) (hb : b ∈ l) (hab : r a b) :
    [a, b].Sublist l := by
  induction l with
  | nil => cases ha
  | cons x xs ih =>
    rw [List.pairwise_cons] at hl
    rcases List.mem_cons.1 ha with rfl | ha'
    · rcases List.mem_cons.1 hb with rfl | hb'
      · exact absurd hab (hne _)
      · exact List.Sublist.cons_cons _ (List.singleton_sublist.2 hb')
    · rcases List.mem_cons.1 hb with rfl | hb'
      · exact absurd (hl.1 _ ha') fun h => hirr _ _ hab h
      · exact (ih hl.2 ha' hb').cons _

theorem jammed_refuses {E : Env} {s : Schema} {el : Identifier} (h : Spec.Jammed s el) (m : Signed MixTx) (hm : m.tx.electionId = el) :
    (SignedTx.mix m).validate E (toStore s) ≠ .ok () := by
  intro hv
  have hi := (SignedTx.validate_ok.1 hv).2.2
  change m.tx.validateTx E (toStore s) = .ok () at hi
  simp only [MixTx.validateTx, Res.bind_def, Res.bind_eq_ok, Res.exists_unit] at hi
  obtain ⟨_, _, _, _, _, _, _, _, _, inputs, hin, _⟩ := hi
  unfold MixTx.inputs at hin
  split at hin
  · obtain ⟨prev, sig, hp, _, _, he, _⟩ := MixTx.inputsFromPrev_ok.1 hin
    obtain ⟨e, he', hd⟩ := getTransaction_eq_some.1 hp
    exact h.2 _ _ _ he' hd (he.symm.trans hm)
  · obtain ⟨_, _, hnd, votes, hg, hids, _⟩ := MixTx.inputsFromVotes_ok_store.1 hin
    obtain ⟨k, k', e, e', t, t', hlt, hk, hk', hd, hd', hid, hb⟩ := h.1
    simp only [Store.getMultiple, Res.bind_def, Identifier.start_none, Identifier.end_none, Res.ok_bind] at hg
    have hg := Res.ok.inj hg
    have hs : [(k, e), (k', e')].Sublist (s.entries.filter fun x => cmpBytes (Identifier.toString ⟨m.tx.electionId.electionId, .vote, BArr.fill 16 0⟩) x.1 != .gt &&
        cmpBytes x.1 (Identifier.toString ⟨m.tx.electionId.electionId, .vote, BArr.fill 16 255⟩) != .gt) := by
      have h1 : ∀ x ∈ [(k, e), (k', e')], x ∈ s.entries.filter fun x => cmpBytes (Identifier.toString ⟨m.tx.electionId.electionId, .vote, BArr.fill 16 0⟩) x.1 != .gt &&
          cmpBytes x.1 (Identifier.toString ⟨m.tx.electionId.electionId, .vote, BArr.fill 16 255⟩) != .gt := by
        intro x hx
        rw [List.mem_filter, Bool.and_eq_true, bne_iff_ne, bne_iff_ne, hm]
        simp only [List.mem_cons, List.not_mem_nil, or_false] at hx
        rcases hx with rfl | rfl
        · exact ⟨(OMap.mem_entries_iff _ _ _).2 hk, hb k (by simp)⟩
        · exact ⟨(OMap.mem_entries_iff _ _ _).2 hk', hb k' (by simp)⟩
      refine pair_sublist (r := fun x y : Str × Envelope => cmpBytes x.1 y.1 = .lt) ?_ ?_ (List.Pairwise.filter _ s.sorted) (h1 _ (by simp)) (h1 _ (by simp)) hlt
      · intro a b h1 h2
        have := cmpBytes_lt_trans h1 h2
        rw [cmpBytes_refl] at this
        cases this
      · intro a h1
        rw [cmpBytes_refl] at h1
        cases h1
    have hs2 := (hs.filterMap fun x => x.2.decoded).map SignedTx.id
    have e1 : (votes.map SignedTx.vote).map SignedTx.id = m.tx.voteIds := by rw [hids, List.map_map]; rfl
    change range s _ _ = _ at hg
    unfold range at hg
    rw [window_eq] at hg
    rw [hg, e1] at hs2
    have := hs2.nodup hnd
    simp [decoded_eq_some.2 hd, decoded_eq_some.2 hd', hid] at this

theorem jammed_deliver {E : Env} {s : Schema} {el : Identifier} (h : Spec.Jammed s el) (x : Envelope) : Spec.Jammed (deliver E s x) el := by
  refine ⟨?_, fun k e m hk hd he => ?_⟩
  · obtain ⟨k, k', e, e', t, t', hlt, hk, hk', r⟩ := h.1
    exact ⟨k, k', e, e', t, t', hlt, deliver_keeps hk, deliver_keeps hk', r⟩
  · rcases get_deliver hk with hk | ⟨_, _, rfl, t, ht, hv⟩
    · exact h.2 _ _ _ hk hd he
    · rw [hd] at ht
      cases ht
      exact jammed_refuses h m he hv

theorem jammed_deliverAll {E : Env} {l : List Envelope} {s : Schema} {el : Identifier} (h : Spec.Jammed s el) : Spec.Jammed (deliverAll E s l) el := by
  induction l generalizing s with
  | nil => exact h
  | cons x l ih => exact ih (jammed_deliver h x)

/-- **C58 is false of the code**: one submission that needs no secret, namely a copy of a public vote under another key, makes every mix of the election be refused for ever,
although a mix is accepted in the same election without that submission. -/
theorem C58_mixing_cannot_be_blocked_false : ∃ (E : Env) (l rest : List Envelope) (copied copy mix : Envelope) (el : Identifier),
    copied ∈ l ∧ copy.data = copied.data ∧
    (∃ m, SignedTx.fromBytes mix.data = .ok (.mix m) ∧ m.tx.electionId = el) ∧ (∃ s', verifyAndStore E (deliverAll E OMap.empty (l ++ rest)) mix = .ok s') ∧
    ∀ (l' : List Envelope) (e : Envelope) (m : Signed MixTx), SignedTx.fromBytes e.data = .ok (.mix m) → m.tx.electionId = el →
      ∀ s', verifyAndStore E (deliverAll E OMap.empty (l ++ copy :: l')) e ≠ .ok s' := by
  have hmix : SignedTx.fromBytes (Envelope.ofTx Toy.mix1Tx).data = .ok Toy.mix1Tx :=
    (C37_envelope_roundtrip Toy.mix1Tx (toy_rustData _ (List.mem_of_getElem? (i := 11) rfl))).1
  have hvote : SignedTx.fromBytes toyCopy.data = .ok (Toy.voteTx 31 "a") :=
    (C37_envelope_roundtrip (Toy.voteTx 31 "a") (toy_rustData _ (List.mem_of_getElem? (i := 8) rfl))).1
  refine ⟨Toy.env, toyVoted, [Envelope.ofTx Toy.endTx], Envelope.ofTx (Toy.voteTx 31 "a"), toyCopy, Envelope.ofTx Toy.mix1Tx, Toy.eid, List.mem_of_getElem? (i := 8) rfl, rfl,
    ⟨_, hmix, rfl⟩, ?_, ?_⟩
  · have : (match verifyAndStore Toy.env (deliverAll Toy.env OMap.empty (toyVoted ++ [Envelope.ofTx Toy.endTx])) (Envelope.ofTx Toy.mix1Tx) with | .ok _ => true | _ => false) = true := by
      decide +kernel
    split at this
    · rename_i s' hs'; exact ⟨s', hs'⟩
    · cases this
  · have hj : Spec.Jammed (deliverAll Toy.env OMap.empty (toyVoted ++ [toyCopy])) Toy.eid := by
      have hid : (Envelope.ofTx (Toy.voteTx 31 "a")).id = (Toy.voteTx 31 "a").id.toString := rfl
      have h1 : ((deliverAll Toy.env OMap.empty (toyVoted ++ [toyCopy])).entries.filter fun e => e.2.data == toyCopy.data).map Prod.fst =
          [(Toy.voteTx 31 "a").id.toString, toyCopy.id] := by decide +kernel
      have h2 : ((deliverAll Toy.env OMap.empty (toyVoted ++ [toyCopy])).entries.all fun e => match e.2.decoded with | some (.mix _) => false | _ => true) = true := by
        decide +kernel
      have hget : ∀ k ∈ [(Toy.voteTx 31 "a").id.toString, toyCopy.id], ∃ e, (deliverAll Toy.env OMap.empty (toyVoted ++ [toyCopy])).get k = some e ∧ e.data = toyCopy.data := by
        intro k hk
        rw [← h1] at hk
        obtain ⟨⟨k', e⟩, he, rfl⟩ := List.mem_map.1 hk
        rw [List.mem_filter, OMap.mem_entries_iff] at he
        exact ⟨e, he.1, by simpa using he.2⟩
      obtain ⟨e, he, hed⟩ := hget (Toy.voteTx 31 "a").id.toString (by simp)
      obtain ⟨e', he', hed'⟩ := hget toyCopy.id (by simp)
      refine ⟨⟨_, _, e, e', _, _, ?_, he, he', by rw [hed]; exact hvote, by rw [hed']; exact hvote, rfl, ?_⟩, ?_⟩
      · decide +kernel
      · decide +kernel
      · intro k x m hk hd _
        have := List.all_eq_true.1 h2 (k, x) ((OMap.mem_entries_iff _ _ _).2 hk)
        simp [decoded_eq_some.2 hd] at this
    intro l' e m he hm s' hs'
    have hl : toyVoted ++ toyCopy :: l' = (toyVoted ++ [toyCopy]) ++ l' := by simp
    rw [hl, deliverAll_append] at hs'
    obtain ⟨_, t, ht, hv, _⟩ := verifyAndStore_ok.1 hs'
    rw [he] at ht
    cases ht
    exact jammed_refuses (jammed_deliverAll hj) m hm hv

/-- **C58 (partial)** In a ledger of labelled submissions, a labelled copy of something stored (in the same bytes or in any others that read as the same transaction) is refused, so
such a copy changes nothing. -/
theorem C58_mixing_cannot_be_blocked_partial (E : Env) (l : List Envelope) (hl : ∀ e ∈ l, Labelled e) (k : Str) (e copy : Envelope)
    (hk : (deliverAll E OMap.empty l).get k = some e) (hc : SignedTx.fromBytes copy.data = SignedTx.fromBytes e.data) (hlab : Labelled copy) :
    deliver E (deliverAll E OMap.empty l) copy = deliverAll E OMap.empty l := by
  obtain ⟨t, ht, rfl⟩ := C36_filed_under_own_id_partial E l hl k e hk
  have hid : copy.id = t.id.toString := hlab t (by rw [hc]; exact ht)
  unfold deliver
  rw [(C35_exonum_append_only E OMap.empty l).2.2 copy e (by rw [hid]; exact hk)]

end Exonum
end CB
