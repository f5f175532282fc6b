import Verif.Lemmas.Blocks
/-!
# C34 for trustees' nodes

What a node does about a transaction depends only on the transactions of the elections that transaction refers to.
-/

namespace CB
open Spec Server

theorem range_last_congr {S S' : Store} (h : Lawful S) (h' : Lawful S') {e : Identifier} (ha : AgreeOn S S' e.electionId) (u : BArr 16) :
    S.range { e with txType := .partialDecryption, uniqueInfo := withLast u 0 } { e with txType := .partialDecryption, uniqueInfo := withLast u 255 } =
    S'.range { e with txType := .partialDecryption, uniqueInfo := withLast u 0 } { e with txType := .partialDecryption, uniqueInfo := withLast u 255 } := by
  have hle := ((between_last (e := e) (u := u) (ty := .partialDecryption) (id := { e with txType := .partialDecryption, uniqueInfo := withLast u 255 })).2
    ⟨rfl, rfl, List.take_left' (by have := u.property; simp; omega)⟩).1
  obtain ⟨l, h1, h2, h3⟩ := h.range_ok _ _ hle
  obtain ⟨l', h1', h2', h3'⟩ := h'.range_ok _ _ hle
  rw [h1, h1']
  congr 1
  refine MemStore.idLt_ext h3 h3' fun t => ?_
  rw [h2, h2']
  constructor
  · rintro ⟨x, y⟩
    exact ⟨by rw [← ha _ (between_last.1 y).1]; exact x, y⟩
  · rintro ⟨x, y⟩
    exact ⟨by rw [ha _ (between_last.1 y).1]; exact x, y⟩

/-- **C34** What a node generates in reaction to a transaction (or the error, or the panic) depends only on the stored transactions of the elections the
transaction refers to, on the node's key and on its randomness. -/
theorem C34_nodes_isolated (N : NodeEnv) (rng : Rng) (sk : SecretKey) (S S' : Store) (h : Lawful S) (h' : Lawful S') (t : SignedTx)
    (ha : ∀ e, refersTo t e → AgreeOn S S' e) : generateTransactions N rng sk S t = generateTransactions N rng sk S' t := by
  have hself : AgreeOn S S' (electionOf t).electionId := ha _ (.inl rfl)
  have hall : ∀ {T : Type} (ty : TxType) (into : SignedTx → VRes (Signed T)), getAll S (electionOf t) ty into = getAll S' (electionOf t) ty into := by
    intro T ty into
    unfold getAll
    rw [getMultiple_congr h h' hself]
  have henc : encryptionKey S (electionOf t) = encryptionKey S' (electionOf t) := by
    unfold encryptionKey
    rw [hself (EncryptionKeyTx.buildId (electionOf t)) rfl]
  have hprod : ∀ (e : ElectionTx) tr c m, e.id = electionOf t → producePartials N rng sk S e tr c m = producePartials N rng sk S' e tr c m := by
    intro e tr c m he
    have hitems : partialItems S e c m = partialItems S' e c m := by
      cases m with
      | none => simp only [partialItems, he, hall]
      | some m => rfl
    simp only [producePartials, he, hall, hitems]
  have hrange := fun u => range_last_congr h h' hself u
  have hel : S.getElection (electionOf t) = S'.getElection (electionOf t) := by
    unfold Store.getElection
    rw [hself (electionOf t) rfl]
  have hid : ∀ s, S'.getElection (electionOf t) = .ok s → s.tx.id = electionOf t := fun s hs => electionAt_id h' ⟨s.sig, Store.getElection_ok.1 hs⟩
  have bind_congr : ∀ {β : Type} {f g : Signed ElectionTx → SRes β}, (∀ s, s.tx.id = electionOf t → f s = g s) →
      (v (S'.getElection (electionOf t))).bind f = (v (S'.getElection (electionOf t))).bind g := by
    intro β f g hfg
    cases hs : S'.getElection (electionOf t) with
    | ok s => exact hfg s (hid s hs)
    | err e => rfl
    | panic p => rfl
  cases t with
  | election s => rfl
  | encryptionKey s => rfl
  | vote s => rfl
  | decryption s => rfl
  | keyGenCommitment s =>
    simp only [electionOf] at *
    simp only [generateTransactions, processKeygenCommitment, Res.bind_def, hel]
    exact bind_congr fun el he => by simp only [he, hall]
  | keyGenShare s =>
    simp only [electionOf] at *
    simp only [generateTransactions, processKeygenShare, Res.bind_def, hel]
    exact bind_congr fun el he => by simp only [he, hall]
  | keyGenPublicKey s =>
    simp only [electionOf] at *
    simp only [generateTransactions, processKeygenPublicKey, Res.bind_def, hel]
    exact bind_congr fun el he => by simp only [he, hall]
  | votingEnd s =>
    simp only [electionOf] at *
    simp only [generateTransactions, processVotingEnd, Res.bind_def, hel]
    exact bind_congr fun el he => by simp only [he, hall, henc, hprod el.tx _ _ _ he]
  | mix s =>
    simp only [electionOf] at *
    simp only [generateTransactions, processMix, Res.bind_def, hel]
    exact bind_congr fun el he => by simp only [he, henc, hprod el.tx _ _ _ he]
  | partialDecryption s =>
    have hup : upstreamCiphertexts S s.tx = upstreamCiphertexts S' s.tx := by
      have := ha s.tx.upstreamId.electionId (.inr (.inr (.inl ⟨s, rfl, rfl⟩))) s.tx.upstreamId rfl
      simp only [upstreamCiphertexts, Store.getVote, Store.getMix, this]
    simp only [electionOf] at *
    simp only [generateTransactions, processPartialDecryption, Res.bind_def, hel]
    exact bind_congr fun el he => by simp only [he, hall, hup, hrange]

/-- **C34** So is what the node submits when an envelope is committed: two nodes with the same key and randomness, whose databases hold the same transactions
in the elections that the committed transaction refers to, submit the same envelopes, or both panic. -/
theorem C34_submissions_isolated (N : NodeEnv) (rng : Rng) (sk : SecretKey) (s s' : Exonum.Schema) (h : Lawful (Exonum.toStore s)) (h' : Lawful (Exonum.toStore s'))
    (x : Exonum.Envelope) (t : SignedTx) (hx : x.id = t.id.toString) (hin : InStore (Exonum.toStore s) t) (hin' : InStore (Exonum.toStore s') t)
    (ha : ∀ e, refersTo t e → AgreeOn (Exonum.toStore s) (Exonum.toStore s') e) : react N rng sk s x = react N rng sk s' x := by
  have hp : Identifier.fromStr x.id = .ok t.id := by rw [hx]; exact (C01_identifier_text_roundtrip _).1
  have hin : Exonum.getTransaction s t.id = some t := hin
  have hin' : Exonum.getTransaction s' t.id = some t := hin'
  simp only [react, hp, hin, hin', ← C34_nodes_isolated N rng sk _ _ h h' t ha]
  cases hg : generateTransactions N rng sk (Exonum.toStore s) t with
  | err e => rfl
  | panic p => rfl
  | ok l =>
    refine congrArg Res.ok (congrArg (List.map _) (List.filter_congr fun d hd => ?_))
    have := (Setup.emitted h hin hg hd).2.1
    rw [show Exonum.getTransaction s d.id = Exonum.getTransaction s' d.id from ha _ (.inl this.symm) d.id rfl]

/-- a second election on the same ledger -/
def Toy.otherTx : SignedTx := .election ⟨{ Toy.election with id := Toy.eid2 }, Toy.sig 1⟩

/-- A node's database with the sample election, and the same with another election besides. -/
example : ∃ s s' : Exonum.Schema, s = Exonum.deliverAll Toy.env OMap.empty [Exonum.Envelope.ofTx (Toy.electionTx)] ∧
    s' = Exonum.deliverAll Toy.env s [Exonum.Envelope.ofTx Toy.otherTx] ∧
    s'.entries.length = 2 ∧ Lawful (Exonum.toStore s) ∧ Lawful (Exonum.toStore s') ∧ InStore (Exonum.toStore s) (Toy.electionTx) ∧ InStore (Exonum.toStore s') (Toy.electionTx) ∧
    ∀ e, refersTo (Toy.electionTx) e → AgreeOn (Exonum.toStore s) (Exonum.toStore s') e := by
  have hr1 : RustData (Toy.electionTx) := toy_rustData (Toy.electionTx) (by simp [Toy.complete, Toy.setup])
  have hr2 : RustData Toy.otherTx := fits_of_check _ _ (by decide +kernel)
  have hl1 := (Exonum.C37_envelope_roundtrip _ hr1).2.2.1
  have hl2 := (Exonum.C37_envelope_roundtrip _ hr2).2.2.1
  have hd : SignedTx.fromBytes (Exonum.Envelope.ofTx (Toy.electionTx)).data = .ok (Toy.electionTx) := (Exonum.C37_envelope_roundtrip _ hr1).1
  have hlen : (Exonum.deliverAll Toy.env (Exonum.deliverAll Toy.env OMap.empty [Exonum.Envelope.ofTx (Toy.electionTx)]) [Exonum.Envelope.ofTx Toy.otherTx]).entries.length = 2 := by
    decide +kernel
  have hsome : ((Exonum.deliverAll Toy.env OMap.empty [Exonum.Envelope.ofTx (Toy.electionTx)]).get (Toy.electionTx).id.toString).isSome = true := by decide +kernel
  have hw1 : Exonum.WF (Exonum.deliverAll Toy.env OMap.empty [Exonum.Envelope.ofTx (Toy.electionTx)]) := Exonum.wf_deliverAll (by simpa using hl1)
  have hw2 : Exonum.WF (Exonum.deliverAll Toy.env OMap.empty [Exonum.Envelope.ofTx (Toy.electionTx), Exonum.Envelope.ofTx Toy.otherTx]) :=
    Exonum.wf_deliverAll (by simpa using ⟨hl1, hl2⟩)
  have heq : Exonum.deliverAll Toy.env OMap.empty [Exonum.Envelope.ofTx (Toy.electionTx), Exonum.Envelope.ofTx Toy.otherTx] =
      Exonum.deliverAll Toy.env (Exonum.deliverAll Toy.env OMap.empty [Exonum.Envelope.ofTx (Toy.electionTx)]) [Exonum.Envelope.ofTx Toy.otherTx] := by
    simp only [Exonum.deliverAll, List.foldl]
  have hin : (Exonum.deliverAll Toy.env OMap.empty [Exonum.Envelope.ofTx (Toy.electionTx)]).get (Toy.electionTx).id.toString = some (Exonum.Envelope.ofTx (Toy.electionTx)) := by
    obtain ⟨x, hx⟩ := Option.isSome_iff_exists.1 hsome
    obtain ⟨_, _, before, after, _, h, _⟩ := Exonum.C36_stored_was_validated _ _ _ _ hx
    have : x ∈ [Exonum.Envelope.ofTx (Toy.electionTx)] := by rw [h]; simp
    rw [hx, List.mem_singleton.1 this]
  rw [heq] at hw2
  refine ⟨_, _, rfl, rfl, ?_⟩
  have h := Exonum.C35_exonum_append_only Toy.env (Exonum.deliverAll Toy.env OMap.empty [Exonum.Envelope.ofTx (Toy.electionTx)]) [Exonum.Envelope.ofTx Toy.otherTx]
  have hoid : (Exonum.Envelope.ofTx Toy.otherTx).id = Toy.otherTx.id.toString := rfl
  have hne : Toy.otherTx.id.electionId ≠ Toy.eid.electionId := by decide +kernel
  have hid : (Toy.electionTx).id = Toy.eid := rfl
  generalize Exonum.deliverAll Toy.env (Exonum.deliverAll Toy.env OMap.empty [Exonum.Envelope.ofTx (Toy.electionTx)]) [Exonum.Envelope.ofTx Toy.otherTx] = s' at *
  generalize Exonum.deliverAll Toy.env OMap.empty [Exonum.Envelope.ofTx (Toy.electionTx)] = s at *
  generalize Exonum.Envelope.ofTx Toy.otherTx = o at *
  have key : ∀ id : Identifier, id.electionId = Toy.eid.electionId → s.get id.toString = s'.get id.toString := by
    intro id hid
    cases h1 : s.get id.toString with
    | some x => exact (h.1 _ _ h1).symm
    | none =>
      cases h2 : s'.get id.toString with
      | none => rfl
      | some x =>
        rcases h.2.1 _ _ h2 with h3 | ⟨h3, h4⟩
        · rw [h1] at h3; cases h3
        · rw [List.mem_singleton.1 h3, hoid] at h4
          have h5 : Toy.otherTx.id = id := (C01_identifier_text_roundtrip _).2.2.2.2 _ h4
          rw [← h5] at hid
          exact absurd hid hne
  refine ⟨hlen, Exonum.lawful hw1, Exonum.lawful hw2, ?_, ?_, ?_⟩
  · exact Exonum.getTransaction_eq_some.2 ⟨_, hin, hd⟩
  · exact Exonum.getTransaction_eq_some.2 ⟨_, h.1 _ _ hin, hd⟩
  · rintro e (h | ⟨_, _, h, _⟩ | ⟨_, h, _⟩ | ⟨_, h, _⟩) id hid
    · show Exonum.getTransaction s id = Exonum.getTransaction s' id
      unfold Exonum.getTransaction
      rw [key id (hid.trans h.symm)]
    all_goals cases h

end CB
