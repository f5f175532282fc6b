import Verif.Spec.Settings
import Verif.Props.Isolation
import Verif.Props.Contests
/-!
# C100: which settings of an election have an effect
-/

namespace CB
open Spec Server

/-! ## Without the settings -/

/-- an election without the settings in question; `keep` says whether it is kept that there are contests -/
def bareElection (keep : Bool) (e : ElectionTx) : ElectionTx :=
  { e with
    trustees := e.trustees.map fun t => ⟨t.publicKey, t.index, 0, 0⟩
    authenticatorsThreshold := 0
    mixConfig := e.mixConfig.map fun _ => ⟨0, none⟩
    ballots := e.ballots.map fun b => ⟨b.id, b.contests, IndexMap.empty⟩
    contests := if keep && !e.contests.isEmpty then [⟨[], 0, .plurality, 0, false, [], IndexMap.empty⟩] else []
    properties := IndexMap.empty }

/-- the same for stored transactions -/
def bare (keep : Bool) : SignedTx → SignedTx
  | .election s => .election ⟨bareElection keep s.tx, BArr.fill 64 0⟩
  | t => t

theorem bare_id (k : Bool) (t : SignedTx) : (bare k t).id = t.id := by cases t <;> rfl

/-- and for whole stores -/
def bareStore (keep : Bool) (S : Store) : Store :=
  { getTransaction := fun id => (S.getTransaction id).map (bare keep)
    range := fun a b => (S.range a b).bind fun l => .ok (l.map (bare keep)) }

theorem lawful_bare {S : Store} (h : Lawful S) (k : Bool) : Lawful (bareStore k S) where
  keyed id t ht := by
    obtain ⟨u, hu, rfl⟩ := Option.map_eq_some_iff.1 ht
    rw [bare_id]
    exact h.keyed _ _ hu
  range_ok a b hab := by
    obtain ⟨l, h1, h2, h3⟩ := h.range_ok a b hab
    refine ⟨l.map (bare k), by simp [bareStore, h1], fun t => ?_, ?_⟩
    · rw [List.mem_map]
      constructor
      · rintro ⟨u, hu, rfl⟩
        obtain ⟨x, y, z⟩ := (h2 u).1 hu
        rw [bare_id]
        exact ⟨by simp [bareStore, x], y, z⟩
      · rintro ⟨x, y, z⟩
        obtain ⟨u, hu, rfl⟩ := Option.map_eq_some_iff.1 x
        rw [bare_id] at y z hu
        exact ⟨u, (h2 u).2 ⟨hu, y, z⟩, rfl⟩
    · rw [List.pairwise_map]
      refine h3.imp fun {a b} hab => ?_
      unfold IdLt at *
      rwa [bare_id, bare_id]

theorem bare_congr {e e' : ElectionTx} (h : SameSetup e e') (k : Bool) (hk : k = true → (e.contests = [] ↔ e'.contests = [])) :
    bareElection k e = bareElection k e' := by
  obtain ⟨h1, h2, h3, h4, h5, h6, h7⟩ := h
  have ht : e.trustees.map (fun t => (⟨t.publicKey, t.index, 0, 0⟩ : Trustee)) = e'.trustees.map fun t => ⟨t.publicKey, t.index, 0, 0⟩ := by
    have := congrArg (List.map fun x : UInt8 × PublicKey => (⟨x.2, x.1, 0, 0⟩ : Trustee)) h3
    simpa [Function.comp_def] using this
  have hb : e.ballots.map (fun b => (⟨b.id, b.contests, IndexMap.empty⟩ : Ballot)) = e'.ballots.map fun b => ⟨b.id, b.contests, IndexMap.empty⟩ := by
    have := congrArg (List.map fun x : Str × List UInt32 => (⟨x.1, x.2, IndexMap.empty⟩ : Ballot)) h6
    simpa [Function.comp_def] using this
  have hm : e.mixConfig.map (fun _ => (⟨0, none⟩ : MixConfig)) = e'.mixConfig.map fun _ => ⟨0, none⟩ := by
    cases ha : e.mixConfig <;> cases hb : e'.mixConfig <;> simp_all
  have hc : (k && !e.contests.isEmpty) = (k && !e'.contests.isEmpty) := by
    cases k with
    | false => rfl
    | true =>
      have := hk rfl
      cases ha : e.contests <;> cases hb : e'.contests <;> simp_all
  simp only [bareElection, h1, h2, h4, h5, ht, hb, hm, hc]

theorem bareStore_congr {S S' : Store} (h : SameBut S S') (k : Bool) (hk : k = true → SameContestless S S') (id : Identifier) :
    (bareStore k S).getTransaction id = (bareStore k S').getTransaction id := by
  show (S.getTransaction id).map _ = (S'.getTransaction id).map _
  have := h id
  cases h1 : S.getTransaction id with
  | none =>
    cases h2 : S'.getTransaction id with
    | none => rfl
    | some u => rw [h1, h2] at this; cases this
  | some t =>
    cases h2 : S'.getTransaction id with
    | none => rw [h1, h2] at this; cases this
    | some u =>
      rw [h1, h2] at this
      obtain rfl | ⟨s, s', rfl, rfl, hs⟩ : Alike t u := by cases this; assumption
      · rfl
      · simp only [Option.map_some, bare]
        rw [bare_congr hs k fun hk' => hk hk' id _ _ ⟨_, h1⟩ ⟨_, h2⟩]

/-! ## Validation does not look at them -/

theorem getElection_bare (k : Bool) (S : Store) (id : Identifier) :
    (bareStore k S).getElection id = (S.getElection id).bind fun s => .ok ⟨bareElection k s.tx, BArr.fill 64 0⟩ := by
  unfold Store.getElection
  simp only [bareStore]
  cases S.getTransaction id with
  | none => rfl
  | some t => cases t <;> rfl

theorem into_bare {T : Type} {into : SignedTx → VRes (Signed T)} (h : ∀ k t, into (bare k t) = into t) (k : Bool) (l : List SignedTx) :
    Res.mapM' into (l.map (bare k)) = Res.mapM' into l := by
  induction l with
  | nil => rfl
  | cons t l ih => simp only [List.map_cons, Res.mapM', h, ih]

theorem getMultiple_bare (k : Bool) (S : Store) (e : Identifier) (ty : TxType) :
    (bareStore k S).getMultiple e ty = (S.getMultiple e ty).bind fun l => .ok (l.map (bare k)) := by
  simp only [Store.getMultiple, Res.bind_def, Identifier.start_none, Identifier.end_none, Res.ok_bind, bareStore]

theorem isNone_bare (k : Bool) (S : Store) (id : Identifier) : ((bareStore k S).getTransaction id).isNone = (S.getTransaction id).isNone := by
  simp [bareStore]

theorem isSome_bare (k : Bool) (S : Store) (id : Identifier) : ((bareStore k S).getTransaction id).isSome = (S.getTransaction id).isSome := by
  simp [bareStore]

theorem getVote_bare (k : Bool) (S : Store) (id : Identifier) : (bareStore k S).getVote id = S.getVote id := by
  unfold Store.getVote
  simp only [bareStore]
  cases S.getTransaction id with
  | none => rfl
  | some t => cases t <;> rfl

theorem getMix_bare (k : Bool) (S : Store) (id : Identifier) : (bareStore k S).getMix id = S.getMix id := by
  unfold Store.getMix
  simp only [bareStore]
  cases S.getTransaction id with
  | none => rfl
  | some t => cases t <;> rfl

theorem getKeygenPublicKey_bare (k : Bool) (S : Store) (id : Identifier) : (bareStore k S).getKeygenPublicKey id = S.getKeygenPublicKey id := by
  unfold Store.getKeygenPublicKey
  simp only [bareStore]
  cases S.getTransaction id with
  | none => rfl
  | some t => cases t <;> rfl

theorem getPartialDecryption_bare (k : Bool) (S : Store) (id : Identifier) : (bareStore k S).getPartialDecryption id = S.getPartialDecryption id := by
  unfold Store.getPartialDecryption
  simp only [bareStore]
  cases S.getTransaction id with
  | none => rfl
  | some t => cases t <;> rfl

theorem bind_assoc' {ε α β γ : Type} (x : Res ε α) (f : α → Res ε β) (g : β → Res ε γ) : (x.bind f).bind g = x.bind fun a => (f a).bind g := by cases x <;> rfl

theorem getElection_bind {β : Type} (k : Bool) (S : Store) (id : Identifier) (f g : Signed ElectionTx → VRes β)
    (h : ∀ s, f ⟨bareElection k s.tx, BArr.fill 64 0⟩ = g s) : ((bareStore k S).getElection id).bind f = (S.getElection id).bind g := by
  rw [getElection_bare, bind_assoc']
  congr 1
  funext s
  exact h s

theorem trusteeExists_bare (l : List Trustee) (i : UInt8) (key : PublicKey) :
    trusteeExists (l.map fun t => ⟨t.publicKey, t.index, 0, 0⟩) i key = trusteeExists l i key := by
  simp only [trusteeExists, List.any_map, Function.comp_def]

theorem forEach_map {ε α β : Type} (f : β → Res ε Unit) (g : α → β) (l : List α) : Res.forEach f (l.map g) = Res.forEach (fun a => f (g a)) l := by
  induction l with
  | nil => rfl
  | cons a l ih => simp only [List.map_cons, Res.forEach, ih]

theorem flatMapM_map {ε α β γ : Type} (f : β → Res ε (List γ)) (g : α → β) (l : List α) : Res.flatMapM f (l.map g) = Res.flatMapM (fun a => f (g a)) l := by
  induction l with
  | nil => rfl
  | cons a l ih => simp only [List.map_cons, Res.flatMapM, ih]

theorem getBallot_bare (k : Bool) (e : ElectionTx) (id : Str) :
    (bareElection k e).getBallot id = (e.getBallot id).map fun b => ⟨b.id, b.contests, IndexMap.empty⟩ := by
  simp only [ElectionTx.getBallot, bareElection, List.find?_map, Function.comp_def]

theorem getTrustee_bare (k : Bool) (e : ElectionTx) (i : UInt8) :
    (bareElection k e).getTrustee i = (e.getTrustee i).map fun t => ⟨t.publicKey, t.index, 0, 0⟩ := by
  simp only [ElectionTx.getTrustee, bareElection, List.find?_map, Function.comp_def]

theorem getFullTrustees_bare (k : Bool) (e : ElectionTx) : (bareElection k e).getFullTrustees = e.getFullTrustees := by
  simp only [ElectionTx.getFullTrustees, bareElection, List.map_map, Function.comp_def, List.length_map]

theorem voteIdsMatch_bare (k : Bool) (ids : List Identifier) (l : List SignedTx) : voteIdsMatch ids (l.map (bare k)) = voteIdsMatch ids l := by
  induction l generalizing ids with
  | nil => cases ids <;> rfl
  | cons t l ih => cases ids <;> simp only [List.map_cons, voteIdsMatch, bare_id, ih]

theorem upstream_bare (k : Bool) (S : Store) (up : Identifier) (n : UInt16) (c : UInt32) (cfg : Option MixConfig) :
    encryptedVoteFromUpstream (bareStore k S) up n c (cfg.map fun _ => ⟨0, none⟩) = encryptedVoteFromUpstream S up n c cfg := by
  simp only [encryptedVoteFromUpstream, getVote_bare, getMix_bare, Option.isSome_map, Option.isNone_map]

theorem sharesFor_bare (l : List Trustee) (pks : List KeyGenPublicKeyTx) (ps : List PartialDecryptionTx) (i : Nat) :
    CB.sharesFor (l.map fun t => ⟨t.publicKey, t.index, 0, 0⟩) pks ps i = CB.sharesFor l pks ps i := by
  simp only [CB.sharesFor, flatMapM_map]

theorem decryptVote_bare (E : Env) (cts : List Ciphertext) (t : UInt8) (l : List Trustee) (pks : List KeyGenPublicKeyTx) (ps : List PartialDecryptionTx) :
    decryptVote E cts t (l.map fun t => ⟨t.publicKey, t.index, 0, 0⟩) pks ps = decryptVote E cts t l pks ps := by
  have : ∀ i, decryptVoteFrom E t (l.map fun t => ⟨t.publicKey, t.index, 0, 0⟩) pks ps i cts = decryptVoteFrom E t l pks ps i cts := by
    induction cts with
    | nil => intro i; rfl
    | cons c cs ih => intro i; simp only [decryptVoteFrom, sharesFor_bare, ih]
  exact this 0

theorem validateInner_bare (E : Env) (k : Bool) (S : Store) (t : SignedTx) : t.validateInner E (bareStore k S) = t.validateInner E S := by
  have hpk : ∀ k t, SignedTx.intoKeyGenPublicKey (bare k t) = SignedTx.intoKeyGenPublicKey t := fun k t => by cases t <;> rfl
  have hvote : ∀ k t, SignedTx.intoVote (bare k t) = SignedTx.intoVote t := fun k t => by cases t <;> rfl
  have hmix : ∀ k t, SignedTx.intoMix (bare k t) = SignedTx.intoMix t := fun k t => by cases t <;> rfl
  have hkey : ∀ k t, SignedTx.intoEncryptionKey (bare k t) = SignedTx.intoEncryptionKey t := fun k t => by cases t <;> rfl
  have hof : ∀ (id : Identifier) (e : ValErr) {β : Type} (f : SignedTx → VRes β), (∀ t, f (bare k t) = f t) →
      (Res.ofOption ((bareStore k S).getTransaction id) e).bind f = (Res.ofOption (S.getTransaction id) e).bind f := by
    intro id e β f hf
    simp only [bareStore]
    cases S.getTransaction id with
    | none => rfl
    | some t => exact hf t
  rcases t with s | s | s | s | s | s | s | s | s | s
  · rfl
  · show s.tx.validateTx (bareStore k S) = s.tx.validateTx S
    simp only [KeyGenCommitmentTx.validateTx, Res.bind_def]
    exact getElection_bind _ _ _ _ _ fun e => by simp only [bareElection, trusteeExists_bare]
  · show s.tx.validateTx (bareStore k S) = s.tx.validateTx S
    simp only [KeyGenShareTx.validateTx, Res.bind_def]
    exact getElection_bind _ _ _ _ _ fun e => by simp only [bareElection, trusteeExists_bare, forEach_map, List.length_map]
  · show s.tx.validateTx (bareStore k S) = s.tx.validateTx S
    simp only [KeyGenPublicKeyTx.validateTx, Res.bind_def]
    exact getElection_bind _ _ _ _ _ fun e => by simp only [bareElection, trusteeExists_bare]
  · show s.tx.validateTx (bareStore k S) = s.tx.validateTx S
    simp only [EncryptionKeyTx.validateTx, Res.bind_def]
    refine getElection_bind _ _ _ _ _ fun e => ?_
    simp only [getMultiple_bare, bind_assoc', Res.ok_bind, into_bare hpk, bareElection, forEach_map, List.length_map]
  · show s.tx.validateTx E (bareStore k S) = s.tx.validateTx E S
    simp only [VoteTx.validateTx, Res.bind_def]
    congr 1
    funext _
    refine getElection_bind _ _ _ _ _ fun e => ?_
    simp only [isNone_bare, isSome_bare, start_collision, Res.ok_bind]
    rw [show (bareStore k S).range = fun a b => (S.range a b).bind fun l => .ok (l.map (bare k)) from rfl]
    simp only [bind_assoc', Res.ok_bind, List.length_map, getBallot_bare]
    congr 1
    funext l
    congr 1
    funext _
    congr 1
    funext _
    congr 1
    funext _
    congr 1
    funext _
    cases e.tx.getBallot s.tx.ballotId <;> rfl
  · show s.tx.validateTx (bareStore k S) = s.tx.validateTx S
    simp only [VotingEndTx.validateTx, Res.bind_def]
    exact getElection_bind _ _ _ _ _ fun e => rfl
  · show s.tx.validateTx E (bareStore k S) = s.tx.validateTx E S
    have hi : s.tx.inputs E (bareStore k S) = s.tx.inputs E S := by
      unfold MixTx.inputs
      split
      · simp only [MixTx.inputsFromPrev, Res.bind_def]
        exact hof _ _ _ fun t => by simp only [hmix]
      · simp only [MixTx.inputsFromVotes, Res.bind_def, Identifier.start_none, Identifier.end_none, Res.ok_bind]
        rw [show (bareStore k S).range = fun a b => (S.range a b).bind fun l => .ok (l.map (bare k)) from rfl]
        simp only [bind_assoc', Res.ok_bind, List.length_map, voteIdsMatch_bare, flatMapM_map, hvote]
    simp only [MixTx.validateTx, Res.bind_def, hi]
    congr 1
    funext _
    refine getElection_bind _ _ _ _ _ fun e => ?_
    simp only [bareElection, Option.isNone_map, trusteeExists_bare]
    congr 1
    funext _
    congr 1
    funext _
    congr 1
    funext _
    congr 1
    funext _
    congr 1
    funext _
    congr 1
    funext _
    exact hof _ _ _ fun t => by simp only [hkey]
  · show s.tx.validateTx E (bareStore k S) = s.tx.validateTx E S
    simp only [PartialDecryptionTx.validateTx, Res.bind_def]
    refine getElection_bind _ _ _ _ _ fun e => ?_
    simp only [getFullTrustees_bare, isNone_bare, getKeygenPublicKey_bare]
    rw [show (bareElection k e.tx).mixConfig = e.tx.mixConfig.map fun _ => ⟨0, none⟩ from rfl]
    simp only [upstream_bare]
  · show s.tx.validateTx E (bareStore k S) = s.tx.validateTx E S
    simp only [DecryptionTx.validateTx, Res.bind_def]
    congr 1
    funext _
    refine getElection_bind _ _ _ _ _ fun e => ?_
    simp only [getTrustee_bare, getPartialDecryption_bare, getMultiple_bare, bind_assoc', Res.ok_bind, into_bare hpk]
    rw [show (bareElection k e.tx).mixConfig = e.tx.mixConfig.map fun _ => ⟨0, none⟩ from rfl,
      show (bareElection k e.tx).trustees = e.tx.trustees.map fun t => ⟨t.publicKey, t.index, 0, 0⟩ from rfl]
    simp only [upstream_bare, decryptVote_bare]
    congr 1
    funext cts
    congr 1
    funext raw
    congr 1
    funext pks
    have : ∀ i, (Res.ofOption ((e.tx.getTrustee i).map fun t => (⟨t.publicKey, t.index, 0, 0⟩ : Trustee)) (ValErr.trusteeDoesNotExist i)).bind
        (fun tr => S.getPartialDecryption (PartialDecryptionTx.buildId s.tx.electionId s.tx.upstreamId s.tx.contestIndex s.tx.upstreamIndex tr.index)) =
        (Res.ofOption (e.tx.getTrustee i) (ValErr.trusteeDoesNotExist i)).bind
        (fun tr => S.getPartialDecryption (PartialDecryptionTx.buildId s.tx.electionId s.tx.upstreamId s.tx.contestIndex s.tx.upstreamIndex tr.index)) := by
      intro i
      cases e.tx.getTrustee i <;> rfl
    simp only [this]
    rfl

theorem validate_bare (E : Env) (k : Bool) (S : Store) (t : SignedTx) : t.validate E (bareStore k S) = t.validate E S := by
  rw [SignedTx.validate_eq, SignedTx.validate_eq]
  simp only [validateInner_bare]

/-- **C100** The verdict on a transaction (acceptance, the exact error, or a panic) does not depend on the kinds of the contests, their candidates, the number of winners, whether
write-ins are allowed, the size of the mixnet's batches, its timeout, the number of authenticators that are to sign, or properties. -/
theorem C100_verdicts_ignore_settings (E : Env) (S S' : Store) (h : Lawful S) (h' : Lawful S') (hs : SameBut S S') (t : SignedTx) :
    t.validate E S = t.validate E S' := by
  rw [← validate_bare E false S, ← validate_bare E false S']
  exact C34_elections_isolated E _ _ (lawful_bare h _) (lawful_bare h' _) t fun e _ id _ => bareStore_congr hs false (by simp) id

/-! ## Nodes do not look at them -/

theorem getAll_bare {T : Type} {into : SignedTx → VRes (Signed T)} (h : ∀ k t, into (bare k t) = into t) (k : Bool) (S : Store) (e : Identifier) (ty : TxType) :
    getAll (bareStore k S) e ty into = getAll S e ty into := by
  simp only [getAll, getMultiple_bare, Res.bind_def]
  cases S.getMultiple e ty with
  | ok l => simp only [v, Res.ok_bind, Res.mapErr, into_bare h]
  | err e => rfl
  | panic p => rfl

theorem partialsFrom_bare (N : NodeEnv) (rng : Rng) (sk : SecretKey) (k : Bool) (e : ElectionTx) (tr : Trustee) (keys : List (UInt8 × X25519Pub))
    (cs : List (UInt8 × KeygenCommitment)) (sh : List (UInt8 × EncryptedShare)) (i : Nat) (items : List (Identifier × UInt16 × UInt32 × List Ciphertext)) :
    partialsFrom N rng sk (bareElection k e) tr keys cs sh i items = partialsFrom N rng sk e tr keys cs sh i items := by
  induction items generalizing i with
  | nil => rfl
  | cons x items ih =>
    obtain ⟨a, b, c, d⟩ := x
    simp only [partialsFrom, ih]
    rfl

theorem firstMixes_bare (N : NodeEnv) (rng : Rng) (sk : SecretKey) (b : Bool) (e : ElectionTx) (tr : Trustee) (key : ElGamalKey) (i : Nat)
    (l : List (UInt32 × List (Identifier × List Ciphertext))) : firstMixes N rng sk (bareElection b e) tr key i l = firstMixes N rng sk e tr key i l := by
  induction l generalizing i with
  | nil => rfl
  | cons x l ih =>
    obtain ⟨a, b⟩ := x
    simp only [firstMixes, ih]
    rfl

theorem producePartials_bare (N : NodeEnv) (rng : Rng) (sk : SecretKey) (k : Bool) (S : Store) (e : ElectionTx) (tr : Trustee) (c c' : UInt32) (m : Option MixTx)
    (hm : m.isSome = true → c = c') : producePartials N rng sk (bareStore k S) (bareElection k e) tr c m = producePartials N rng sk S e tr c' m := by
  have h1 := fun id => getAll_bare (into := SignedTx.intoKeyGenShare) (fun k t => by cases t <;> rfl) k S id .keyGenShare
  have h2 := fun id => getAll_bare (into := SignedTx.intoKeyGenCommitment) (fun k t => by cases t <;> rfl) k S id .keyGenCommitment
  have h3 := fun id => getAll_bare (into := SignedTx.intoVote) (fun k t => by cases t <;> rfl) k S id .vote
  have hi : partialItems (bareStore k S) (bareElection k e) c m = partialItems S e c' m := by
    cases m with
    | none => simp only [partialItems, h3]; rfl
    | some m => rw [hm rfl]; rfl
  have hid : (bareElection k e).id = e.id := rfl
  simp only [producePartials, h1, h2, hi, partialsFrom_bare, hid]

theorem generate_bare (N : NodeEnv) (rng : Rng) (sk : SecretKey) (S : Store) (t : SignedTx) :
    generateTransactions N rng sk (bareStore true S) (bare true t) = generateTransactions N rng sk S t := by
  have h1 := fun id => getAll_bare (into := SignedTx.intoKeyGenShare) (fun k t => by cases t <;> rfl) true S id .keyGenShare
  have h2 := fun id => getAll_bare (into := SignedTx.intoKeyGenCommitment) (fun k t => by cases t <;> rfl) true S id .keyGenCommitment
  have h3 := fun id => getAll_bare (into := SignedTx.intoVote) (fun k t => by cases t <;> rfl) true S id .vote
  have h4 := fun id => getAll_bare (into := SignedTx.intoKeyGenPublicKey) (fun k t => by cases t <;> rfl) true S id .keyGenPublicKey
  have htr : ∀ e key, trusteeFromElection (bareElection true e) key = trusteeFromElection e key := fun e key => by
    simp only [trusteeFromElection, getFullTrustees_bare]
  have hlen : ∀ e, (bareElection true e).trustees.length = e.trustees.length := fun e => by simp [bareElection]
  have hid : ∀ e, (bareElection true e).id = e.id := fun _ => rfl
  have hau : ∀ e, (bareElection true e).authorityPublic = e.authorityPublic := fun _ => rfl
  have hth : ∀ e, (bareElection true e).trusteesThreshold = e.trusteesThreshold := fun _ => rfl
  have hmx : ∀ e, (bareElection true e).mixConfig = e.mixConfig.map fun _ => ⟨0, none⟩ := fun _ => rfl
  have hkey : ∀ id, encryptionKey (bareStore true S) id = encryptionKey S id := by
    intro id
    simp only [encryptionKey, bareStore]
    cases S.getTransaction (EncryptionKeyTx.buildId id) with
    | none => rfl
    | some t => cases t <;> rfl
  have hel : ∀ {β : Type} (id : Identifier) (f g : Signed ElectionTx → SRes β), (∀ s, f ⟨bareElection true s.tx, BArr.fill 64 0⟩ = g s) →
      (v ((bareStore true S).getElection id)).bind f = (v (S.getElection id)).bind g := by
    intro β id f g hfg
    rw [getElection_bare]
    cases S.getElection id with
    | ok s => exact hfg s
    | err e => rfl
    | panic p => rfl
  rcases t with s | s | s | s | s | s | s | s | s | s
  · simp only [bare, generateTransactions, processElection, htr, hid]
  · simp only [bare, generateTransactions, processKeygenCommitment, Res.bind_def]
    exact hel _ _ _ fun e => by simp only [htr, hid, h2, hlen]
  · simp only [bare, generateTransactions, processKeygenShare, Res.bind_def]
    exact hel _ _ _ fun e => by simp only [htr, hid, h1, h2, hlen]
  · simp only [bare, generateTransactions, processKeygenPublicKey, Res.bind_def]
    exact hel _ _ _ fun e => by simp only [hid, h4, hlen, hau]
  · rfl
  · rfl
  · simp only [bare, generateTransactions, processVotingEnd, Res.bind_def]
    refine hel _ _ _ fun e => ?_
    simp only [htr, hid, h3, hkey, hmx, firstMixes_bare]
    cases e.tx.mixConfig with
    | some c => rfl
    | none =>
      simp only [Option.map_none]
      cases trusteeFromElection e.tx (N.edPublic sk) with
      | none => rfl
      | some tr =>
        cases hc : e.tx.contests with
        | nil => simp [bareElection, hc]
        | cons c cs =>
          have : (bareElection true e.tx).contests = [⟨[], 0, .plurality, 0, false, [], IndexMap.empty⟩] := by simp [bareElection, hc]
          simp only [this]
          exact producePartials_bare _ _ _ _ _ _ _ _ _ _ (by simp)
  · simp only [bare, generateTransactions, processMix, Res.bind_def]
    refine hel _ _ _ fun e => ?_
    simp only [htr, hid, hkey, hmx, hth, producePartials_bare N rng sk true S e.tx _ s.tx.contestIndex s.tx.contestIndex (some s.tx) (fun _ => rfl)]
    cases e.tx.mixConfig <;> rfl
  · have hup : upstreamCiphertexts (bareStore true S) s.tx = upstreamCiphertexts S s.tx := by
      simp only [upstreamCiphertexts, getVote_bare, getMix_bare]
    simp only [bare, generateTransactions, processPartialDecryption, Res.bind_def]
    refine hel _ _ _ fun e => ?_
    simp only [htr, hid, hth, h4, hup, getFullTrustees_bare]
    cases trusteeFromElection e.tx (N.edPublic sk) with
    | none => rfl
    | some tr =>
      simp only [bareStore]
      cases S.range _ _ with
      | err e => rfl
      | panic p => rfl
      | ok l =>
        simp only [v, Res.ok_bind, Res.mapErr, List.length_map, into_bare (into := SignedTx.intoPartialDecryption) (fun k t => by cases t <;> rfl)]
  · rfl

/-- **C100** Neither does what a node generates in reaction to a transaction, as long as the election has contests in both cases or in neither. -/
theorem C100_nodes_ignore_settings (N : NodeEnv) (rng : Rng) (sk : SecretKey) (S S' : Store) (h : Lawful S) (h' : Lawful S') (hs : SameBut S S')
    (hc : SameContestless S S') (t t' : SignedTx) (ht : Alike t t') : generateTransactions N rng sk S t = generateTransactions N rng sk S' t' := by
  rcases ht with rfl | ⟨s, s', rfl, rfl, ha⟩
  · rw [← generate_bare N rng sk S, ← generate_bare N rng sk S']
    exact C34_nodes_isolated N rng sk _ _ (lawful_bare h _) (lawful_bare h' _) _ fun e _ id _ => bareStore_congr hs true (fun _ => hc) id
  · have hb := bare_congr ha false (by simp)
    have h1 : ∀ e : ElectionTx, processElection N sk (bareElection false e) = processElection N sk e := fun e => by
      simp only [processElection, trusteeFromElection, getFullTrustees_bare]
      rfl
    simp only [generateTransactions]
    rw [← h1 s.tx, ← h1 s'.tx, hb]

/-! ## The end-to-end command does not look at them -/

theorem alike_refl (t : SignedTx) : Alike t t := .inl rfl

theorem alike_id {t t' : SignedTx} (h : Alike t t') : t.id = t'.id := by
  rcases h with rfl | ⟨s, s', rfl, rfl, h⟩
  · rfl
  · exact h.id

theorem sameBut_set {m m' : MemStore} (h : SameBut m.toStore m'.toStore) {t t' : SignedTx} (ht : Alike t t') : SameBut (m.set t).toStore (m'.set t').toStore := by
  intro id
  show Option.Rel Alike ((m.set t).getTransaction id) ((m'.set t').getTransaction id)
  rw [MemStore.get_set, MemStore.get_set, alike_id ht]
  by_cases hi : id = t'.id
  · rw [if_pos hi, if_pos hi]; exact .some ht
  · rw [if_neg hi, if_neg hi]; exact h id

theorem replay_congr {E : Env} {m m' : MemStore} (hw : m.WF) (hw' : m'.WF) (h : SameBut m.toStore m'.toStore) (ts : List SignedTx) :
    (∀ x, E2e.replay E m ts = .err x ↔ E2e.replay E m' ts = .err x) ∧
    ∀ r, E2e.replay E m ts = .ok r → ∃ r', E2e.replay E m' ts = .ok r' ∧ r.WF ∧ r'.WF ∧ SameBut r.toStore r'.toStore := by
  induction ts generalizing m m' with
  | nil => exact ⟨by simp [E2e.replay], fun r hr => by cases hr; exact ⟨m', rfl, hw, hw', h⟩⟩
  | cons t ts ih =>
    have hv := C100_verdicts_ignore_settings E _ _ (MemStore.lawful hw) (MemStore.lawful hw') h t
    have ih := ih (MemStore.wf_set hw t) (MemStore.wf_set hw' t) (sameBut_set h (alike_refl t))
    simp only [E2e.replay, ← hv]
    cases t.validate E m.toStore with
    | ok u => exact ih
    | err e => exact ⟨fun _ => Iff.rfl, fun r hr => by cases hr⟩
    | panic p => exact ⟨fun _ => Iff.rfl, fun r hr => by cases hr⟩

/-- **C100** Whatever the settings in question, the end-to-end command accepts the same transactions, stops at the same one with the same error otherwise, and prints the same votes,
totals and winner. -/
theorem C100_reports_ignore_settings (E : Env) (e e' : ElectionTx) (sig sig' : Signature) (he : SameSetup e e') (ts : List SignedTx)
    (hv : (SignedTx.election ⟨e, sig⟩).validate E MemStore.empty.toStore = .ok ()) (hv' : (SignedTx.election ⟨e', sig'⟩).validate E MemStore.empty.toStore = .ok ()) :
    (∀ x, E2e.verify E (.election ⟨e, sig⟩ :: ts) = .err x ↔ E2e.verify E (.election ⟨e', sig'⟩ :: ts) = .err x) ∧
    ∀ m, E2e.verify E (.election ⟨e, sig⟩ :: ts) = .ok m → ∃ m', E2e.verify E (.election ⟨e', sig'⟩ :: ts) = .ok m' ∧
      ∀ id, E2e.tally m id = E2e.tally m' id ∧ E2e.printVotes m id = E2e.printVotes m' id ∧
        ∀ winners, E2e.printResults winners m id = E2e.printResults winners m' id := by
  have ha : Alike (.election ⟨e, sig⟩) (.election ⟨e', sig'⟩) := .inr ⟨_, _, rfl, rfl, he⟩
  have hw := fun t => MemStore.wf_set (m := .empty) MemStore.wf_empty t
  have h0 : SameBut (MemStore.empty.set (.election ⟨e, sig⟩)).toStore (MemStore.empty.set (.election ⟨e', sig'⟩)).toStore :=
    sameBut_set (fun id => .none) ha
  have key := replay_congr (E := E) (hw _) (hw _) h0 ts
  have h1 : ∀ (x : ElectionTx) (s : Signature), (SignedTx.election ⟨x, s⟩).validate E MemStore.empty.toStore = .ok () →
      E2e.verify E (.election ⟨x, s⟩ :: ts) = E2e.replay E (MemStore.empty.set (.election ⟨x, s⟩)) ts := by
    intro x s hx
    show (Res.mapErr _ (SignedTx.validate _ _ _)).bind _ = _
    rw [hx]
    rfl
  rw [h1 _ _ hv, h1 _ _ hv']
  refine ⟨key.1, fun m hm => ?_⟩
  obtain ⟨m', hm', hwm, hwm', hs⟩ := key.2 m hm
  have hmul : ∀ id, (m.toStore.getMultiple id .decryption).bind (fun l => Res.ok (l.map (bare false))) = (m'.toStore.getMultiple id .decryption).bind fun l => .ok (l.map (bare false)) := by
    intro id
    rw [← getMultiple_bare, ← getMultiple_bare]
    exact getMultiple_congr (lawful_bare (MemStore.lawful hwm) _) (lawful_bare (MemStore.lawful hwm') _) (fun id _ => bareStore_congr hs false (by simp) id) _
  have hmap : ∀ {β : Type} (f : Signed DecryptionTx → VRes β) (l : List SignedTx),
      Res.mapM' (fun d => d.intoDecryption.bind f) (l.map (bare false)) = Res.mapM' (fun d => d.intoDecryption.bind f) l := by
    intro β f l
    induction l with
    | nil => rfl
    | cons t l ih => simp only [List.map_cons, Res.mapM', ih]; cases t <;> rfl
  have htally : ∀ id, E2e.tally m id = E2e.tally m' id := by
    intro id
    have : ∀ m : MemStore, E2e.tally m id = ((m.toStore.getMultiple id .decryption).bind fun l => Res.ok (l.map (bare false))).bind fun ds =>
        (Res.mapM' (fun d => d.intoDecryption.bind fun d => Res.unwrap d.tx.decryptedVote.head? .sliceLen) ds).bind fun ss => .ok (ss.foldl (fun (t : Tally.Totals) s => t.add s.selection 1) []) := by
      intro m
      simp only [E2e.tally, bind_assoc', Res.ok_bind, hmap]
    rw [this, this, hmul]
  refine ⟨m', hm', fun id => ⟨htally id, ?_, fun w => ?_⟩⟩
  · have : ∀ m : MemStore, E2e.printVotes m id = ((m.toStore.getMultiple id .decryption).bind fun l => Res.ok (l.map (bare false))).bind fun ds =>
        (Res.mapM' (fun d => d.intoDecryption.bind fun d => .ok (d.tx.decryptedVote.map fun s => (s.score, s.selection))) ds).bind fun ls => .ok ls.flatten := by
      intro m
      simp only [E2e.printVotes, bind_assoc', Res.ok_bind, hmap]
    rw [this, this, hmul]
  · simp only [E2e.printResults, htally]

/-! ## So settings are not obeyed -/

/-- the election of the examples, except that batches are to be of one vote and to take less time, that no signature of an authenticator is needed, and that there is a contest, without candidates -/
def Toy.small : ElectionTx := { Toy.election (some ⟨1, some 1⟩) with authenticatorsThreshold := 0, contests := [⟨str "c", 0, .score, 3, false, [], .empty⟩] }

/-- the complete example with that election instead -/
def Toy.smallComplete : List SignedTx := .election ⟨Toy.small, Toy.sig 1⟩ :: Toy.complete.tail

theorem Toy.small_same : SameSetup (Toy.election) Toy.small := ⟨rfl, rfl, rfl, rfl, rfl, rfl, by simp [Toy.small, Toy.election]⟩

/-- the hypotheses of the theorems above are met by these two -/
example : ∃ m, E2e.verify Toy.env (Toy.electionTx :: Toy.complete.tail) = .ok m ∧ E2e.tally m Toy.eid = .ok [(str "a", 1), (str "b", 1)] ∧
    SameSetup (Toy.election) Toy.small ∧ (Toy.electionTx).validate Toy.env MemStore.empty.toStore = .ok () ∧
    (SignedTx.election ⟨Toy.small, Toy.sig 1⟩).validate Toy.env MemStore.empty.toStore = .ok () := by
  have h1 : (match E2e.verify Toy.env (Toy.electionTx :: Toy.complete.tail) with
    | .ok m => decide (E2e.tally m Toy.eid = .ok [(str "a", 1), (str "b", 1)]) | _ => false) = true := by decide +kernel
  cases hv : E2e.verify Toy.env (Toy.electionTx :: Toy.complete.tail) with
  | err e => rw [hv] at h1; cases h1
  | panic p => rw [hv] at h1; cases h1
  | ok m =>
    rw [hv] at h1
    exact ⟨m, rfl, of_decide_eq_true h1, Toy.small_same, by decide +kernel, by decide +kernel⟩

/-- and the stores with the two elections in them are alike for nodes -/
example : SameBut (MemStore.ofList [Toy.electionTx (some ⟨60, none⟩)]).toStore (MemStore.ofList [Toy.electionTx (some ⟨1, some 1⟩)]).toStore ∧
    SameContestless (MemStore.ofList [Toy.electionTx (some ⟨60, none⟩)]).toStore (MemStore.ofList [Toy.electionTx (some ⟨1, some 1⟩)]).toStore := by
  have hs : SameSetup (Toy.election (some ⟨60, none⟩)) (Toy.election (some ⟨1, some 1⟩)) := ⟨rfl, rfl, rfl, rfl, rfl, rfl, by simp [Toy.election]⟩
  refine ⟨sameBut_set (m := .empty) (m' := .empty) (fun _ => .none) (.inr ⟨_, _, rfl, rfl, hs⟩), ?_⟩
  have key : ∀ (c : MixConfig) (id : Identifier) (e : ElectionTx), ElectionAt (MemStore.ofList [Toy.electionTx (some c)]).toStore id e → e.contests = [] := by
    rintro c id e ⟨s, hs⟩
    have hs : (MemStore.empty.set (Toy.electionTx (some c))).getTransaction id = some _ := hs
    rw [MemStore.get_set] at hs
    split at hs
    · cases hs; rfl
    · cases hs
  intro id e e' h h'
  rw [key _ _ _ h, key _ _ _ h']

/-- **C100 is false of the code**: in an election that limits the batches of its mixnet to `n` votes, verified mixes contain more. -/
theorem C100_batches_are_limited_false : ¬ ∀ (E : Env) (txs : List SignedTx) (m : MemStore), E2e.verify E txs = .ok m → (txs.map SignedTx.id).Nodup →
    ∀ (e : ElectionTx) (c : MixConfig) (n : UInt16), ElectionAt m.toStore e.id e → e.mixConfig = some c → c.batchSize = some n →
      ∀ x : Signed MixTx, SignedTx.mix x ∈ txs → x.tx.electionId = e.id → x.tx.mixedCiphertexts.length ≤ n.toNat := by
  intro h
  have hv : (match E2e.verify Toy.env Toy.smallComplete with | .ok _ => true | _ => false) = true := by decide +kernel
  have hd : (Toy.smallComplete.map SignedTx.id).Nodup := by decide +kernel
  cases hm : E2e.verify Toy.env Toy.smallComplete with
  | err e => rw [hm] at hv; cases hv
  | panic p => rw [hm] at hv; cases hv
  | ok m =>
    have hin : ElectionAt m.toStore Toy.small.id Toy.small := by
      refine ⟨Toy.sig 1, ?_⟩
      obtain ⟨-, rfl, -⟩ := (E2e.C40_e2e_replays _ _ _).1 hm
      exact (Server.Network.stored_iff_mem hd _).2 (List.mem_cons_self ..)
    have := h _ _ m hm hd Toy.small _ 1 hin rfl rfl ⟨MixTx.new Toy.eid none (Toy.trustee 1 11) 0 0 0 Toy.ids [[Toy.ct "b"], [Toy.ct "a"]] ⟨[]⟩, Toy.sig 11⟩
      (by
        have : Toy.mix1Tx ∈ Toy.smallComplete := by simp [Toy.smallComplete, Toy.complete, Toy.setup]
        exact this) rfl
    exact absurd this (by decide)

end CB
