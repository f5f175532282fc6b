import Verif.Props.Server
import Verif.Props.ServerMix
import Verif.Props.Identifiers
/-!
# C64: which transactions can crash a node

`service.rs` unwraps the result of `generate_transactions` in `after_commit`, so an error there is a crash like a panic; and `after_commit` goes through every
transaction of a block, also those that were refused.
-/

namespace CB.Server
open Spec

/-- **C64** (exact reaction) For every state of the blockchain and every committed envelope, accepted or not: the node crashes exactly if the envelope's id text makes
identifier parsing crash, or it names a stored transaction for which no list of reactions can be computed.  Otherwise it submits exactly the computed reactions that
are not stored yet, in order. -/
theorem C64_reaction_exact (N : NodeEnv) (rng : Rng) (sk : SecretKey) (s : Exonum.Schema) (env : Exonum.Envelope) :
    ((∃ p, react N rng sk s env = .panic p) ↔
      (∃ b, HexOf env.id b ∧ (b.length = 16 ∨ (b.length = 32 ∧ ∃ c, b[15]? = some c ∧ ¬ (1 ≤ c.toNat ∧ c.toNat ≤ 10)))) ∨
      ∃ id b t, IsArrayOf b id ∧ HexOf env.id b ∧ (Exonum.toStore s).getTransaction id = some t ∧
        ¬ ∃ l, generateTransactions N rng sk (Exonum.toStore s) t = .ok l) ∧
    (∀ out, react N rng sk s env = .ok out → ∀ id b t, IsArrayOf b id → HexOf env.id b → (Exonum.toStore s).getTransaction id = some t →
      ∃ l, generateTransactions N rng sk (Exonum.toStore s) t = .ok l ∧
        out = (l.filter fun d => ((Exonum.toStore s).getTransaction d.id).isNone).map Exonum.Envelope.ofTx) ∧
    (∀ out, react N rng sk s env = .ok out →
      (∀ id b, IsArrayOf b id → HexOf env.id b → (Exonum.toStore s).getTransaction id = none) → out = []) := by
  obtain ⟨hok, hpan, -⟩ := C02_parse_partial env.id
  have hst : ∀ id, (Exonum.toStore s).getTransaction id = Exonum.getTransaction s id := fun _ => rfl
  simp only [hst]
  rw [← hpan]
  unfold react
  cases hp : Identifier.fromStr env.id with
  | err e =>
    have hno : ∀ id b, IsArrayOf b id → ¬ HexOf env.id b := fun id b h1 h2 => by
      have := (hok id).2 ⟨b, h1, h2⟩
      rw [hp] at this
      cases this
    refine ⟨⟨fun ⟨p, h⟩ => (by cases h), ?_⟩, fun out _ id b t h1 h2 => absurd h2 (hno id b h1), fun out h _ => by cases h; rfl⟩
    rintro (⟨p, h⟩ | ⟨id, b, t, h1, h2, -⟩)
    · cases h
    · exact absurd h2 (hno id b h1)
  | panic p =>
    have hno : ∀ id b, IsArrayOf b id → ¬ HexOf env.id b := fun id b h1 h2 => by
      have := (hok id).2 ⟨b, h1, h2⟩
      rw [hp] at this
      cases this
    exact ⟨⟨fun _ => .inl ⟨p, rfl⟩, fun _ => ⟨p, rfl⟩⟩, fun out h => (by cases h), fun out h => (by cases h)⟩
  | ok id0 =>
    have huniq : ∀ id b, IsArrayOf b id → HexOf env.id b → id = id0 := fun id b h1 h2 => by
      have := (hok id).2 ⟨b, h1, h2⟩
      rw [hp] at this
      exact (Res.ok.inj this).symm
    obtain ⟨b0, hb0, hb0'⟩ := (hok id0).1 hp
    dsimp only
    cases ht : Exonum.getTransaction s id0 with
    | none =>
      refine ⟨⟨fun ⟨p, h⟩ => (by cases h), ?_⟩, fun out h id b t h1 h2 h3 => ?_, fun out h _ => by cases h; rfl⟩
      · rintro (⟨p, h⟩ | ⟨id, b, t, h1, h2, h3, -⟩)
        · cases h
        · rw [huniq id b h1 h2, ht] at h3
          cases h3
      · rw [huniq id b h1 h2, ht] at h3
        cases h3
    | some t0 =>
      dsimp only
      cases hg : generateTransactions N rng sk (Exonum.toStore s) t0 with
      | ok l =>
        refine ⟨⟨fun ⟨p, h⟩ => (by cases h), ?_⟩, fun out h id b t h1 h2 h3 => ?_, fun out h hn => ?_⟩
        · rintro (⟨p, h⟩ | ⟨id, b, t, h1, h2, h3, h4⟩)
          · cases h
          · rw [huniq id b h1 h2, ht] at h3
            cases h3
            exact absurd ⟨l, hg⟩ h4
        · rw [huniq id b h1 h2, ht] at h3
          cases h3
          exact ⟨l, hg, (Res.ok.inj h).symm⟩
        · have := hn id0 b0 hb0 hb0'
          rw [ht] at this
          cases this
      | err e =>
        refine ⟨⟨fun _ => .inr ⟨id0, b0, t0, hb0, hb0', ht, ?_⟩, fun _ => ⟨_, rfl⟩⟩, fun out h => (by cases h), fun out h => (by cases h)⟩
        rintro ⟨l, h⟩
        rw [hg] at h
        cases h
      | panic p =>
        refine ⟨⟨fun _ => .inr ⟨id0, b0, t0, hb0, hb0', ht, ?_⟩, fun _ => ⟨_, rfl⟩⟩, fun out h => (by cases h), fun out h => (by cases h)⟩
        rintro ⟨l, h⟩
        rw [hg] at h
        cases h

/-! ## Crashing a node from outside -/

/-- A stranger's election that names the node of `Toy.key 11` as its first trustee without asking it, … -/
def trap : SignedTx :=
  .election ⟨{ (Toy.election) with id := Toy.eid2, authorityPublic := Toy.key 2, trustees := [Toy.trustee 1 11], trusteesThreshold := 1 }, Toy.sig 2⟩

/-- … and the end of its voting, before it has an encryption key. -/
def trapEnd : SignedTx := .votingEnd ⟨VotingEndTx.new Toy.eid2 (Toy.key 2), Toy.sig 2⟩

/-- **C64 is false of the code**: on a ledger of accepted transactions, all of them signed by one stranger, reacting to a stored transaction crashes a trustee's node.
(Ending the voting of a mixnet election before its encryption key is stored: `store.get_transaction(..).unwrap()`.) -/
theorem C64_node_never_crashes_false :
    ¬ ∀ (N : NodeEnv) (m : MemStore), SignCorrect N.toEnv → Ledger N.toEnv m → ∀ (rng : Rng) (sk : SecretKey) (t : SignedTx), InStore m.toStore t →
      (∀ x, InStore m.toStore x → signerOf x ≠ some (N.edPublic sk)) → ∃ l, generateTransactions N rng sk m.toStore t = .ok l := by
  intro h
  have hl : Ledger Toy.node.toEnv (MemStore.ofList [trap, trapEnd]) := ledger_of_run (by decide +kernel)
  have hs : ∀ x, InStore (MemStore.ofList [trap, trapEnd]).toStore x → signerOf x ≠ some (Toy.node.edPublic (Toy.key 11)) := by
    intro x hx
    have hx : (MemStore.ofList [trap, trapEnd]).getTransaction x.id = some x := hx
    have : x = trap ∨ x = trapEnd := by
      have h1 : MemStore.ofList [trap, trapEnd] = (MemStore.empty.set trap).set trapEnd := rfl
      rw [h1, MemStore.get_set, MemStore.get_set, MemStore.get_empty] at hx
      split at hx
      · exact .inr (Option.some.inj hx).symm
      · split at hx
        · exact .inl (Option.some.inj hx).symm
        · cases hx
    rcases this with rfl | rfl <;> decide +kernel
  obtain ⟨l, hg⟩ := h Toy.node _ Toy.node_sign hl Toy.rng (Toy.key 11) trapEnd (by rfl) hs
  have hx : (match generateTransactions Toy.node Toy.rng (Toy.key 11) (MemStore.ofList [trap, trapEnd]).toStore trapEnd with
    | .ok _ => true
    | _ => false) = false := by decide +kernel
  rw [hg] at hx
  cases hx

/-- … and no ledger is needed at all: an envelope whose id text is 32 zeros crashes every node once it is in a block, accepted or not. -/
theorem C64_envelope_crashes_false :
    ¬ ∀ (N : NodeEnv) (rng : Rng) (sk : SecretKey) (s : Exonum.Schema) (env : Exonum.Envelope), ∃ out, react N rng sk s env = .ok out := by
  intro h
  obtain ⟨out, h1⟩ := h Toy.node Toy.rng (Toy.key 11) OMap.empty ⟨Toy.key 2, List.replicate 32 48, []⟩
  have := ((C64_reaction_exact Toy.node Toy.rng (Toy.key 11) OMap.empty ⟨Toy.key 2, List.replicate 32 48, []⟩).1).2
    (.inl ⟨List.replicate 16 0, (hexDecode_iff _ _).1 (by decide +kernel), .inl (by decide)⟩)
  obtain ⟨p, h2⟩ := this
  rw [h1] at h2
  cases h2

/-! ## What cannot crash a node -/

/-- Whatever a ledger stores names an election that it stores. -/
theorem election_stored {E : Env} {m : MemStore} (hm : Ledger E m) {t : SignedTx} (ht : InStore m.toStore t) : ∃ e, ElectionAt m.toStore (electionOf t) e := by
  obtain ⟨m0, hm0, hfresh, hv, hsteps⟩ := hm.accepted ht
  have hext : Extends m0 m := (Extends.set_fresh hfresh).trans hsteps.extends
  have lift : ∀ {id : Identifier} {e : ElectionTx}, ElectionAt m0.toStore id e → ∃ e, ElectionAt m.toStore id e := fun {id e} ⟨sg, h⟩ => ⟨e, sg, hext _ _ h⟩
  have hin := (SignedTx.validate_ok.1 hv).2.2
  cases t with
  | election s => exact ⟨s.tx, s.sig, ht⟩
  | keyGenCommitment s => obtain ⟨e, he, -⟩ := KeyGenCommitmentTx.validateTx_ok.1 hin; exact lift he
  | keyGenShare s => obtain ⟨e, he, -⟩ := KeyGenShareTx.validateTx_ok.1 hin; exact lift he
  | keyGenPublicKey s => obtain ⟨e, he, -⟩ := KeyGenPublicKeyTx.validateTx_ok.1 hin; exact lift he
  | encryptionKey s => obtain ⟨e, he, -⟩ := EncryptionKeyTx.validateTx_ok.1 hin; exact lift he
  | vote s => obtain ⟨-, e, he, -⟩ := VoteTx.validateTx_ok_store.1 hin; exact lift he
  | votingEnd s => obtain ⟨e, he, -⟩ := VotingEndTx.validateTx_ok.1 hin; exact lift he
  | mix s => obtain ⟨-, e, he, -⟩ := (MixTx.validateTx_ok hm0.lawful).1 hin; exact lift he
  | partialDecryption s => obtain ⟨e, he, -⟩ := PartialDecryptionTx.validateTx_ok.1 hin; exact lift he
  | decryption s => obtain ⟨-, e, he, -⟩ := DecryptionTx.validateTx_ok.1 hin; exact lift he

/-- **C64 (partial)** On every ledger, reacting to a stored transaction succeeds
* for elections, public keys, encryption keys, votes and decryptions, always;
* for every transaction, if the node's key is not one of the election's trustees;
* for commitments and shares, while not all trustees' ones are stored;
* for the end of voting of a mixnet election, on all trustees' nodes but the first's;
* for mixes, if the election has no mixnet.
Missing: the remaining cases (false, see above). -/
theorem C64_node_never_crashes_partial (N : NodeEnv) (m : MemStore) (hm : Ledger N.toEnv m) (rng : Rng) (sk : SecretKey) (t : SignedTx) (ht : InStore m.toStore t) :
    ∃ e, ElectionAt m.toStore (electionOf t) e ∧
      (kindOf t ∈ [.election, .keyGenPublicKey, .encryptionKey, .vote, .decryption] ∨ ¬ TrusteeKey e (N.edPublic sk) ∨
        (kindOf t ∈ [.keyGenCommitment, .keyGenShare] ∧ ¬ CountIs m.toStore e (kindOf t) e.trustees.length) ∨
        (kindOf t = .votingEnd ∧ e.mixConfig.isSome ∧ ¬ IsTrustee e 1 (N.edPublic sk)) ∨ (kindOf t = .mix ∧ e.mixConfig = none) →
      ∃ l, generateTransactions N rng sk m.toStore t = .ok l) := by
  obtain ⟨e, he⟩ := election_stored hm ht
  refine ⟨e, he, ?_⟩
  have hT : Typed m.toStore := fun t ht => hm.replay.typed ht
  obtain ⟨esig, hel⟩ := getElection_at he
  rintro (h | h | ⟨h, hc⟩ | ⟨h, hmix, h1⟩ | ⟨h, hmix⟩)
  · cases t with
    | election s =>
      simp only [generateTransactions, processElection]
      split
      · rename_i tr htr
        have hk := (trusteeFromElection_some htr).1
        rw [sign_eq (by intro k hk'; cases hk'; exact hk)]
        exact ⟨_, rfl⟩
      · exact ⟨_, rfl⟩
    | keyGenPublicKey s => exact ⟨_, encryptionKey_emitted hm.lawful hT he⟩
    | encryptionKey s => exact ⟨_, rfl⟩
    | vote s => exact ⟨_, rfl⟩
    | decryption s => exact ⟨_, rfl⟩
    | _ => simp [kindOf] at h
  · have hn := trusteeFromElection_none.2 h
    cases t with
    | election s =>
      have : e = s.tx := by
        obtain ⟨sg, he⟩ := he
        have := (he.symm.trans ht : some (SignedTx.election ⟨e, sg⟩) = some (.election s))
        cases this
        rfl
      subst this
      exact ⟨[], by simp only [generateTransactions, processElection, hn]; rfl⟩
    | keyGenPublicKey s => exact ⟨_, encryptionKey_emitted hm.lawful hT he⟩
    | encryptionKey s => exact ⟨_, rfl⟩
    | vote s => exact ⟨_, rfl⟩
    | decryption s => exact ⟨_, rfl⟩
    | keyGenCommitment s =>
      exact ⟨[], by simp only [electionOf] at hel; simp only [generateTransactions, processKeygenCommitment, hel, hn, v_ok, Res.bind_def, Res.ok_bind, Res.pure_def]⟩
    | keyGenShare s =>
      exact ⟨[], by simp only [electionOf] at hel; simp only [generateTransactions, processKeygenShare, hel, hn, v_ok, Res.bind_def, Res.ok_bind, Res.pure_def]⟩
    | votingEnd s =>
      exact ⟨[], by simp only [electionOf] at hel; simp only [generateTransactions, processVotingEnd, hel, hn, v_ok, Res.bind_def, Res.ok_bind, Res.pure_def]⟩
    | mix s =>
      exact ⟨[], by simp only [electionOf] at hel; simp only [generateTransactions, processMix, hel, hn, v_ok, Res.bind_def, Res.ok_bind, Res.pure_def]⟩
    | partialDecryption s =>
      exact ⟨[], by simp only [electionOf] at hel; simp only [generateTransactions, processPartialDecryption, hel, hn, v_ok, Res.bind_def, Res.ok_bind, Res.pure_def]⟩
  · cases t with
    | keyGenCommitment s => exact ⟨[], ((C43_share_when_complete_partial N rng sk _ hm.lawful hT e s.tx s.sig he).1).2 (.inr hc)⟩
    | keyGenShare s => exact ⟨[], ((C43_public_key_when_complete_partial N rng sk _ hm.lawful hT e s.tx s.sig he).1).2 (.inr hc)⟩
    | _ => simp [kindOf] at h
  · cases t with
    | votingEnd s =>
      simp only [electionOf] at hel
      simp only [generateTransactions, processVotingEnd, hel, v_ok, Res.bind_def, Res.ok_bind]
      split
      · rename_i tr htr
        obtain ⟨cfg, hcfg⟩ := Option.isSome_iff_exists.1 hmix
        rw [hcfg]
        dsimp only
        have : tr.index ≠ 1 := by
          intro hi
          exact h1 (hi ▸ (trusteeFromElection_some htr).2)
        rw [if_neg this]
        exact ⟨_, rfl⟩
      · exact ⟨_, rfl⟩
    | _ => simp [kindOf] at h
  · cases t with
    | mix s =>
      simp only [electionOf] at hel
      simp only [generateTransactions, processMix, hel, v_ok, Res.bind_def, Res.ok_bind, hmix]
      split <;> exact ⟨_, rfl⟩
    | _ => simp [kindOf] at h

/-- The hypotheses can be met: a complete set-up by nodes. -/
example : ∃ m, Ledger Toy.node.toEnv m ∧ InStore m.toStore Toy.electionTx ∧ TrusteeKey Toy.election (Toy.key 11) :=
  ⟨MemStore.ofList Toy.nodeSetup, ledger_of_run (by decide +kernel), by rfl, Toy.trustee 1 11, by decide +kernel, by decide +kernel⟩

end CB.Server
