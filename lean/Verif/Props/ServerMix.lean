import Verif.Lemmas.ServerMix
import Verif.Props.Server
/-!
# C44, C45: the mixes and partial decryptions nodes submit
-/

namespace CB
open Spec Server

/-! ## C44 -/

theorem flatMap_ids {votes : List (Signed VoteTx)} {c : UInt32} (hn : (votes.map (·.tx.id)).Nodup) :
    (votes.flatMap fun v => (v.tx.encryptedVotes.filter fun ev => ev.contestIndex = c).map fun _ => v.tx.id) = votes.map (·.tx.id) ↔
    ∀ v ∈ votes, (v.tx.encryptedVotes.filter fun ev => ev.contestIndex = c).length = 1 := by
  induction votes with
  | nil => simp
  | cons v votes ih =>
    rw [List.map_cons, List.nodup_cons] at hn
    simp only [List.flatMap_cons, List.map_cons, List.mem_cons, forall_eq_or_imp]
    rw [← ih hn.2]
    have hmem : ∀ x, x ∈ (votes.flatMap fun v => (v.tx.encryptedVotes.filter fun ev => ev.contestIndex = c).map fun _ => v.tx.id) → x ∈ votes.map (·.tx.id) := by
      intro x hx
      simp only [List.mem_flatMap, List.mem_map] at hx ⊢
      obtain ⟨v, hv, _, _, rfl⟩ := hx
      exact ⟨v, hv, rfl⟩
    generalize v.tx.encryptedVotes.filter (fun ev => decide (ev.contestIndex = c)) = f
    match f with
    | [] =>
      simp only [List.map_nil, List.nil_append, List.length_nil, Nat.zero_ne_one, false_and, iff_false]
      intro h
      exact hn.1 (hmem _ (by rw [h]; simp))
    | [a] => simp
    | a :: b :: rest =>
      simp only [List.map_cons, List.cons_append, List.cons.injEq, true_and, List.length_cons]
      constructor
      · intro h
        exact absurd (by rw [← h]; simp) hn.1
      · rintro ⟨h, _⟩
        omega

theorem producePartials_kind {N : NodeEnv} {rng : Rng} {sk : SecretKey} {S : Store} {e : ElectionTx} {tr : Trustee} {c : UInt32} {mt : Option MixTx}
    {l : List SignedTx} (h : producePartials N rng sk S e tr c mt = .ok l) : ∀ x ∈ l, kindOf x = .partialDecryption := by
  simp only [producePartials, Res.bind_def, Res.bind_eq_ok] at h
  obtain ⟨_, _, _, _, _, _, items, _, h⟩ := h
  obtain ⟨h1, h2⟩ := partialsFrom_spec h
  intro x hx
  obtain ⟨i, hi, rfl⟩ := List.mem_iff_getElem.1 hx
  obtain ⟨⟨up, n, c, cts⟩, hit⟩ : ∃ y, items[i]? = some y := ⟨_, List.getElem?_eq_getElem (by omega)⟩
  obtain ⟨ds, _, hl⟩ := h2 i up n c cts hit
  rw [List.getElem?_eq_getElem hi] at hl
  rw [Option.some.inj hl]
  rfl

/-- what a node emits at the end of voting, with mixnet -/
theorem firstMix_emitted {N : NodeEnv} {rng : Rng} {sk : SecretKey} {S : Store} (hS : Lawful S) (hT : Typed S) {e : ElectionTx} {t : VotingEndTx} {sig : Signature}
    (he : ElectionAt S t.election e) {l : List SignedTx} (h : generateTransactions N rng sk S (.votingEnd ⟨t, sig⟩) = .ok l) {m : Signed MixTx} (hm : .mix m ∈ l) :
    e.mixConfig ≠ none ∧ ∃ (tr : Trustee) (votes : List (Signed VoteTx)) (key : EncryptionKeyTx) (ksig : Signature) (c : UInt32) (r : Bytes) (out : List (List Ciphertext)) (proof : ShuffleProof),
      tr.index = 1 ∧ tr.publicKey = N.edPublic sk ∧ IsTrustee e 1 (N.edPublic sk) ∧ AllVotes S e.id votes ∧
      S.getTransaction (singleId e.id .encryptionKey) = some (.encryptionKey ⟨key, ksig⟩) ∧
      N.shuffle (pedersenSeed 1 0 c 0) (Spec.contestVotes c votes).length (Spec.contestVotes c votes) key.encryptionKey r = .ok (out, proof) ∧
      m.tx = MixTx.new e.id none tr 0 c 0 (votes.flatMap fun v => (v.tx.encryptedVotes.filter fun ev => ev.contestIndex = c).map fun _ => v.tx.id) out proof ∧
      m.sig = N.edSign sk m.tx.toCbor.encode := by
  obtain ⟨esig, hel⟩ := getElection_at he
  obtain ⟨votes, _, hv, _, hall⟩ := getAll_votes hS hT e
  simp only [generateTransactions, processVotingEnd, hel, v_ok, Res.bind_def, Res.ok_bind] at h
  split at h
  · rename_i tr htr
    obtain ⟨hk, hit⟩ := trusteeFromElection_some htr
    split at h
    · rename_i cfg hcfg
      refine ⟨by rw [hcfg]; simp, ?_⟩
      split at h
      · rename_i hi
        simp only [Res.bind_eq_ok] at h
        obtain ⟨key, hkey, votes', hv', hf⟩ := h
        rw [hv] at hv'
        cases hv'
        obtain ⟨h1, h2⟩ := firstMixes_mem hf
        obtain ⟨i, hi', hget⟩ := List.mem_iff_getElem.1 hm
        have hi2 : i < (Server.contestVotes (votes.map (·.tx))).length := by omega
        obtain ⟨⟨c, vs⟩, hcv⟩ : ∃ x, (Server.contestVotes (votes.map (·.tx)))[i]? = some x := ⟨_, List.getElem?_eq_getElem hi2⟩
        obtain ⟨r, out, proof, hsh, hl⟩ := h2 i c vs hcv
        obtain ⟨_, hvs⟩ := ((contestVotes_spec _).2 c vs).1 (List.mem_of_getElem? hcv)
        rw [List.getElem?_eq_getElem hi', hget, Option.some.injEq, SignedTx.mix.injEq] at hl
        have hm' := hl
        unfold encryptionKey at hkey
        simp only [Res.bind_def, Res.bind_eq_ok, Res.unwrap_eq_ok, v_eq_ok, SignedTx.intoEncryptionKey_ok] at hkey
        obtain ⟨_, hkt, ⟨kt, ksig⟩, rfl, hkk⟩ := hkey
        cases hkk
        have e1 : vs.map (·.1) = votes.flatMap fun v => (v.tx.encryptedVotes.filter fun ev => ev.contestIndex = c).map fun _ => v.tx.id := by
          rw [hvs, List.map_flatMap, List.flatMap_map]
          simp only [List.map_map]
          rfl
        have e2 : vs.map (·.2) = Spec.contestVotes c votes := by
          rw [hvs, List.map_flatMap, List.flatMap_map, contestVotes_eq, List.flatMap_def]
          simp only [List.map_map]
          congr 1
        rw [e1] at hm'
        rw [e2, hi] at hsh
        exact ⟨tr, votes, kt, ksig, c, r, out, proof, hi, hk, hi ▸ hit, hall, hkt, hsh, by rw [hm'], by rw [hm']⟩
      · cases h
        simp at hm
    · split at h
      · have := producePartials_kind h _ hm
        cases this
      · cases h
        simp at hm
  · cases h
    simp at hm


/-- **C44** (first mixes) A mix that a node submits at the end of voting is the first mix of its contest, by trustee 1, and, if shuffle proofs are complete, it passes
validation against the same store exactly when every vote of the election has exactly one encrypted vote for that contest.  Missing: elections
where some voter skips a contest (`C44_first_mix_accepted_false`), and later mixes (`C44_later_mix_never_accepted`). -/
theorem C44_first_mix_accepted_partial (N : NodeEnv) (hN : SignCorrect N.toEnv) (hsh : ShuffleComplete N) (rng : Rng) (sk : SecretKey) (S : Store)
    (hS : Lawful S) (hT : Typed S) (e : ElectionTx) (t : VotingEndTx) (sig : Signature) (he : ElectionAt S t.election e) (l : List SignedTx)
    (h : generateTransactions N rng sk S (.votingEnd ⟨t, sig⟩) = .ok l) (m : Signed MixTx) (hm : .mix m ∈ l) :
    (m.tx.electionId = e.id ∧ m.tx.prevMixId = none ∧ m.tx.mixIndex = 0 ∧ m.tx.trusteeIndex = 1 ∧ m.tx.trusteePublicKey = N.edPublic sk) ∧
    ((SignedTx.mix m).validate N.toEnv S = .ok () ↔ OneVoteEach S e m.tx.contestIndex) := by
  obtain ⟨hcfg, tr, votes, key, ksig, c, r, out, proof, hi, hk, hit, hall, hkey, hs, htx, hsig⟩ := firstMix_emitted hS hT he h hm
  have hone : OneVoteEach S e c ↔ ∀ v ∈ votes, (v.tx.encryptedVotes.filter fun ev => ev.contestIndex = c).length = 1 := by
    constructor
    · intro ho v hv
      obtain ⟨h1, h2, _⟩ := (hall.1 (.vote v)).2 ⟨v, hv, rfl⟩
      exact ho v h1 h2
    · intro ho v h1 h2
      obtain ⟨v', hv', heq⟩ := (hall.1 (.vote v)).1 ⟨h1, h2, hT _ h1⟩
      cases heq
      exact ho v hv'
  have hnd : (votes.map (·.tx.id)).Nodup := by
    have := idLt_nodup hall.2
    rwa [List.map_map] at this
  have hc : m.tx.contestIndex = c := by rw [htx]; rfl
  rw [hc, hone, ← flatMap_ids hnd]
  refine ⟨by rw [htx]; exact ⟨rfl, rfl, rfl, hi, hk⟩, ?_⟩
  have hel : ElectionAt S e.id e := by rwa [electionAt_id hS he]
  constructor
  · intro hv
    obtain ⟨_, e', _, _, _, _, _, _, inputs, hmi, _⟩ := (MixTx.validateTx_ok hS).1 (SignedTx.validate_ok.1 hv).2.2
    rw [htx] at hmi
    cases hmi with
    | first _ _ hall' hids =>
      have hall' : AllVotes S e.id _ := hall'
      have heq := (allVotes_of_getMultiple hS).2 hall'
      rw [(allVotes_of_getMultiple hS).2 hall] at heq
      have := (List.map_injective_iff.2 fun a b h => SignedTx.vote.inj h) (Res.ok.inj heq)
      rw [this]
      rw [this] at hids
      exact hids
    | next hp => cases hp
  · intro hids
    obtain ⟨hlen, hver⟩ := hsh _ _ _ _ _ _ hs
    refine SignedTx.validate_ok.2 ⟨by rw [show (SignedTx.mix m).id = m.tx.id from rfl, htx]; rfl, ?_, ?_⟩
    · rintro k ⟨⟩
      show N.edVerify m.tx.trusteePublicKey m.tx.toCbor.encode m.sig = true
      rw [hsig, show m.tx.trusteePublicKey = N.edPublic sk by rw [htx]; exact hk]
      exact hN sk _
    · show m.tx.validateTx N.toEnv S = .ok ()
      rw [htx]
      refine (MixTx.validateTx_ok hS).2 ⟨rfl, e, hel, hcfg, by simp only [MixTx.new, hi, hk]; exact hit, by simp only [MixTx.new, hi]; simp, by simp only [MixTx.new, hi]; rfl, ?_,
        _, .first rfl rfl hall hids, by rintro pid prev sig ⟨⟩, key, ksig, hkey, ?_⟩
      · simp only [MixTx.new]
        rw [hlen, hids, List.length_map]
        rw [flatMap_ids hnd] at hids
        clear hs hlen hver hall hnd hone htx
        induction votes with
        | nil => rfl
        | cons v vs ih =>
          simp only [Spec.contestVotes, List.length_append, List.length_map, List.length_cons]
          rw [hids v (by simp), ih fun v hv => hids v (by simp [hv])]
          omega
      · simp only [MixTx.new, hi]
        exact hver

theorem Toy.node_sign : SignCorrect Toy.node.toEnv := by intro sk msg; show ((_ : Bytes) == _) = true; simp [Toy.node, Toy.env]

theorem Toy.node_shuffle : ShuffleComplete Toy.node := by
  intro seed inputs key random out proof h
  simp only [Toy.node, Except.ok.injEq, Prod.mk.injEq] at h
  obtain ⟨rfl, _⟩ := h
  refine ⟨List.length_reverse, ?_⟩
  show inputs.isPerm inputs.reverse = true
  rw [List.isPerm_iff]
  exact inputs.reverse_perm.symm

/-- an honest set-up, two votes for contest 0, and the end of voting -/
def votedLedger : List SignedTx := Toy.nodeSetup ++ [Toy.voteTx 31 "a", Toy.voteTx 32 "b", Toy.endTx]

theorem votedLedger_ledger : Ledger Toy.env (MemStore.ofList votedLedger) := ledger_of_run (by decide +kernel)

/-- there the node of trustee 1 submits a mix, and both votes have one encrypted vote for its contest -/
example : (match Toy.reaction 11 votedLedger Toy.endTx with
    | [.mix m] => decide (m.tx.contestIndex = 0 ∧ (SignedTx.mix m).validate Toy.env (MemStore.ofList votedLedger).toStore = .ok ())
    | _ => false) = true := by decide +kernel

/-- **C44** (which contests) At the end of voting the node of trustee 1 submits exactly one mix for each contest somebody voted in (and nothing else), each with a
different id. -/
theorem C44_first_mix_contests (N : NodeEnv) (rng : Rng) (sk : SecretKey) (S : Store) (hS : Lawful S) (hT : Typed S) (e : ElectionTx) (t : VotingEndTx) (sig : Signature)
    (he : ElectionAt S t.election e) (hcfg : e.mixConfig ≠ none) (hkey : ∃ tr, e.trustees.find? (fun tr => tr.publicKey == N.edPublic sk) = some tr ∧ tr.index = 1)
    (l : List SignedTx) (h : generateTransactions N rng sk S (.votingEnd ⟨t, sig⟩) = .ok l) :
    (∀ x ∈ l, kindOf x = .mix) ∧ (l.map SignedTx.id).Nodup ∧ (∀ c, VotedIn S e c ↔ ∃ m : Signed MixTx, .mix m ∈ l ∧ m.tx.contestIndex = c) ∧
    ∀ m m' : Signed MixTx, .mix m ∈ l → .mix m' ∈ l → m.tx.contestIndex = m'.tx.contestIndex → m = m' := by
  obtain ⟨esig, hel⟩ := getElection_at he
  obtain ⟨votes, _, hv, _, hall⟩ := getAll_votes hS hT e
  obtain ⟨cfg, hcfg⟩ := Option.ne_none_iff_exists'.1 hcfg
  obtain ⟨tr0, hf0, h1⟩ := hkey
  have htr : trusteeFromElection e (N.edPublic sk) = some { tr0 with numTrustees := e.trustees.length, threshold := e.trusteesThreshold } := by
    unfold trusteeFromElection ElectionTx.getFullTrustees
    rw [List.find?_map]
    show Option.map _ (e.trustees.find? fun tr => tr.publicKey == N.edPublic sk) = _
    rw [hf0]
    rfl
  simp only [generateTransactions, processVotingEnd, hel, v_ok, Res.bind_def, Res.ok_bind, htr, hcfg, h1, if_true, Res.bind_eq_ok] at h
  obtain ⟨key, hkey, votes', hv', hf⟩ := h
  rw [hv] at hv'
  cases hv'
  obtain ⟨k1, k2⟩ := firstMixes_mem hf
  obtain ⟨c1, c2⟩ := contestVotes_spec (votes.map (·.tx))
  -- what is at each position
  have hpos : ∀ (i : Nat) x, l[i]? = some x → ∃ c vs m, (Server.contestVotes (votes.map (·.tx)))[i]? = some (c, vs) ∧ x = .mix m ∧ m.tx.contestIndex = c ∧ m.tx.id = MixTx.buildId e.id c 0 0 1 := by
    intro i x hx
    have hi : i < l.length := by
      by_contra hh
      rw [List.getElem?_eq_none (by omega)] at hx
      cases hx
    obtain ⟨⟨c, vs⟩, hcv⟩ : ∃ y, (Server.contestVotes (votes.map (·.tx)))[i]? = some y := ⟨_, List.getElem?_eq_getElem (by omega)⟩
    obtain ⟨r, out, proof, _, hl⟩ := k2 i c vs hcv
    rw [hx] at hl
    exact ⟨c, vs, _, hcv, Option.some.inj hl, rfl, by simp [MixTx.new]⟩
  have hdist : ∀ (i j : Nat) c vs vs', (Server.contestVotes (votes.map (·.tx)))[i]? = some (c, vs) → (Server.contestVotes (votes.map (·.tx)))[j]? = some (c, vs') → i = j := by
    intro i j c vs vs' hi hj
    have lt : ∀ (i : Nat) y, (Server.contestVotes (votes.map (·.tx)))[i]? = some y → i < ((Server.contestVotes (votes.map (·.tx))).map Prod.fst).length := by
      intro i y hi
      rw [List.length_map]
      by_contra hh
      rw [List.getElem?_eq_none (by omega)] at hi
      cases hi
    refine (c1.getElem_inj_iff (hi := lt _ _ hi) (hj := lt _ _ hj)).1 ?_
    apply Option.some.inj
    rw [← List.getElem?_eq_getElem, ← List.getElem?_eq_getElem, List.getElem?_map, List.getElem?_map, hi, hj]
    rfl
  refine ⟨fun x hx => ?_, ?_, fun c => ⟨?_, ?_⟩, ?_⟩
  · obtain ⟨i, hi⟩ := List.mem_iff_getElem?.1 hx
    obtain ⟨_, _, _, _, rfl, _⟩ := hpos i x hi
    rfl
  · rw [List.nodup_iff_getElem?_ne_getElem?]
    intro i j hij hj heq
    rw [List.length_map] at hj
    rw [List.getElem?_map, List.getElem?_map, List.getElem?_eq_getElem hj, List.getElem?_eq_getElem (by omega : i < l.length)] at heq
    obtain ⟨c, vs, m, p1, p2, _, p4⟩ := hpos i _ (List.getElem?_eq_getElem (by omega))
    obtain ⟨c', vs', m', q1, q2, _, q4⟩ := hpos j _ (List.getElem?_eq_getElem hj)
    rw [p2, q2] at heq
    have heq : m.tx.id = m'.tx.id := Option.some.inj heq
    rw [p4, q4] at heq
    have hc := (mixUnique_inj (congrArg Identifier.uniqueInfo heq)).1
    subst hc
    exact absurd (hdist i j _ _ _ p1 q1) (by omega)
  · rintro ⟨v, hv1, hv2, ev, hev, rfl⟩
    obtain ⟨v', hv', heq⟩ := (hall.1 (.vote v)).1 ⟨hv1, hv2, hT _ hv1⟩
    cases heq
    have hmem := (c2 ev.contestIndex _).2 ⟨List.ne_nil_of_mem (a := (v.tx.id, ev.selections)) ?_, rfl⟩
    · obtain ⟨i, hi⟩ := List.mem_iff_getElem?.1 hmem
      obtain ⟨r, out, proof, _, hl⟩ := k2 i _ _ hi
      exact ⟨_, List.mem_of_getElem? hl, rfl⟩
    · simp only [List.mem_flatMap, List.mem_map, List.mem_filter, decide_eq_true_eq]
      exact ⟨v.tx, ⟨v, hv', rfl⟩, ev, ⟨hev, rfl⟩, rfl⟩
  · rintro ⟨m, hm, rfl⟩
    obtain ⟨i, hi⟩ := List.mem_iff_getElem?.1 hm
    obtain ⟨c, vs, m', p1, p2, rfl, _⟩ := hpos i _ hi
    cases p2
    obtain ⟨hne, hvs⟩ := (c2 _ vs).1 (List.mem_of_getElem? p1)
    obtain ⟨x, hx⟩ := List.exists_mem_of_ne_nil _ hne
    rw [hvs] at hx
    simp only [List.mem_flatMap, List.mem_map, List.mem_filter, decide_eq_true_eq] at hx
    obtain ⟨_, ⟨v, hvm, rfl⟩, ev, ⟨hev, hc⟩, _⟩ := hx
    obtain ⟨g1, g2, _⟩ := (hall.1 (.vote v)).2 ⟨v, hvm, rfl⟩
    exact ⟨v, g1, g2, ev, hev, hc⟩
  · intro m m' hm hm' hc
    obtain ⟨i, hi⟩ := List.mem_iff_getElem?.1 hm
    obtain ⟨j, hj⟩ := List.mem_iff_getElem?.1 hm'
    obtain ⟨c, vs, _, p1, p2, p3, _⟩ := hpos i _ hi
    obtain ⟨c', vs', _, q1, q2, q3, _⟩ := hpos j _ hj
    cases p2
    cases q2
    have : c = c' := p3.symm.trans (hc.trans q3)
    subst this
    have := hdist i j _ _ _ p1 q1
    subst this
    rw [hi] at hj
    exact SignedTx.mix.inj (Option.some.inj hj)

example : ElectionAt (MemStore.ofList votedLedger).toStore Toy.eid Toy.election ∧ Toy.election.mixConfig ≠ none ∧
    (∃ tr, Toy.election.trustees.find? (fun tr => tr.publicKey == Toy.node.edPublic (Toy.key 11)) = some tr ∧ tr.index = 1) :=
  ⟨⟨Toy.sig 1, rfl⟩, by decide, Toy.trustee 1 11, by decide +kernel, rfl⟩

/-- votes that cover different contests -/
def splitVote (k : UInt8) (c : UInt32) (name : String) : SignedTx := .vote ⟨Toy.vote (Toy.key k) [Toy.auth 21 (Toy.key k)] [⟨c, [Toy.ct name]⟩], Toy.sig k⟩
def splitLedger : List SignedTx := Toy.nodeSetup ++ [splitVote 31 0 "a", splitVote 32 1 "b", Toy.endTx]

/-- **C44** fails for first mixes in general: one voter votes in contest 0 only, another in contest 1 only; all transactions are accepted; the mix of contest 0 the node
submits lists the first vote only and is refused. -/
theorem C44_first_mix_accepted_false :
    ¬ ∀ (N : NodeEnv), SignCorrect N.toEnv → ShuffleComplete N → ∀ (rng : Rng) (sk : SecretKey) (m : MemStore), Ledger N.toEnv m → ∀ (t : VotingEndTx) (sig : Signature),
      InStore m.toStore (.votingEnd ⟨t, sig⟩) → ∀ l, generateTransactions N rng sk m.toStore (.votingEnd ⟨t, sig⟩) = .ok l →
      ∀ x ∈ l, x.validate N.toEnv m.toStore = .ok () := by
  intro h
  have hl : Ledger Toy.node.toEnv (MemStore.ofList splitLedger) := ledger_of_run (by decide +kernel)
  have hx : (match generateTransactions Toy.node Toy.rng (Toy.key 11) (MemStore.ofList splitLedger).toStore Toy.endTx with
    | .ok (x :: _) => decide (x.validate Toy.node.toEnv (MemStore.ofList splitLedger).toStore ≠ .ok ())
    | _ => false) = true := by decide +kernel
  split at hx
  · rename_i x _ hg
    exact of_decide_eq_true hx (h Toy.node Toy.node_sign Toy.node_shuffle Toy.rng (Toy.key 11) _ hl _ _ (by rfl) _ hg x (by simp))
  · cases hx

/-- **C44** (later mixes) A mix that a node submits in reaction to a mix never passes validation (`prev_mix_id` is not filled in, so the transaction claims to be a first mix
with an index that is not 0) — except, without overflow checks, when the mix index wraps around. -/
theorem C44_later_mix_never_accepted (N : NodeEnv) (rng : Rng) (sk : SecretKey) (S : Store) (hS : Lawful S) (e : ElectionTx) (t : MixTx) (sig : Signature)
    (he : ElectionAt S t.electionId e) (l : List SignedTx) (h : generateTransactions N rng sk S (.mix ⟨t, sig⟩) = .ok l) (m : Signed MixTx) (hm : .mix m ∈ l)
    (hov : N.overflowChecks = true ∨ t.mixIndex ≠ 255) : (SignedTx.mix m).validate N.toEnv S ≠ .ok () := by
  intro hv
  obtain ⟨esig, hel⟩ := getElection_at he
  simp only [generateTransactions, processMix, hel, v_ok, Res.bind_def, Res.ok_bind] at h
  split at h
  · rename_i tr htr
    split at h
    · rename_i cfg hcfg
      simp only [Res.bind_eq_ok] at h
      obtain ⟨next, hnext, h⟩ := h
      split at h
      · have := producePartials_kind h _ hm
        cases this
      · simp only [Res.bind_eq_ok] at h
        obtain ⟨next2, _, h⟩ := h
        split at h
        · simp only [Res.bind_eq_ok] at h
          obtain ⟨key, _, r, _, s, hs, hl⟩ := h
          cases hl
          rw [List.mem_singleton] at hm
          cases hm
          obtain ⟨rfl, _⟩ := sign_ok hs
          obtain ⟨_, e', _, _, _, _, _, _, inputs, hmi, _⟩ := (MixTx.validateTx_ok hS).1 (SignedTx.validate_ok.1 hv).2.2
          cases hmi with
          | first _ h0 _ _ =>
            have h0 : next = 0 := h0
            rw [Env.addU8_ok] at hnext
            obtain ⟨hno, hn⟩ := hnext
            rw [h0] at hn
            have h255 : t.mixIndex = 255 := by
              have := congrArg UInt8.toNat hn
              rw [UInt8.toNat_add] at this
              have hlt := t.mixIndex.toNat_lt
              apply UInt8.toNat_inj.1
              simp at this ⊢
              omega
            rcases hov with h | h
            · exact hno ⟨by rw [h255]; decide, h⟩
            · exact h h255
          | next hp => cases hp
        · cases h
          simp at hm
    · cases h
      simp at hm
  · cases h
    simp at hm


/-- **C44** (later mixes) The missing link is all that is wrong with them: were the id of the mix that it continues filled in before signing, the mix would pass validation,
for every mix of batch 0 that is stored and has as many outputs as vote ids (as all accepted ones have). -/
theorem C44_later_mix_lacks_only_its_link (N : NodeEnv) (hN : SignCorrect N.toEnv) (hsh : ShuffleComplete N) (rng : Rng) (sk : SecretKey) (S : Store) (hS : Lawful S)
    (e : ElectionTx) (t : MixTx) (sig : Signature) (he : ElectionAt S t.electionId e) (ht : InStore S (.mix ⟨t, sig⟩)) (hb : t.batch = 0)
    (hlen : t.mixedCiphertexts.length = t.voteIds.length) (l : List SignedTx)
    (h : generateTransactions N rng sk S (.mix ⟨t, sig⟩) = .ok l) (m : Signed MixTx) (hm : .mix m ∈ l) (hov : N.overflowChecks = true ∨ t.mixIndex < 254) :
    m.tx.mixIndex.toNat = t.mixIndex.toNat + 1 ∧ m.tx.contestIndex = t.contestIndex ∧ m.tx.prevMixId = none ∧
    ∀ tx', tx' = { m.tx with prevMixId := some t.id } → (SignedTx.mix ⟨tx', N.edSign sk tx'.toCbor.encode⟩).validate N.toEnv S = .ok () := by
  obtain ⟨esig, hel⟩ := getElection_at he
  have hid := electionAt_id hS he
  simp only [generateTransactions, processMix, hel, v_ok, Res.bind_def, Res.ok_bind] at h
  split at h
  · rename_i tr htr
    obtain ⟨hk, hit⟩ := trusteeFromElection_some htr
    split at h
    · rename_i cfg hcfg
      simp only [Res.bind_eq_ok] at h
      obtain ⟨next, hnext, h⟩ := h
      split at h
      · have := producePartials_kind h _ hm
        cases this
      · simp only [Res.bind_eq_ok] at h
        obtain ⟨next2, hnext2, h⟩ := h
        split at h
        · rename_i htri
          simp only [Res.bind_eq_ok] at h
          obtain ⟨key, hkey, r, hr, s, hs, hl⟩ := h
          cases hl
          rw [List.mem_singleton] at hm
          cases hm
          obtain ⟨rfl, _⟩ := sign_ok hs
          rw [Env.addU8_ok] at hnext hnext2
          obtain ⟨hno, rfl⟩ := hnext
          obtain ⟨hno2, rfl⟩ := hnext2
          have hlt : t.mixIndex.toNat < 254 := by
            rcases hov with ho | ho
            · have := mt (fun x => (⟨x, ho⟩ : _ ∧ _)) hno2
              simp at this
              omega
            · exact UInt8.lt_iff_toNat_lt.1 ho
          have hn1 : (t.mixIndex + 1).toNat = t.mixIndex.toNat + 1 := by
            rw [UInt8.toNat_add]; simp; omega
          refine ⟨hn1, rfl, rfl, ?_⟩
          rintro tx' rfl
          unfold mix at hr
          split at hr
          · rename_i r' hr'
            cases hr
            obtain ⟨hol, hver⟩ := hsh _ _ _ _ _ _ hr'
            unfold encryptionKey at hkey
            simp only [Res.bind_def, Res.bind_eq_ok, Res.unwrap_eq_ok, v_eq_ok, SignedTx.intoEncryptionKey_ok] at hkey
            obtain ⟨_, hkt, ⟨kt, ksig⟩, rfl, hkk⟩ := hkey
            cases hkk
            refine SignedTx.validate_ok.2 ⟨rfl, ?_, ?_⟩
            · rintro k ⟨⟩
              show N.edVerify tr.publicKey _ _ = true
              rw [hk]
              exact hN sk _
            · refine (MixTx.validateTx_ok hS).2 ⟨rfl, e, (by rw [← hid] at he; exact he), by rw [hcfg]; simp, (by rw [← hk] at hit; exact hit), ?_, ?_, hol.trans hlen,
                t.mixedCiphertexts, .next rfl ht rfl hid rfl hb.symm rfl, ?_, kt, ksig, hkt, hver⟩
              · rintro ⟨h0, _⟩
                have h0 : tr.index = 0 := h0
                have := congrArg UInt8.toNat (htri.symm.trans h0)
                rw [UInt8.toNat_add] at this
                simp at this
                omega
              · show t.mixIndex + 1 = tr.index - 1
                rw [htri]
                apply UInt8.toNat_inj.1
                rw [hn1, UInt8.toNat_sub, UInt8.toNat_add]
                simp
                omega
              · rintro pid prev psig ⟨⟩ hp ⟨h255, _⟩
                rw [show S.getTransaction t.id = some (.mix ⟨t, sig⟩) from ht] at hp
                cases hp
                rw [h255] at hlt
                exact absurd hlt (by decide)
          · cases hr
        · cases h
          simp at hm
    · cases h
      simp at hm
  · cases h
    simp at hm

/-- the ledger after the node of trustee 1 has mixed -/
def mixedLedger : List SignedTx := votedLedger ++ Toy.reaction 11 votedLedger Toy.endTx

/-- there the node of trustee 2 does submit a mix -/
example : (match Toy.reaction 12 mixedLedger (mixedLedger.getLastD Toy.endTx) with
    | [.mix m] => decide (m.tx.mixIndex = 1 ∧ (SignedTx.mix m).validate Toy.env (MemStore.ofList mixedLedger).toStore ≠ .ok ())
    | _ => false) = true := by decide +kernel

/-- and the mix it continues is of batch 0, stored, with as many outputs as vote ids -/
example : (match mixedLedger.getLastD Toy.endTx with
    | .mix s => decide (s.tx.batch = 0 ∧ s.tx.mixIndex = 0 ∧ s.tx.mixedCiphertexts.length = s.tx.voteIds.length ∧ s.tx.voteIds.length = 2)
    | _ => false) = true := by decide +kernel

/-- **C44** fails for later mixes: with two trustees, both needed, the second mix is refused although the nodes produced the whole history themselves. -/
theorem C44_later_mix_accepted_false :
    ¬ ∀ (N : NodeEnv), SignCorrect N.toEnv → ShuffleComplete N → ∀ (rng : Rng) (sk : SecretKey) (m : MemStore), Ledger N.toEnv m → ∀ (t : MixTx) (sig : Signature),
      InStore m.toStore (.mix ⟨t, sig⟩) → ∀ l, generateTransactions N rng sk m.toStore (.mix ⟨t, sig⟩) = .ok l →
      ∀ x ∈ l, x.validate N.toEnv m.toStore = .ok () := by
  intro h
  have hl : Ledger Toy.node.toEnv (MemStore.ofList mixedLedger) := ledger_of_run (by decide +kernel)
  have hx : (match mixedLedger.getLastD Toy.endTx with
    | .mix s => (match generateTransactions Toy.node Toy.rng (Toy.key 12) (MemStore.ofList mixedLedger).toStore (.mix s) with
      | .ok (x :: _) => decide (x.validate Toy.node.toEnv (MemStore.ofList mixedLedger).toStore ≠ .ok ())
      | _ => false)
    | _ => false) = true := by decide +kernel
  split at hx
  · rename_i s hs
    split at hx
    · rename_i x _ hg
      refine of_decide_eq_true hx (h Toy.node Toy.node_sign Toy.node_shuffle Toy.rng (Toy.key 12) _ hl s.tx s.sig ?_ _ hg x (by simp))
      have hmem : mixedLedger.getLast? = some (SignedTx.mix s) := by
        rw [List.getLastD_eq_getLast?] at hs
        cases hg : mixedLedger.getLast? with
        | none => rw [hg] at hs; cases hs
        | some t => rw [hg] at hs; exact congrArg some hs
      obtain ⟨before, hb⟩ := List.getLast?_eq_some_iff.1 hmem
      exact (MemStore.stored_iff mixedLedger (.mix s)).2 ⟨before, [], hb, by simp⟩
    · cases hx
  · cases hx

end CB
