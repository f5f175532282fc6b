import Verif.Props.ServerMix
/-!
# C45: the partial decryptions nodes submit
-/

namespace CB
open Spec Server

/-- what `produce_partials` returns, item by item -/
theorem producePartials_spec {N : NodeEnv} (hN : SignCorrect N.toEnv) {rng : Rng} {sk : SecretKey} {S : Store} {e : ElectionTx} {tr : Trustee} {c : UInt32} {mt : Option MixTx}
    {l : List SignedTx} (h : producePartials N rng sk S e tr c mt = .ok l) : ∃ items, partialItems S e c mt = .ok items ∧ l.length = items.length ∧
      ∀ (i : Nat) up n c cts, items[i]? = some (up, n, c, cts) → ∃ x, l[i]? = some x ∧ IsPartialOf N.toEnv e tr.index (N.edPublic sk) up n c cts x := by
  simp only [producePartials, Res.bind_def, Res.bind_eq_ok] at h
  obtain ⟨_, _, _, _, _, _, items, hi, h⟩ := h
  obtain ⟨h1, h2⟩ := partialsFrom_spec h
  refine ⟨items, hi, h1, fun i up n c cts hit => ?_⟩
  obtain ⟨ds, hds, hl⟩ := h2 i up n c cts hit
  exact ⟨_, hl, _, rfl, rfl, rfl, rfl, rfl, rfl, rfl, (itemShares_length hds).1, rfl, hN sk _⟩

/-- ids of the partial decryptions of a list of items -/
theorem partial_ids {E : Env} {e : ElectionTx} {i : UInt8} {k : PublicKey} {items : List (Identifier × UInt16 × UInt32 × List Ciphertext)} {l : List SignedTx}
    (h1 : l.length = items.length) (h2 : ∀ (j : Nat) up n c cts, items[j]? = some (up, n, c, cts) → ∃ x, l[j]? = some x ∧ IsPartialOf E e i k up n c cts x) :
    l.map SignedTx.id = items.map fun it => PartialDecryptionTx.buildId e.id it.1 it.2.2.1 it.2.1 i := by
  apply List.ext_getElem?
  intro j
  rw [List.getElem?_map, List.getElem?_map]
  cases hj : items[j]? with
  | none =>
    rw [List.getElem?_eq_none_iff] at hj
    rw [List.getElem?_eq_none (by omega)]
    rfl
  | some it =>
    obtain ⟨up, n, c, cts⟩ := it
    obtain ⟨x, hx, p, rfl, _, _, _, _, _, _, _, hid, _⟩ := h2 j up n c cts hj
    rw [hx]
    simp only [Option.map_some, Option.some.injEq]
    exact hid

/-- **C45** (mixnet) In reaction to the last mix of a contest (the one with index `threshold - 1`), a trustee's node that returns normally submits one partial decryption per mix output,
in order, each naming its output by position; the ids are pairwise distinct if there are at most 65536 outputs.  Missing: larger mixes
(`C45_mix_partials_distinct_false`). -/
theorem C45_mix_partials_partial (N : NodeEnv) (hN : SignCorrect N.toEnv) (rng : Rng) (sk : SecretKey) (S : Store) (e : ElectionTx) (t : MixTx) (sig : Signature)
    (he : ElectionAt S t.electionId e) (hcfg : e.mixConfig ≠ none) (htr : TrusteeKey e (N.edPublic sk)) (hlast : t.mixIndex.toNat + 1 = e.trusteesThreshold.toNat)
    (l : List SignedTx) (h : generateTransactions N rng sk S (.mix ⟨t, sig⟩) = .ok l) :
    ∃ i, IsTrustee e i (N.edPublic sk) ∧ l.length = t.mixedCiphertexts.length ∧
      (∀ (n : Nat) cts, t.mixedCiphertexts[n]? = some cts →
        ∃ x, l[n]? = some x ∧ IsPartialOf N.toEnv e i (N.edPublic sk) t.id (UInt16.ofNat n) t.contestIndex cts x) ∧
      (t.id.txType = .mix → t.mixedCiphertexts.length ≤ 65536 → (l.map SignedTx.id).Nodup) := by
  obtain ⟨esig, hel⟩ := getElection_at he
  obtain ⟨cfg, hcfg⟩ := Option.ne_none_iff_exists'.1 hcfg
  obtain ⟨tr, htr⟩ := trusteeFromElection_of htr
  obtain ⟨hk, hit⟩ := trusteeFromElection_some htr
  have hlt := e.trusteesThreshold.toNat_lt
  have hth : e.trusteesThreshold = t.mixIndex + 1 := by
    apply UInt8.toNat_inj.1
    rw [UInt8.toNat_add]
    simp
    omega
  have hadd : (N.addU8 t.mixIndex 1 : SRes UInt8) = .ok (t.mixIndex + 1) := by
    rw [Env.addU8_ok]
    exact ⟨by simp; omega, rfl⟩
  simp only [generateTransactions, processMix, hel, v_ok, Res.bind_def, Res.ok_bind, htr, hcfg, hadd] at h
  rw [if_pos hth] at h
  obtain ⟨items, hi, h1, h2⟩ := producePartials_spec hN h
  simp only [partialItems, Res.ok.injEq] at hi
  refine ⟨tr.index, hit, by rw [h1, ← hi, List.length_mapIdx], ?_, ?_⟩
  · intro n cts hn
    exact h2 n _ _ _ _ (by rw [← hi, List.getElem?_mapIdx, hn]; rfl)
  · intro hty hle
    rw [partial_ids h1 h2, ← hi]
    rw [List.nodup_iff_getElem?_ne_getElem?]
    intro a b hab hb heq
    rw [List.length_map, List.length_mapIdx] at hb
    rw [List.getElem?_map, List.getElem?_map, List.getElem?_mapIdx, List.getElem?_mapIdx, List.getElem?_eq_getElem hb, List.getElem?_eq_getElem (by omega : a < t.mixedCiphertexts.length)] at heq
    simp only [Option.map_some, Option.some.injEq] at heq
    have hu := congrArg Identifier.uniqueInfo heq
    obtain ⟨_, _, hs⟩ := buildUniqueInfo_inj (.inr hty) (.inr hty) hu
    have hn : UInt16.ofNat a = UInt16.ofNat b := by
      generalize UInt16.ofNat a = x at hs ⊢
      generalize UInt16.ofNat b = y at hs ⊢
      cases hs <;> rfl
    have := congrArg UInt16.toNat hn
    simp at this
    omega

/-- without ciphertexts, partial decryptions can always be made -/
theorem partialsFrom_empty (N : NodeEnv) (rng : Rng) (sk : SecretKey) (e : ElectionTx) (tr : Trustee) (keys : List (UInt8 × X25519Pub)) (cs : List (UInt8 × KeygenCommitment))
    (shares : List (UInt8 × EncryptedShare)) (items : List (Identifier × UInt16 × UInt32 × List Ciphertext)) (h : ∀ it ∈ items, it.2.2.2 = []) (k : Nat) :
    ∃ l, partialsFrom N rng sk e tr keys cs shares k items = .ok l := by
  induction items generalizing k with
  | nil => exact ⟨[], rfl⟩
  | cons it items ih =>
    obtain ⟨up, n, c, cts⟩ := it
    have hc : cts = [] := h (up, n, c, cts) (by simp)
    subst hc
    obtain ⟨l, hl⟩ := ih (fun it hit => h it (by simp [hit])) (k + 1)
    have hs := sign_eq (N := N) (sk := sk) (tx := PartialDecryptionTx.new e.id up n tr.index c (N.edPublic sk) []) (by rintro k ⟨⟩; rfl)
    exact ⟨_, by simp only [partialsFrom, itemShares, Res.bind_def, Res.ok_bind, hs, hl, Res.pure_def]; rfl⟩

/-- a last mix with `k` outputs -/
def bigMix (k : Nat) : MixTx := MixTx.new Toy.eid (some Toy.mix1Tx.id) (Toy.trustee 2 12) 1 0 0 [] (List.replicate k []) ⟨[]⟩

/-- **C45** fails for mixes with more than 65536 outputs: the position is cut to 16 bits, so the first and the last of 65537 partial decryptions get the same id (the ledger can
store only one of them). -/
theorem C45_mix_partials_distinct_false :
    ¬ ∀ (N : NodeEnv), SignCorrect N.toEnv → ∀ (rng : Rng) (sk : SecretKey) (m : MemStore), Ledger N.toEnv m → ∀ (e : ElectionTx) (t : MixTx) (sig : Signature),
      ElectionAt m.toStore t.electionId e → e.mixConfig ≠ none → TrusteeKey e (N.edPublic sk) → t.id.txType = .mix → t.mixIndex.toNat + 1 = e.trusteesThreshold.toNat →
      ∀ l, generateTransactions N rng sk m.toStore (.mix ⟨t, sig⟩) = .ok l → (l.map SignedTx.id).Nodup := by
  intro h
  obtain ⟨k, hk⟩ : ∃ k, k = 65537 := ⟨_, rfl⟩
  have hl : Ledger Toy.node.toEnv (MemStore.ofList Toy.nodeSetup) := ledger_of_run (by decide +kernel)
  have hel : ElectionAt (MemStore.ofList Toy.nodeSetup).toStore (bigMix k).electionId Toy.election :=
    ⟨Toy.sig 1, show (MemStore.ofList Toy.nodeSetup).toStore.getTransaction Toy.eid = _ by rfl⟩
  have hkey : TrusteeKey Toy.election (Toy.node.edPublic (Toy.key 12)) := ⟨Toy.trustee 2 12, by decide +kernel, rfl⟩
  have hok : ∃ l, generateTransactions Toy.node Toy.rng (Toy.key 12) (MemStore.ofList Toy.nodeSetup).toStore (.mix ⟨(bigMix k), Toy.sig 12⟩) = .ok l := by
    obtain ⟨esig, he⟩ := getElection_at hel
    have htr : trusteeFromElection Toy.election (Toy.node.edPublic (Toy.key 12)) = some ⟨Toy.key 12, 2, 2, 2⟩ := by decide +kernel
    have hsh : (match (getAll (MemStore.ofList Toy.nodeSetup).toStore Toy.election.id .keyGenShare SignedTx.intoKeyGenShare).bind (Server.sharesFor ⟨Toy.key 12, 2, 2, 2⟩) with
      | .ok _ => true | _ => false) = true := by decide +kernel
    have hcs : (match getAll (MemStore.ofList Toy.nodeSetup).toStore Toy.election.id .keyGenCommitment SignedTx.intoKeyGenCommitment with
      | .ok _ => true | _ => false) = true := by decide +kernel
    split at hsh
    · rename_i shares hsh'
      obtain ⟨stx, h1, h2⟩ := Res.bind_eq_ok.1 hsh'
      split at hcs
      · rename_i commits hc
        have hnext : (Toy.node.addU8 (bigMix k).mixIndex 1 : SRes UInt8) = .ok 2 :=
          show (Toy.node.addU8 1 1 : SRes UInt8) = .ok 2 by decide
        obtain ⟨l, hl⟩ := partialsFrom_empty Toy.node Toy.rng (Toy.key 12) Toy.election ⟨Toy.key 12, 2, 2, 2⟩ (commits.map fun c => (c.trusteeIndex, c.x25519PublicKey))
          (commits.map fun c => (c.trusteeIndex, c.commitment)) shares
          ((bigMix k).mixedCiphertexts.mapIdx fun i cts => ((bigMix k).id, UInt16.ofNat i, (bigMix k).contestIndex, cts)) (by
            intro it hit
            obtain ⟨i, hi, rfl⟩ := List.mem_mapIdx.1 hit
            exact List.eq_of_mem_replicate (List.getElem_mem (l := List.replicate k []) hi)) 0
        refine ⟨l, ?_⟩
        simp only [generateTransactions, processMix, he, v_ok, Res.bind_def, Res.ok_bind, htr]
        show (Toy.node.addU8 (bigMix k).mixIndex 1).bind _ = _
        rw [hnext, Res.ok_bind, if_pos (show Toy.election.trusteesThreshold = 2 from rfl)]
        simp only [producePartials, h1, hc, h2, partialItems, Res.bind_def, Res.ok_bind]
        exact hl
      · cases hcs
    · cases hsh
  obtain ⟨l, hgen⟩ := hok
  have hnd := h Toy.node Toy.node_sign Toy.rng (Toy.key 12) _ hl Toy.election (bigMix k) (Toy.sig 12) hel (by decide) hkey rfl rfl l hgen
  obtain ⟨i, _, hlen, hx, _⟩ := C45_mix_partials_partial Toy.node Toy.node_sign Toy.rng (Toy.key 12) _ Toy.election (bigMix k) (Toy.sig 12) hel (by decide) hkey rfl l hgen
  have hlen : l.length = k := by rw [hlen]; exact List.length_replicate
  obtain ⟨x, hx1, p, rfl, _, _, _, _, _, _, _, hid, _⟩ := hx 0 [] (by show (List.replicate k [])[0]? = _; rw [List.getElem?_replicate, if_pos (by omega)])
  obtain ⟨y, hy1, q, rfl, _, _, _, _, _, _, _, hid', _⟩ := hx 65536 [] (by show (List.replicate k [])[65536]? = _; rw [List.getElem?_replicate, if_pos (by omega)])
  have := (List.nodup_iff_getElem?_ne_getElem?.1 hnd) 0 65536 (by omega) (by rw [List.length_map, hlen]; omega)
  apply this
  rw [List.getElem?_map, List.getElem?_map, hx1, hy1]
  show some p.tx.id = some q.tx.id
  rw [hid, hid']
  rfl


/-- **C45** (no mixnet) At the end of voting in an election without mixnet, a trustee's node that returns normally submits one partial decryption per encrypted vote, in the order of the
votes' ids and of the encrypted votes inside each, provided the election describes at least one contest.  The ids are pairwise distinct exactly when no two encrypted votes
are for the same contest in votes whose ids agree in the first 10 bytes of their last part (in particular in the same vote).  Missing: elections without contest descriptions
(`C45_no_contests_false`) and the remaining cases (`C45_vote_partials_distinct_false`). -/
theorem C45_vote_partials_partial (N : NodeEnv) (hN : SignCorrect N.toEnv) (rng : Rng) (sk : SecretKey) (S : Store) (hS : Lawful S) (hT : Typed S) (e : ElectionTx)
    (t : VotingEndTx) (sig : Signature) (he : ElectionAt S t.election e) (hcfg : e.mixConfig = none) (hcon : e.contests ≠ []) (htr : TrusteeKey e (N.edPublic sk))
    (l : List SignedTx) (h : generateTransactions N rng sk S (.votingEnd ⟨t, sig⟩) = .ok l) :
    ∃ i votes, IsTrustee e i (N.edPublic sk) ∧ AllVotes S e.id votes ∧
      let items := votes.flatMap fun v => v.tx.encryptedVotes.map fun ev => (v.tx.id, ev)
      l.length = items.length ∧
      (∀ (n : Nat) vid ev, items[n]? = some (vid, ev) → ∃ x, l[n]? = some x ∧ IsPartialOf N.toEnv e i (N.edPublic sk) vid 0 ev.contestIndex ev.selections x) ∧
      ((l.map SignedTx.id).Nodup ↔ (items.map fun it => (it.1.uniqueInfo.val.take 10, it.2.contestIndex)).Nodup) := by
  obtain ⟨esig, hel⟩ := getElection_at he
  obtain ⟨tr, htr⟩ := trusteeFromElection_of htr
  obtain ⟨hk, hit⟩ := trusteeFromElection_some htr
  obtain ⟨votes, _, hv, _, hall⟩ := getAll_votes hS hT e
  obtain ⟨con, cons, hcon⟩ := List.exists_cons_of_ne_nil hcon
  simp only [generateTransactions, processVotingEnd, hel, v_ok, Res.bind_def, Res.ok_bind, htr, hcfg, hcon] at h
  obtain ⟨items, hi, h1, h2⟩ := producePartials_spec hN h
  simp only [partialItems, hv, Res.bind_def, Res.ok_bind, Res.pure_def, Res.ok.injEq] at hi
  have hi' : items = (votes.flatMap fun v => v.tx.encryptedVotes.map fun ev => (v.tx.id, ev)).map fun it => (it.1, 0, it.2.contestIndex, it.2.selections) := by
    rw [← hi, List.map_flatMap, List.flatMap_map]
    simp only [List.map_map]
    rfl
  refine ⟨tr.index, votes, hit, hall, by rw [h1, hi', List.length_map], ?_, ?_⟩
  · intro n vid ev hn
    exact h2 n _ _ _ _ (by rw [hi', List.getElem?_map, hn]; rfl)
  · have hty : ∀ it ∈ votes.flatMap (fun v => v.tx.encryptedVotes.map fun ev => (v.tx.id, ev)), it.1.txType = .vote := by
      intro it hm
      simp only [List.mem_flatMap, List.mem_map] at hm
      obtain ⟨v, hv, ev, _, rfl⟩ := hm
      exact ((hall.1 (.vote v)).2 ⟨v, hv, rfl⟩).2.2
    rw [partial_ids h1 h2, hi', List.map_map]
    generalize (votes.flatMap fun v => v.tx.encryptedVotes.map fun ev => (v.tx.id, ev)) = its at hty ⊢
    have hiff : ∀ a ∈ its, ∀ b ∈ its, (PartialDecryptionTx.buildId e.id a.1 a.2.contestIndex 0 tr.index = PartialDecryptionTx.buildId e.id b.1 b.2.contestIndex 0 tr.index ↔
        (a.1.uniqueInfo.val.take 10, a.2.contestIndex) = (b.1.uniqueInfo.val.take 10, b.2.contestIndex)) := by
      intro a ha b hb
      constructor
      · intro heq
        obtain ⟨h1, _, h2⟩ := buildUniqueInfo_inj (.inl ⟨hty a ha, rfl⟩) (.inl ⟨hty b hb, rfl⟩) (congrArg Identifier.uniqueInfo heq)
        cases h2 with
        | vote _ _ h3 => rw [h1, h3]
        | mix h3 => rw [hty a ha] at h3; cases h3
      · intro heq
        simp only [Prod.mk.injEq] at heq
        have := buildUniqueInfo_congr (c := a.2.contestIndex) (i := tr.index) (SameItem.vote (hty a ha) (hty b hb) heq.1)
        simp only [PartialDecryptionTx.buildId]
        rw [this, heq.2]
    clear hi hi' h1 h2
    induction its with
    | nil => simp
    | cons a its ih =>
      simp only [List.map_cons, List.nodup_cons, List.mem_map, Function.comp]
      have ih := ih (fun x hx => hty x (by simp [hx])) (fun x hx y hy => hiff x (by simp [hx]) y (by simp [hy]))
      refine and_congr (not_congr ?_) ih
      constructor
      · rintro ⟨b, hb, heq⟩
        exact ⟨b, hb, (hiff b (by simp [hb]) a (by simp)).1 heq⟩
      · rintro ⟨b, hb, heq⟩
        exact ⟨b, hb, (hiff b (by simp [hb]) a (by simp)).2 heq⟩

/-- an election without mixnet that describes its contest -/
def plainElection : ElectionTx := { Toy.election none with contests := [⟨str "c", 0, .plurality, 1, false, [], .empty⟩] }
def plainTx : SignedTx := .election ⟨plainElection, Toy.sig 1⟩
/-- a set-up by nodes for it, in the way of `Toy.nodeSetup` -/
def plainSetup : List SignedTx :=
  let l0 := [plainTx]
  let l1 := l0 ++ Toy.reaction 11 l0 plainTx ++ Toy.reaction 12 l0 plainTx
  let l2 := l1 ++ Toy.reaction 11 l1 (l1.getLastD Toy.endTx) ++ Toy.reaction 12 l1 (l1.getLastD Toy.endTx)
  let l3 := l2 ++ Toy.reaction 11 l2 (l2.getLastD Toy.endTx) ++ Toy.reaction 12 l2 (l2.getLastD Toy.endTx)
  l3 ++ Toy.reaction 1 l3 (l3.getLastD Toy.endTx)
def plainVoted : List SignedTx := plainSetup ++ [Toy.voteTx 31 "a", Toy.voteTx 32 "b", Toy.endTx]

/-- two votes, two partial decryptions -/
example : Ledger Toy.env (MemStore.ofList plainVoted) ∧ plainElection.contests ≠ [] ∧ (Toy.reaction 11 plainVoted Toy.endTx).length = 2 :=
  ⟨ledger_of_run (by decide +kernel), by decide, by decide +kernel⟩

/-- with mixnet: two outputs in the last mix, two partial decryptions -/
example : (match Toy.mix2Tx with | .mix s => decide ((Toy.reaction 11 votedLedger (.mix s)).length = 2 ∧ s.tx.mixIndex.toNat + 1 = Toy.election.trusteesThreshold.toNat) | _ => false) = true := by
  decide +kernel

/-- a vote with two encrypted votes for the same contest -/
def doubleVote : SignedTx := .vote ⟨Toy.vote (Toy.key 31) [Toy.auth 21 (Toy.key 31)] [⟨0, [Toy.ct "a"]⟩, ⟨0, [Toy.ct "b"]⟩], Toy.sig 31⟩

/-- **C45** fails for distinctness without mixnet: a vote with two encrypted votes for one contest is accepted (C22), and the node submits two partial decryptions with the same id. -/
theorem C45_vote_partials_distinct_false :
    ¬ ∀ (N : NodeEnv), SignCorrect N.toEnv → ∀ (rng : Rng) (sk : SecretKey) (m : MemStore), Ledger N.toEnv m → ∀ (t : VotingEndTx) (sig : Signature),
      InStore m.toStore (.votingEnd ⟨t, sig⟩) → ∀ l, generateTransactions N rng sk m.toStore (.votingEnd ⟨t, sig⟩) = .ok l → (l.map SignedTx.id).Nodup := by
  intro h
  have hl : Ledger Toy.node.toEnv (MemStore.ofList (plainSetup ++ [doubleVote, Toy.endTx])) := ledger_of_run (by decide +kernel)
  have hx : (match generateTransactions Toy.node Toy.rng (Toy.key 11) (MemStore.ofList (plainSetup ++ [doubleVote, Toy.endTx])).toStore Toy.endTx with
    | .ok l => decide (¬ (l.map SignedTx.id).Nodup)
    | _ => false) = true := by decide +kernel
  split at hx
  · rename_i l hg
    exact of_decide_eq_true hx (h Toy.node Toy.node_sign Toy.rng (Toy.key 11) _ hl _ _ (by rfl) _ hg)
  · cases hx

/-- the ledger of an election without mixnet and without contest descriptions -/
def bareVoted : List SignedTx := Toy.nodeSetup none ++ [Toy.voteTx 31 "a", Toy.voteTx 32 "b", Toy.endTx]

/-- **C45** fails when the election describes no contest (which validation does not require): votes are accepted and nothing is ever decrypted, because nodes only act inside a loop over
the contests. -/
theorem C45_no_contests_false :
    ¬ ∀ (N : NodeEnv), SignCorrect N.toEnv → ∀ (rng : Rng) (sk : SecretKey) (m : MemStore), Ledger N.toEnv m → ∀ (e : ElectionTx) (t : VotingEndTx) (sig : Signature),
      InStore m.toStore (.votingEnd ⟨t, sig⟩) → ElectionAt m.toStore t.election e → e.mixConfig = none → TrusteeKey e (N.edPublic sk) →
      ∀ l, generateTransactions N rng sk m.toStore (.votingEnd ⟨t, sig⟩) = .ok l → ∀ v ev, InStore m.toStore (.vote v) → v.tx.election = e.id → ev ∈ v.tx.encryptedVotes →
        ∃ p : Signed PartialDecryptionTx, .partialDecryption p ∈ l ∧ p.tx.upstreamId = v.tx.id := by
  intro h
  have hl : Ledger Toy.node.toEnv (MemStore.ofList bareVoted) := ledger_of_run (by decide +kernel)
  have hx : (match generateTransactions Toy.node Toy.rng (Toy.key 11) (MemStore.ofList bareVoted).toStore Toy.endTx with
    | .ok [] => true
    | _ => false) = true := by decide +kernel
  split at hx
  · rename_i hg
    obtain ⟨p, hp, _⟩ := h Toy.node Toy.node_sign Toy.rng (Toy.key 11) _ hl (Toy.election none) _ _ (by rfl) ⟨Toy.sig 1, rfl⟩ rfl ⟨Toy.trustee 1 11, by decide +kernel, rfl⟩ _ hg
      ⟨Toy.vote (Toy.key 31) [Toy.auth 21 (Toy.key 31)] [⟨0, [Toy.ct "a"]⟩], Toy.sig 31⟩ ⟨0, [Toy.ct "a"]⟩ (by rfl) rfl (by simp [Toy.vote])
    cases hp
  · cases hx

end CB
