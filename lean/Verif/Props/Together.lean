import Verif.Props.Foreign
import Verif.Props.NetworkE2e
import Verif.Props.Blocks
/-!
# Elections whose ids begin alike verify together (C88, C69, C70)
-/

namespace CB
open Spec Server

namespace E2e

theorem agree_own {txs : List SignedTx} (hn : (txs.map SignedTx.id).Nodup) (e : Identifier) :
    AgreeOn (MemStore.ofList txs).toStore (MemStore.ofList (ownOf e txs)).toStore e.electionId := by
  intro id hid
  have hn' : ((ownOf e txs).map SignedTx.id).Nodup := hn.sublist (List.filter_sublist.map _)
  refine Option.ext fun x => ?_
  have s1 := (C06_memstore_is_map txs).1 id x
  have s2 := (C06_memstore_is_map (ownOf e txs)).1 id x
  constructor
  · intro hx
    have hxi := (s1.1 hx).1
    subst hxi
    have := (Toy.stored_iff hn x).1 hx
    exact (Toy.stored_iff hn' x).2 (List.mem_filter.2 ⟨this, by simpa using hid⟩)
  · intro hx
    have hxi := (s2.1 hx).1
    subst hxi
    have := (Toy.stored_iff hn' x).1 hx
    exact (Toy.stored_iff hn x).2 (List.mem_filter.1 this).1

/-- A transaction that is valid where only one election is stored refers to no other. -/
theorem refers_own {E : Env} {S : Store} (hS : Lawful S) {e : BArr 15} (hown : ∀ x id, S.getTransaction id = some x → id.electionId = e) {t : SignedTx} (ht : t.id.electionId = e)
    (hv : t.validate E S = .ok ()) {e' : BArr 15} (hr : refersTo t e') : e' = e := by
  have hin := (SignedTx.validate_ok.1 hv).2.2
  have hat : ∀ {id : Identifier} {x : ElectionTx}, ElectionAt S id x → id.electionId = e := fun ⟨_, h⟩ => hown _ _ h
  rcases hr with h | ⟨s, pid, rfl, hp, h⟩ | ⟨s, rfl, h⟩ | ⟨s, rfl, h⟩
  · rw [← h]
    cases t with
    | election s => exact ht
    | keyGenCommitment s => obtain ⟨e, he, -⟩ := KeyGenCommitmentTx.validateTx_ok.1 hin; exact hat he
    | keyGenShare s => obtain ⟨e, he, -⟩ := KeyGenShareTx.validateTx_ok.1 hin; exact hat he
    | keyGenPublicKey s => obtain ⟨e, he, -⟩ := KeyGenPublicKeyTx.validateTx_ok.1 hin; exact hat he
    | encryptionKey s => obtain ⟨e, he, -⟩ := EncryptionKeyTx.validateTx_ok.1 hin; exact hat he
    | vote s => obtain ⟨-, e, he, -⟩ := VoteTx.validateTx_ok_store.1 hin; exact hat he
    | votingEnd s => obtain ⟨e, he, -⟩ := VotingEndTx.validateTx_ok.1 hin; exact hat he
    | mix s => obtain ⟨-, e, he, -⟩ := (MixTx.validateTx_ok hS).1 hin; exact hat he
    | partialDecryption s => obtain ⟨e, he, -⟩ := PartialDecryptionTx.validateTx_ok.1 hin; exact hat he
    | decryption s => obtain ⟨-, e, he, -⟩ := DecryptionTx.validateTx_ok.1 hin; exact hat he
  · obtain ⟨-, _, -, -, -, -, -, -, inputs, hi, -⟩ := (MixTx.validateTx_ok hS).1 hin
    rw [← h]
    cases hi with
    | first h0 => rw [h0] at hp; cases hp
    | next h0 hg =>
      rw [h0] at hp
      cases hp
      exact hown _ _ hg
  · obtain ⟨_, -, -, -, -, cts, hc, -⟩ := PartialDecryptionTx.validateTx_ok.1 hin
    rw [← h]
    have hI := encryptedVoteFromUpstream_sound hc
    revert hI
    generalize ElectionTx.mixConfig _ = cfg
    intro hI
    cases hI with
    | ofVote hg => exact hown _ _ hg
    | ofMix hg => exact hown _ _ hg
  · obtain ⟨-, _, -, cts, hc, -⟩ := DecryptionTx.validateTx_ok.1 hin
    rw [← h]
    have hI := encryptedVoteFromUpstream_sound hc
    revert hI
    generalize ElectionTx.mixConfig _ = cfg
    intro hI
    cases hI with
    | ofVote hg => exact hown _ _ hg
    | ofMix hg => exact hown _ _ hg

end E2e
open E2e

/-- **C88** (elections that begin alike) Given transactions in the order of ids: if the transactions filed under each of the elections verify by themselves, then they verify
together. -/
theorem C88_elections_verify_together (E : Env) (txs : List SignedTx) (hs : txs.Pairwise IdLt) (hne : txs ≠ [])
    (h : ∀ t ∈ txs, ∃ m, verify E (ownOf t.id txs) = .ok m) : verify E txs = .ok (MemStore.ofList txs) := by
  refine (C40_e2e_replays _ _ _).2 ⟨?_, rfl, ?_⟩
  · obtain ⟨t, ts, rfl⟩ := List.exists_cons_of_ne_nil hne
    obtain ⟨m, hm⟩ := h t (by simp)
    obtain ⟨⟨e, rest, he⟩, -⟩ := (C40_e2e_replays _ _ _).1 hm
    have hcons : ownOf t.id (t :: ts) = t :: ownOf t.id ts := List.filter_cons_of_pos (by simp)
    rw [hcons] at he
    exact ⟨e, ts, by rw [(List.cons.inj he).1]⟩
  · intro before t after heq
    obtain ⟨m, hm⟩ := h t (by rw [heq]; simp)
    have hv := ((C40_e2e_replays _ _ _).1 hm).2.2 (ownOf t.id before) t (ownOf t.id after) (by
      rw [heq]
      unfold ownOf
      rw [List.filter_append, List.filter_cons_of_pos (by simp)])
    have hn : (before.map SignedTx.id).Nodup := (idLt_nodup hs).sublist (by rw [heq]; simp)
    have hn' : ((ownOf t.id before).map SignedTx.id).Nodup := hn.sublist (List.filter_sublist.map _)
    have hL : Lawful (MemStore.ofList before).toStore := MemStore.lawful (MemStore.wf_ofList _)
    have hL' : Lawful (MemStore.ofList (ownOf t.id before)).toStore := MemStore.lawful (MemStore.wf_ofList _)
    rw [C34_elections_isolated E _ _ hL hL' t ?_]
    · exact hv
    · intro e' hr
      have := refers_own hL' (e := t.id.electionId) (fun x id hx => ?_) rfl hv hr
      · rw [this]
        exact agree_own hn t.id
      · have hxi := (((C06_memstore_is_map (ownOf t.id before)).1 id x).1 hx).1
        subst hxi
        have := (Toy.stored_iff hn' x).1 hx
        simpa using (List.mem_filter.1 this).2


theorem hex_prefix {e : BArr 15} {b : Identifier} (h : hexEncode e.val <+: b.toString) : b.electionId = e := by
  have hb : hexEncode b.electionId.val <+: b.toString := Client.prefix_own (List.prefix_refl _) rfl
  have hl : ∀ a : BArr 15, (hexEncode a.val).length = 30 := fun a => by rw [hexEncode_length, a.property]
  have : hexEncode b.electionId.val = hexEncode e.val := by
    rcases List.prefix_or_prefix_of_prefix hb h with h' | h'
    · exact h'.eq_of_length (by rw [hl, hl])
    · exact (h'.eq_of_length (by rw [hl, hl])).symm
  exact Subtype.ext (hexEncode_injective this)

theorem short_prefix {p : Str} (hp : p.length ≤ 30) {t : Identifier} (h : p <+: t.toString) : p <+: hexEncode t.electionId.val := by
  have hb : hexEncode t.electionId.val <+: t.toString := Client.prefix_own (List.prefix_refl _) rfl
  refine List.prefix_of_prefix_length_le h hb ?_
  rw [hexEncode_length, t.electionId.property]
  omega

theorem answer_own {S : Store} {p : Str} {txs : List SignedTx} (h : Answer S p txs) {e : Identifier} (hp : p <+: hexEncode e.electionId.val) :
    Answer S (hexEncode e.electionId.val) (ownOf e txs) := by
  refine ⟨h.1.filter _, fun t => ?_⟩
  rw [ownOf, List.mem_filter, h.2 t, decide_eq_true_eq]
  constructor
  · rintro ⟨⟨h1, -⟩, h3⟩
    exact ⟨h1, Client.prefix_own (List.prefix_refl _) h3⟩
  · rintro ⟨h1, h2⟩
    exact ⟨⟨h1, hp.trans h2⟩, hex_prefix h2⟩

theorem only_own (S : Store) (e : ElectionTx) : OnlyElection S e (hexEncode e.id.electionId.val) := ⟨List.prefix_refl _, fun _ _ h => hex_prefix h⟩

/-- **C69** (elections that begin alike) At every moment of every schedule: if all elections that have transactions whose ids start with the prefix asked for are held by their nodes, and
voters use different keys, `cryptoballot e2e` reports success.  (The command asks for 15 digits, of the 30 that the id of an election has.) -/
theorem C69_held_elections_verify_together (N : NodeEnv) (fits : Bytes → Prop) (hF : ThresholdCorrect N fits) (evs : List Event) (S : Store) (hS : S = (Network.run N evs).store.toStore)
    (p : Str) (hp : p.length ≤ 30) (txs : List SignedTx) (htxs : Answer S p txs) (hne : txs ≠ [])
    (hall : ∀ t ∈ txs, ∃ K e sk, t.id.electionId = e.id.electionId ∧ Nodes N K e sk ∧ (∀ ev ∈ evs, FairE2e N K e ev) ∧ ElectionAt S e.id e ∧ DistinctVoters S e) :
    E2e.verify N.toEnv txs = .ok (MemStore.ofList txs) := by
  refine C88_elections_verify_together _ _ htxs.1 hne fun t ht => ?_
  obtain ⟨K, e, sk, hid, hN, hq, he, hD⟩ := hall t ht
  have hown : ownOf t.id txs = ownOf e.id txs := by unfold ownOf; rw [hid]
  rw [hown]
  have hpe : p <+: hexEncode e.id.electionId.val := by rw [← hid]; exact short_prefix hp ((htxs.2 t).1 ht).2
  exact ⟨_, C69_held_elections_verify N fits hF K e sk hN evs hq S hS he hD _ (only_own S e) _ (answer_own htxs hpe)⟩

/-- **C70** (elections that begin alike) On the blockchain, after every schedule of blocks and hooks: if all elections that have filed transactions whose ids start with the prefix asked
for are held by their nodes, and voters use different keys, what the REST API answers verifies end to end. -/
theorem C70_blocks_verify_together (N : NodeEnv) (fits : Bytes → Prop) (hF : ThresholdCorrect N fits) (evs : List BlockEvent) (hrust : RustRun N evs)
    (S : Store) (hS : S = Exonum.toStore ((Chain.run N evs).schema N.toEnv)) (p : Str) (hp : p.length ≤ 30) (hne : ∃ t, InStore S t ∧ p <+: t.id.toString)
    (hall : ∀ t, InStore S t → p <+: t.id.toString → ∃ K e sk, t.id.electionId = e.id.electionId ∧ Nodes N K e sk ∧ (∀ ev ∈ evs, OnBlocks (FairE2e N K e) ev) ∧ ElectionAt S e.id e ∧
      DistinctVoters S e) :
    ∃ txs, Api.getAll ((Chain.run N evs).schema N.toEnv) (some p) = .ok txs ∧ E2e.verify N.toEnv txs = .ok (MemStore.ofList txs) := by
  obtain ⟨t₀, ht₀, hp₀⟩ := hne
  obtain ⟨K₀, e₀, -, -, -, hev₀, -⟩ := hall t₀ ht₀ hp₀
  obtain ⟨l, -, -, hlab, -⟩ := Chain.view (P := FairE2e N K₀ e₀) (K := K₀) (e := e₀) (fun _ => ⟨trivial, fun _ h => by cases h⟩) evs hev₀ hrust
  obtain ⟨txs, hget, hans⟩ := Chain.answer hlab p
  refine ⟨txs, hget, C88_elections_verify_together _ _ hans.1 (List.ne_nil_of_mem ((hans.2 t₀).2 ⟨hS ▸ ht₀, hp₀⟩)) fun t ht => ?_⟩
  obtain ⟨ht, htp⟩ := (hans.2 t).1 ht
  obtain ⟨K, e, sk, hid, hN, hev, he, hD⟩ := hall t (hS ▸ ht) htp
  obtain ⟨own, hget', hv⟩ := C70_blocks_verify N fits hF K e sk hN evs hev hrust S hS he hD _ (only_own S e)
  obtain ⟨own', hget'', hans'⟩ := Chain.answer hlab (hexEncode e.id.electionId.val)
  rw [hget'] at hget''
  cases hget''
  have hpe : p <+: hexEncode e.id.electionId.val := by rw [← hid]; exact short_prefix hp htp
  have hown := answer_own hans hpe
  have heq : ownOf t.id txs = own := by
    have h1 : ownOf t.id txs = ownOf e.id txs := by unfold ownOf; rw [hid]
    rw [h1]
    exact MemStore.idLt_ext hown.1 hans'.1 fun u => by rw [hown.2, hans'.2]
  rw [heq]
  exact ⟨_, hv⟩

/-- Two elections whose ids begin alike, each of which verifies. -/
example : Toy.shaded.Pairwise IdLt ∧ (∃ t ∈ Toy.shaded, t.id.electionId ≠ Toy.eid.electionId) ∧ ∀ t ∈ Toy.shaded, ∃ m, verify Toy.env (ownOf t.id Toy.shaded) = .ok m := by
  refine ⟨by unfold IdLt; decide +kernel, by decide +kernel, ?_⟩
  have h : ∀ t ∈ Toy.shaded, (match verify Toy.env (ownOf t.id Toy.shaded) with | .ok _ => true | _ => false) = true := by decide +kernel
  intro t ht
  have := h t ht
  split at this
  · rename_i m hm
    exact ⟨m, hm⟩
  · cases this

namespace Toy

/-- another election of the client, whose id begins alike -/
def secondElection : ElectionTx := { clientElection with id := neighbour 8 }
def secondTx : SignedTx := .election ⟨secondElection, sig 1⟩
def secondStored : ElectionTx := forgetElection secondElection

/-- the poll of C70, and the set-up of another election -/
def twoPolls : List BlockEvent := chainPoll ++ [.submit (.ofTx secondTx)] ++ tick 20 ++ tick 22

theorem secondNodes : Nodes node [key 1] secondStored fun _ => key 1 where
  trustees := ⟨by decide +kernel, by decide +kernel, by decide +kernel, by decide +kernel⟩
  keys := by decide +kernel
  held := by decide +kernel
  only := by decide +kernel
  sign := node_sign
  aes := aes_correct
  dh := dh_agrees

theorem second_ne : storedElection.id.electionId ≠ secondStored.id.electionId := by decide +kernel

theorem tick_fair2 (h : Nat) : ∀ ev ∈ tick h, OnBlocks (FairE2e node [key 1] secondStored) ev := by
  intro ev hev
  simp only [tick, List.mem_cons, List.not_mem_nil, or_false] at hev
  rcases hev with rfl | rfl | rfl
  · trivial
  · trivial
  · exact fun _ _ _ => ⟨List.mem_singleton_self _, fun _ h => by cases h⟩

theorem election_fair {s : Signed ElectionTx} {e : ElectionTx} : FairE2e node [key 1] e (.submit (.election s)) :=
  ⟨⟨fun _ => ⟨by simp [SetupKind, kindOf], by simp [kindOf]⟩, fun _ h => (by cases h), fun _ h => (by cases h)⟩, fun _ h => (by cases h)⟩

theorem vote_fair {s : Signed VoteTx} {e : ElectionTx} : FairE2e node [key 1] e (.submit (.vote s)) :=
  ⟨⟨fun _ => ⟨by simp [SetupKind, kindOf], by simp [kindOf]⟩, fun _ h => (by cases h), fun _ h => (by cases h)⟩, fun _ h => (by cases h)⟩

theorem secondTx_fits : fitsCheck 127 secondTx.toCbor = true := by decide +kernel

theorem twoPolls_fair : ∀ ev ∈ twoPolls, OnBlocks (FairE2e node [key 1] storedElection) ev := by
  intro ev hev
  simp only [twoPolls, List.mem_append, List.mem_cons, List.not_mem_nil, or_false] at hev
  rcases hev with ((h | rfl) | h) | h
  · exact chainPoll_fair ev h
  · exact onBlocks_submit secondTx_fits election_fair
  · exact tick_fair _ ev h
  · exact tick_fair _ ev h

theorem twoPolls_fair2 : ∀ ev ∈ twoPolls, OnBlocks (FairE2e node [key 1] secondStored) ev := by
  intro ev hev
  simp only [twoPolls, chainPoll, List.mem_append, List.mem_cons, List.not_mem_nil, or_false] at hev
  rcases hev with ((((((((((((rfl | h) | h) | h) | h) | h) | rfl | rfl | rfl) | h) | h) | h) | h) | rfl) | h) | h
  · exact onBlocks_submit clientTx_fits election_fair
  iterate 5 exact tick_fair2 _ ev h
  · exact onBlocks_submit (by decide +kernel) vote_fair
  · exact onBlocks_submit (by decide +kernel) vote_fair
  · refine onBlocks_submit (by decide +kernel)
      ⟨⟨fun _ => ⟨by simp [SetupKind, kindOf, endTx, forget], by simp [kindOf, endTx, forget]⟩, fun y h he => ?_, fun _ h => (by cases h)⟩, fun y h he => ?_⟩
    · cases h
      exact absurd (congrArg Identifier.electionId he) second_ne
    · cases h
      exact absurd he second_ne
  iterate 4 exact tick_fair2 _ ev h
  · exact onBlocks_submit secondTx_fits election_fair
  · exact tick_fair2 _ ev h
  · exact tick_fair2 _ ev h

theorem twoPolls_rust : RustRun node twoPolls := by
  refine rust_of_check (r := rng) (fun ev hev k r h heq => ?_) (by decide +kernel)
  subst heq
  simp only [twoPolls, chainPoll, tick, List.mem_append, List.mem_cons, List.not_mem_nil, or_false, reduceCtorEq, false_or, BlockEvent.afterCommit.injEq] at hev
  aesop

/-- what the example needs to know about the final state -/
def twoCheck (c : Chain) : Bool :=
  (c.blocks.flatten.all fun x => match SignedTx.fromBytes x.data with | .ok t => decide (x.id = t.id.toString) | _ => true) &&
  decide (((c.schema node.toEnv).get clientTx.id.toString).map (·.data) = some clientTx.asBytes) &&
  decide (((c.schema node.toEnv).get secondTx.id.toString).map (·.data) = some secondTx.asBytes) &&
  (((ledgerOf node c).ledger.filterMap fun t => match t with | .vote v => some v | _ => none).all fun v =>
      ((ledgerOf node c).ledger.filterMap fun t => match t with | .vote v => some v | _ => none).all fun w =>
        decide (v.tx.anonymousKey.val.take 10 = w.tx.anonymousKey.val.take 10 → v = w)) &&
  ((ledgerOf node c).ledger.all fun t => decide (t.id.electionId = storedElection.id.electionId ∨ t.id.electionId = secondStored.id.electionId)) &&
  decide (((ledgerOf node c).ledger.map fun t => decide (t.id.electionId = secondStored.id.electionId)).count true = 2)

theorem twoPolls_check : twoCheck (Chain.run node twoPolls) = true := by decide +kernel

theorem twoCheck_spec {c : Chain} (h : twoCheck c = true) {S : Store} (hS : S = Exonum.toStore (c.schema node.toEnv)) :
    ElectionAt S storedElection.id storedElection ∧ ElectionAt S secondStored.id secondStored ∧ (∀ e, DistinctVoters S e) ∧
    ∀ t, InStore S t → t.id.electionId = storedElection.id.electionId ∨ t.id.electionId = secondStored.id.electionId := by
  subst hS
  simp only [twoCheck, Bool.and_eq_true] at h
  obtain ⟨⟨⟨⟨⟨h1, h2⟩, h3⟩, h4⟩, h5⟩, -⟩ := h
  obtain ⟨hn, r, hr⟩ := ledgerOf_spec (N := node) (labelled_of_check h1)
  refine ⟨election_of_check h2, ⟨sig 1, (stored_of_check secondTx_fits h3 : Exonum.getTransaction _ secondTx.id = some (forget secondTx))⟩, ?_⟩
  rw [hr]
  exact ⟨fun e => distinct_of_check hn h4, fun t ht => of_decide_eq_true (List.all_eq_true.1 h5 _ ((Network.stored_iff_mem hn _).1 ht))⟩

end Toy

/-- The hypotheses are met: two elections whose ids begin alike, one of them counted and the other being set up. -/
example : RustRun Toy.node Toy.twoPolls ∧ ∃ S : Store, S = Exonum.toStore ((Chain.run Toy.node Toy.twoPolls).schema Toy.node.toEnv) ∧
    (∃ t, InStore S t ∧ Toy.eid.toString.take 15 <+: t.id.toString ∧ t.id.electionId = Toy.secondStored.id.electionId) ∧
    ∀ t, InStore S t → Toy.eid.toString.take 15 <+: t.id.toString → ∃ K e sk, t.id.electionId = e.id.electionId ∧ Nodes Toy.node K e sk ∧
      (∀ ev ∈ Toy.twoPolls, OnBlocks (FairE2e Toy.node K e) ev) ∧ ElectionAt S e.id e ∧ DistinctVoters S e := by
  refine ⟨Toy.twoPolls_rust, _, rfl, ?_⟩
  obtain ⟨h1, h2, h3, h4⟩ := Toy.twoCheck_spec Toy.twoPolls_check rfl
  refine ⟨?_, fun t ht _ => ?_⟩
  · obtain ⟨sg, h⟩ := h2
    exact ⟨.election ⟨Toy.secondStored, sg⟩, h, (by decide +kernel : Toy.eid.toString.take 15 <+: Toy.secondStored.id.toString), rfl⟩
  · rcases h4 t ht with h | h
    · exact ⟨_, _, _, h, Toy.storedNodes, Toy.twoPolls_fair, h1, h3 _⟩
    · exact ⟨_, _, _, h, Toy.secondNodes, Toy.twoPolls_fair2, h2, h3 _⟩

end CB
