import Verif.Spec.KeySecrecy
import Verif.Props.Secrecy
import Verif.Examples.ElGamal
/-!
# C91: shares of a trustee's key are for the trustees of the election
-/

namespace CB
open Spec Server

namespace Secrecy

variable {N : NodeEnv}

theorem encryptShares_mem {ε : Type} {rng : Rng} {sk : SecretKey} {el : Identifier} {g : N.Gen} {l : List (UInt8 × X25519Pub)} {k : Nat}
    {m m' : IndexMap UInt8 EncryptedShare} (h : (Trustee.encryptShares N rng sk el g k m l : Res ε _) = .ok m') {j : UInt8} {x : EncryptedShare} (hj : m'.get j = some x) :
    m.get j = some x ∨ ∃ key share nonce, (j, key) ∈ l ∧ N.genShare g j.toNat = .ok share ∧ x = EncryptedShare.new N nonce (Trustee.sharedSecret N sk el key) share := by
  induction l generalizing k m with
  | nil =>
    cases h
    exact .inl hj
  | cons a l ih =>
    obtain ⟨i, key⟩ := a
    simp only [Trustee.encryptShares, Res.bind_eq_ok] at h
    obtain ⟨share, hs, h⟩ := h
    rcases ih h with h' | ⟨key', share', nonce, hm, r⟩
    · rw [IndexMap.get_insert] at h'
      split at h'
      · rename_i hji
        subst hji
        cases h'
        refine .inr ⟨key, share, _, by simp, ?_, rfl⟩
        unfold Res.expect at hs
        split at hs
        · rename_i hs'
          cases hs
          exact hs'
        · cases hs
      · exact .inl h'
    · exact .inr ⟨key', share', nonce, by simp [hm], r⟩

theorem recv_any {ε ε' : Type} {cs : List (UInt8 × KeygenCommitment)} {g g' : N.Gen} (h : Trustee.receiveCommitments N g cs = (.ok g' : Res ε N.Gen)) :
    Trustee.receiveCommitments N g cs = (.ok g' : Res ε' N.Gen) := by
  induction cs generalizing g with
  | nil =>
    cases h
    rfl
  | cons a cs ih =>
    obtain ⟨i, c⟩ := a
    simp only [Trustee.receiveCommitments, Res.bind_eq_ok] at h ⊢
    obtain ⟨g1, h1, h2⟩ := h
    refine ⟨g1, ?_, ih h2⟩
    unfold Res.expect at h1 ⊢
    split at h1
    · rename_i he
      cases h1
      rfl
    · cases h1

/-- in reaction to what a node sends out shares of its polynomial -/
theorem share_emitted {rng : Rng} {k : SecretKey} {S : Store} (hS : Lawful S) (hT : Typed S) {x : SignedTx} (hx : InStore S x) {l : List SignedTx}
    (h : generateTransactions N rng k S x = .ok l) {s : Signed KeyGenShareTx} (hd : .keyGenShare s ∈ l) :
    ∃ e, ElectionAt S s.tx.election e ∧ e.id = s.tx.election ∧ s.tx.trusteePublicKey = N.edPublic k ∧ IsTrustee e s.tx.trusteeIndex (N.edPublic k) ∧
      ∀ j sealed, s.tx.shares.get j = some sealed →
        ∃ share, PolynomialShare N k e.id s.tx.trusteeIndex.toNat e.trusteesThreshold.toNat e.trustees.length j.toNat share ∧
        ∃ c : Signed KeyGenCommitmentTx, InStore S (.keyGenCommitment c) ∧ c.tx.id.electionId = e.id.electionId ∧ c.tx.trusteeIndex = j ∧
          SealedFor N k e.id c.tx.x25519PublicKey share sealed := by
  have hfol := (Setup.emitted hS hx h hd).2.2
  cases x with
  | keyGenCommitment t =>
    simp only [generateTransactions, processKeygenCommitment, Res.bind_def, Res.bind_eq_ok, v_eq_ok] at h
    obtain ⟨el, hg, h⟩ := h
    have hex : ElectionAt S t.tx.election el.tx := ⟨el.sig, Store.getElection_ok.1 hg⟩
    have hid := electionAt_id hS hex
    split at h
    · rename_i tr htr
      obtain ⟨ss, hall, hss⟩ := getAll_commits hS hT el.tx
      simp only [Res.bind_eq_ok] at h
      obtain ⟨commits, hc, h⟩ := h
      rw [hall] at hc
      cases hc
      split at h
      · simp only [Res.bind_eq_ok] at h
        obtain ⟨shares, hsh, s', hs', h⟩ := h
        cases h
        rw [List.mem_singleton] at hd
        cases hd
        obtain ⟨rfl, -⟩ := sign_ok hs'
        obtain ⟨hpk, htr'⟩ := trusteeFromElection_some htr
        refine ⟨el.tx, by rw [← hid] at hex; exact hex, rfl, hpk, htr', fun j sealed hj => ?_⟩
        simp only [Trustee.generateShares, Res.bind_eq_ok] at hsh
        obtain ⟨g, hg', hsh⟩ := hsh
        rcases encryptShares_mem hsh hj with h0 | ⟨key, share, nonce, hk, hshare, rfl⟩
        · simp at h0
        obtain ⟨ct, hct, hceq⟩ := List.mem_map.1 hk
        obtain ⟨c, hcm, rfl⟩ := List.mem_map.1 hct
        cases hceq
        obtain ⟨hcin, hcf, -⟩ := (hss.2 (.keyGenCommitment c)).1 (List.mem_map_of_mem hcm)
        refine ⟨share, ?_, c, hcin, hcf, rfl, nonce, rfl⟩
        have hnum : tr.threshold = el.tx.trusteesThreshold ∧ tr.numTrustees = el.tx.trustees.length := by
          have h1 := List.mem_of_find?_eq_some htr
          simp only [ElectionTx.getFullTrustees, List.mem_map] at h1
          obtain ⟨tr0, -, rfl⟩ := h1
          exact ⟨rfl, rfl⟩
        unfold Trustee.generator at hg'
        rw [hnum.1, hnum.2] at hg'
        exact ⟨_, g, recv_any hg', hshare⟩
      · cases h; cases hd
    · cases h; cases hd
  | _ => simp [Setup.follows, kindOf] at hfol

end Secrecy

/-- **C91** Take any schedule of submissions, blocks and hooks in which submissions carry their own ids, and commitments that are submitted under the name of the election are about it.
Then all shares of trustees' polynomials for the election that nodes ever send out are for trustees of the election. -/
theorem C91_shares_only_for_trustees_partial (N : NodeEnv) (e : ElectionTx) (evs : List BlockEvent) (hev : ∀ ev ∈ evs, OnBlocks (CommitsOwnName N.toEnv e) ev) (hrust : RustRun N evs)
    (S : Store) (hS : S = Exonum.toStore ((Chain.run N evs).schema N.toEnv)) (he : ElectionAt S e.id e) (s : Signed KeyGenShareTx) (hs : KeySharesSent N evs e.id s) :
    OnlyForTrustees N S e s.tx := by
  subst hS
  obtain ⟨y, hy, hd, hn⟩ := hs
  obtain ⟨n, hn', hR⟩ := Chain.run_sim (P := CommitsOwnName N.toEnv e) (fun _ => trivial) evs hev hrust
  have hlab : ∀ x ∈ (Chain.run N evs).blocks.flatten, Labelled x := fun x hx => hR.labelled x (List.mem_append_left _ hx)
  obtain ⟨w, k, rng, t, l, d, ht, hl, hdl, hdec⟩ := Secrecy.released_on_ledger hlab hrust hy
  rw [hd] at hdec
  cases hdec
  rw [← hR.ledger] at ht hl
  have H := Network.history_run (N := N) n hn'
  have hget : ∀ id, (Exonum.toStore ((Chain.run N evs).schema N.toEnv)).getTransaction id = (MemStore.ofList (Network.run N n).ledger).toStore.getTransaction id := by
    intro id
    have := (Exonum.accepted_spec N.toEnv _ hlab).2 id
    rw [← hR.ledger] at this
    exact this
  have hin : ∀ x, InStore (Exonum.toStore ((Chain.run N evs).schema N.toEnv)) x ↔ x ∈ (Network.run N n).ledger := by
    intro x
    unfold InStore
    rw [hget]
    exact Network.stored_iff_mem H.sound.nodup x
  have huniq : ∀ w e', ElectionAt (MemStore.ofList ((Network.run N n).ledger.take w)).toStore e.id e' → e' = e := by
    intro w e' he'
    obtain ⟨sg, he'⟩ := he'
    obtain ⟨sg', he⟩ := he
    have hx := (Network.get_some (H.sound.nodup.sublist ((List.take_sublist w (Network.run N n).ledger).map _))).1 he'
    have hy := (Network.get_some H.sound.nodup).2 ⟨List.mem_of_mem_take hx.1, hx.2⟩
    rw [hget] at he
    have : some (SignedTx.election ⟨e', sg⟩) = some (.election ⟨e, sg'⟩) := hy.symm.trans he
    cases this
    rfl
  have hL := H.sound.ledger w
  have hnd := H.sound.nodup.sublist ((List.take_sublist w (Network.run N n).ledger).map _)
  have hxin := (Network.stored_iff_mem hnd t).2 ht
  obtain ⟨e', he', heid, hpk, htr, hsh⟩ := Secrecy.share_emitted hL.lawful hL.replay.typedStore hxin hl hdl
  rw [hn] at he'
  have := huniq w e' he'
  subst this
  refine ⟨by rw [hpk]; exact htr, k, hpk.symm, fun j sealed hj => ?_⟩
  obtain ⟨share, hps, c, hc, hcf, hcj, hseal⟩ := hsh j sealed hj
  have hcm := List.mem_of_mem_take ((Network.stored_iff_mem hnd _).1 hc)
  obtain ⟨i, hi⟩ := List.getElem?_of_mem hcm
  obtain ⟨-, hsig, hv⟩ := SignedTx.validate_ok.1 (H.accepted i _ hi)
  obtain ⟨e2, he2, htr2⟩ := KeyGenCommitmentTx.validateTx_ok.1 hv
  have hname : c.tx.election = e'.id := by
    rcases H.listed i _ hi with hq | ⟨k', _, _, _, hq, w', hw', x', rng', l', hx', hl', hd'⟩
    · exact hq hsig c rfl hcf
    · have hL' := H.sound.ledger w'
      have hxin' := (Network.stored_iff_mem (H.sound.nodup.sublist ((List.take_sublist w' (Network.run N n).ledger).map _)) x').2 hx'
      obtain ⟨⟨e3, he3⟩, hfiled, -⟩ := Setup.emitted hL'.lawful hxin' hl' hd'
      have h1 := (Setup.emitted_own hL'.lawful hxin' hl' hd' (by simp [SetupKind, kindOf])).1
      have h2 := E2e.election_id_eq hL'.replay he3
      have h3 := E2e.election_id_eq hL.replay he'
      have h4 : c.tx.election = electionOf x' := h1
      have h5 : c.tx.id.electionId = (electionOf x').electionId := hfiled
      rw [h4, h2, h3, ← h5, hcf]
  rw [hname] at he2
  have := huniq i e2 he2
  subst this
  exact ⟨share, hps, c, (hin _).2 hcm, hname, hcj, hcj ▸ htr2, hsig, hseal⟩

namespace Toy
open Chain

/-- a stranger's election with themselves as its trustee 5 -/
def strangersB : SignedTx :=
  .election ⟨{ election none with id := eid2, authorityPublic := key 9, trustees := [trustee 5 9], trusteesThreshold := 1 }, sig 9⟩

/-- the stranger's commitment in it, under the name of the other election -/
def strayCommit : SignedTx :=
  .keyGenCommitment ⟨{ KeyGenCommitmentTx.new eid2 5 (key 9) (key 77) ⟨[]⟩ with id := KeyGenCommitmentTx.buildId eid 5 }, sig 9⟩

/-- a trustee's node sends the stranger a share of its key -/
def leak : List BlockEvent :=
  [.submit (.ofTx electionTx), .submit (.ofTx strangersB), .commit [0, 0], .commit [], .afterCommit (key 11) (fun _ => rng) 2, .submit (.ofTx strayCommit), .commit [0, 0], .commit [],
    .afterCommit (key 11) (fun _ => rng) 4]


/-- a stranger's election with the id of the election, in which its trustee has another index and the stranger is a trustee, too -/
def lookalikeSetup : SignedTx :=
  .election ⟨{ storedElection with authorityPublic := key 9, trustees := [trustee 2 1, trustee 3 9] }, sig 9⟩

/-- the stranger's commitment in it -/
def lookalikeCommit : SignedTx := .keyGenCommitment ⟨KeyGenCommitmentTx.new eid2 3 (key 9) (key 77) ⟨[]⟩, sig 9⟩

def leakLater : List BlockEvent := openPoll ++ [.submit ⟨key 9, eid2.toString, lookalikeSetup.asBytes⟩] ++ tick 14 ++
  [.submit ⟨key 9, (KeyGenCommitmentTx.buildId storedElection.id 3).toString, lookalikeCommit.asBytes⟩] ++ tick 16

/-- the last hook sends out shares for the election, one of them for a trustee of this index -/
def sentCheck (before after : Chain) (e : Identifier) (j : UInt8) : Bool :=
  (after.pool.drop before.pool.length).any fun y =>
    match SignedTx.fromBytes y.data with | .ok (.keyGenShare s) => decide (s.tx.election = e) && (s.tx.shares.get j).isSome | _ => false

theorem sent_of_check {evs pre : List BlockEvent} {k : SecretKey} {r : Nat → Rng} {h : Nat} (hl : pre ++ [.afterCommit k r h] <+: evs) {e : Identifier} {j : UInt8}
    (hc : sentCheck (run node pre) (run node (pre ++ [.afterCommit k r h])) e j = true) : ∃ s sealed, KeySharesSent node evs e s ∧ s.tx.shares.get j = some sealed := by
  obtain ⟨y, hy, hc⟩ := List.any_eq_true.1 hc
  revert hc
  split
  · rename_i s hs
    intro hc
    rw [Bool.and_eq_true] at hc
    obtain ⟨x, hx⟩ := Option.isSome_iff_exists.1 hc.2
    exact ⟨s, x, ⟨y, ⟨_, _, _, _, hl, hy⟩, hs, of_decide_eq_true hc.1⟩, hx⟩
  · simp

theorem not_only {S : Store} {e : ElectionTx} {s : KeyGenShareTx} {j : UInt8} {x : EncryptedShare} (hx : s.shares.get j = some x) (hj : j ∉ e.trustees.map (·.index)) :
    ¬ OnlyForTrustees node S e s := by
  rintro ⟨-, k, -, h⟩
  obtain ⟨_, -, c, -, -, -, ⟨tr, htr, hi, -⟩, -⟩ := h j x hx
  exact hj (List.mem_map.2 ⟨tr, htr, hi⟩)

theorem leak_rust : RustRun node leak := by
  refine rust_of_check (r := rng) (fun ev hev k r h heq => ?_) (by decide +kernel)
  subst heq
  simp only [leak, List.mem_cons, List.not_mem_nil, or_false, reduceCtorEq, false_or, BlockEvent.afterCommit.injEq] at hev
  aesop

theorem leak_labelled : ∀ ev ∈ leak, OnBlocks (fun _ => True) ev := by
  intro ev hev
  simp only [leak, List.mem_cons, List.not_mem_nil, or_false] at hev
  rcases hev with rfl | rfl | rfl | rfl | rfl | rfl | rfl | rfl | rfl
  · exact onBlocks_submit (by decide +kernel) trivial
  · exact onBlocks_submit (by decide +kernel) trivial
  · trivial
  · trivial
  · exact fun _ _ _ => trivial
  · exact onBlocks_submit (by decide +kernel) trivial
  · trivial
  · trivial
  · exact fun _ _ _ => trivial

theorem electionTx_fits : fitsCheck 127 (electionTx).toCbor = true := by decide +kernel

theorem toyElection_of_check {s : Exonum.Schema} (h : decide ((s.get (electionTx).id.toString).map (·.data) = some (electionTx).asBytes) = true) :
    ElectionAt (Exonum.toStore s) (election).id (election) :=
  ⟨sig 1, (stored_of_check electionTx_fits h : Exonum.getTransaction s (electionTx).id = some (forget electionTx))⟩

theorem leak_election : ElectionAt (Exonum.toStore ((run node leak).schema node.toEnv)) (election).id (election) :=
  toyElection_of_check (by decide +kernel)

theorem leak_sent : ∃ s sealed, KeySharesSent node leak (election).id s ∧ s.tx.shares.get 5 = some sealed :=
  sent_of_check (pre := leak.take 8) (k := key 11) (r := fun _ => rng) (h := 4) (List.prefix_refl _) (by decide +kernel)

theorem leakLater_rust : RustRun node leakLater := by
  refine rust_of_check (r := rng) (fun ev hev k r h heq => ?_) (by decide +kernel)
  subst heq
  simp only [leakLater, openPoll, tick, List.mem_append, List.mem_cons, List.not_mem_nil, or_false, reduceCtorEq, false_or, BlockEvent.afterCommit.injEq] at hev
  aesop

theorem anyLabel_submit {P : Event → Prop} {x : Exonum.Envelope} {t : SignedTx} (hx : x.data = t.asBytes) (hR : fitsCheck 127 t.toCbor = true) (h : P (.submit (forget t))) :
    OnBlocksAnyLabel P (.submit x) := by
  intro t' ht'
  rw [hx] at ht'
  have := (Exonum.C37_envelope_roundtrip t (fits_of_check _ _ hR)).1.symm.trans ht'
  injection this with this
  rw [← this]
  exact h

theorem tick_any {P : Event → Prop} (hP : ∀ k r p w, P (.react k r p w)) (h : Nat) : ∀ ev ∈ tick h, OnBlocksAnyLabel P ev := by
  intro ev hev
  simp only [tick, List.mem_cons, List.not_mem_nil, or_false] at hev
  rcases hev with rfl | rfl | rfl
  · trivial
  · trivial
  · exact fun _ _ _ => hP _ _ _ _

theorem openPoll_named : ∀ ev ∈ openPoll, OnBlocks (CommitsOwnName node.toEnv storedElection) ev := by
  intro ev hev
  simp only [openPoll, List.mem_append, List.mem_cons, List.not_mem_nil, or_false] at hev
  have ht : ∀ h, ∀ ev ∈ tick h, OnBlocks (CommitsOwnName node.toEnv storedElection) ev := by
    intro h ev hev
    simp only [tick, List.mem_cons, List.not_mem_nil, or_false] at hev
    rcases hev with rfl | rfl | rfl
    · trivial
    · trivial
    · exact fun _ _ _ => trivial
  rcases hev with ((((((rfl | h) | h) | h) | h) | h) | rfl | rfl) | h
  · exact onBlocks_submit clientTx_fits fun _ _ h => (by cases h)
  iterate 5 exact ht _ ev h
  · exact onBlocks_submit (by decide +kernel) fun _ _ h => (by cases h)
  · exact onBlocks_submit (by decide +kernel) fun _ _ h => (by cases h)
  · exact ht _ ev h

theorem leakLater_named : ∀ ev ∈ leakLater, OnBlocksAnyLabel (CommitsOwnName node.toEnv storedElection) ev := by
  intro ev hev
  simp only [leakLater, openPoll, List.mem_append, List.mem_cons, List.not_mem_nil, or_false] at hev
  have ht : ∀ h, ∀ ev ∈ tick h, OnBlocksAnyLabel (CommitsOwnName node.toEnv storedElection) ev := tick_any fun _ _ _ _ => trivial
  rcases hev with ((((((((((rfl | h) | h) | h) | h) | h) | rfl | rfl) | h) | rfl) | h) | rfl) | h
  · exact anyLabel_submit rfl clientTx_fits fun _ _ h => (by cases h)
  iterate 5 exact ht _ ev h
  · exact anyLabel_submit rfl (by decide +kernel) fun _ _ h => (by cases h)
  · exact anyLabel_submit rfl (by decide +kernel) fun _ _ h => (by cases h)
  · exact ht _ ev h
  · exact anyLabel_submit (t := lookalikeSetup) rfl (by decide +kernel) fun _ _ h => (by cases h)
  · exact ht _ ev h
  · refine anyLabel_submit (t := lookalikeCommit) rfl (by decide +kernel) fun _ s h hf => ?_
    cases h
    revert hf
    decide +kernel
  · exact ht _ ev h

theorem leakLater_election : ElectionAt (Exonum.toStore ((run node leakLater).schema node.toEnv)) storedElection.id storedElection := election_of_check (by decide +kernel)

theorem leakLater_sent : ∃ s sealed, KeySharesSent node leakLater storedElection.id s ∧ s.tx.shares.get 3 = some sealed :=
  sent_of_check (pre := leakLater.take 28) (k := key 1) (r := fun _ => rng) (h := 16) (List.prefix_refl _) (by decide +kernel)

end Toy

/-- The hypotheses are met: in the set-up of this election, after which votes are cast, a node sends out shares. -/
example : (∀ ev ∈ Toy.openPoll, OnBlocks (CommitsOwnName Toy.node.toEnv Toy.storedElection) ev) ∧ RustRun Toy.node Toy.openPoll ∧
    ElectionAt (Exonum.toStore ((Chain.run Toy.node Toy.openPoll).schema Toy.node.toEnv)) Toy.storedElection.id Toy.storedElection ∧
    ∃ s sealed, KeySharesSent Toy.node Toy.openPoll Toy.storedElection.id s ∧ s.tx.shares.get 1 = some sealed :=
  ⟨Toy.openPoll_named, Toy.openPoll_rust, Toy.openPoll_election,
    Toy.sent_of_check (pre := Toy.openPoll.take 6) (k := Toy.key 1) (r := fun _ => Toy.rng) (h := 4) ⟨Toy.openPoll.drop 7, rfl⟩ (by decide +kernel)⟩

/-- **C91** is false if commitments about other elections may be submitted under the name of the election, even if all submissions carry their own ids: a node sends a stranger, who is
no trustee of the election, a share of its polynomial. -/
theorem C91_shares_only_for_trustees_false :
    ¬ ∀ (N : NodeEnv) (e : ElectionTx) (evs : List BlockEvent), (∀ ev ∈ evs, OnBlocks (fun _ => True) ev) → RustRun N evs →
      ∀ S : Store, S = Exonum.toStore ((Chain.run N evs).schema N.toEnv) → ElectionAt S e.id e → ∀ s : Signed KeyGenShareTx, KeySharesSent N evs e.id s → OnlyForTrustees N S e s.tx := by
  intro h
  obtain ⟨s, x, hs, hx⟩ := Toy.leak_sent
  exact Toy.not_only hx (by decide +kernel) (h Toy.node Toy.election Toy.leak Toy.leak_labelled Toy.leak_rust _ rfl Toy.leak_election s hs)

/-- **C91** is also false if submissions may be labelled with other ids, and then at any time: with an election of the same id in which the trustee has another index, a stranger has
the trustee's node send them a share of its polynomial after the set-up, while votes are cast. -/
theorem C91_shares_sent_later_false :
    ¬ ∀ (N : NodeEnv) (e : ElectionTx) (evs : List BlockEvent), (∀ ev ∈ evs, OnBlocksAnyLabel (CommitsOwnName N.toEnv e) ev) → RustRun N evs →
      ∀ S : Store, S = Exonum.toStore ((Chain.run N evs).schema N.toEnv) → ElectionAt S e.id e → ∀ s : Signed KeyGenShareTx, KeySharesSent N evs e.id s → OnlyForTrustees N S e s.tx := by
  intro h
  obtain ⟨s, x, hs, hx⟩ := Toy.leakLater_sent
  exact Toy.not_only hx (by decide +kernel) (h Toy.node Toy.storedElection Toy.leakLater Toy.leakLater_named Toy.leakLater_rust _ rfl Toy.leakLater_election s hs)

namespace ElGamal
open Finset

set_option linter.unusedSectionVars false

variable {F G : Type} [Field F] [AddCommGroup G] [Module F G] [Encodable F] [Encodable G] [DecidableEq G]

theorem receiveCommitment_keeps {g g' : Gen F G} {i : Nat} {c : KeygenCommitment} (h : receiveCommitment g i c = .ok g') : g'.coeff = g.coeff ∧ g'.t = g.t := by
  unfold receiveCommitment at h
  split at h
  · split at h
    · cases h
      exact ⟨rfl, rfl⟩
    · cases h
  · cases h

theorem recv_keeps {P : Params F G} {B : NodeEnv} {cs : List (UInt8 × KeygenCommitment)} : ∀ {g g' : Gen F G}, Trustee.receiveCommitments (node P B) g cs = (.ok g' : VRes (Gen F G)) →
    g'.coeff = g.coeff ∧ g'.t = g.t := by
  induction cs with
  | nil =>
    intro g g' h
    cases h
    exact ⟨rfl, rfl⟩
  | cons a cs ih =>
    intro g g' h
    obtain ⟨i, c⟩ := a
    have h : (Res.expect (receiveCommitment g i.toNat c)).bind (fun g => (Trustee.receiveCommitments (node P B) g cs : VRes (Gen F G))) = .ok g' := h
    cases hr : receiveCommitment g i.toNat c with
    | error er =>
      rw [hr] at h
      cases h
    | ok g1 =>
      rw [hr] at h
      obtain ⟨a1, a2⟩ := ih (g := g1) h
      obtain ⟨b1, b2⟩ := receiveCommitment_keeps hr
      exact ⟨a1.trans b1, a2.trans b2⟩

theorem receiveShare_keeps {P : Params F G} {g g' : Gen F G} {i : Nat} {s : Scalar} (h : receiveShare P g i s = .ok g') : g'.comms = g.comms := by
  unfold receiveShare at h
  split at h
  · split at h
    · cases h
      rfl
    · cases h
  · cases h

theorem receiveShares_keep {P : Params F G} {s : Nat → Scalar} : ∀ {L : List Nat} {g g' : Gen F G}, L.foldlM (fun g k => receiveShare P g k (s k)) g = .ok g' → g'.comms = g.comms
  | [], g, g', h => by
    cases h
    rfl
  | k :: L, g, g', h => by
    rw [List.foldlM_cons] at h
    cases hr : receiveShare P g k (s k) with
    | error er => rw [hr] at h; cases h
    | ok g1 =>
      rw [hr] at h
      exact (receiveShares_keep h).trans (receiveShare_keeps hr)

/-- the key of an honest run -/
theorem honest_key (P : Params F G) (B : NodeEnv) {I : List Nat} {t : Nat} {seed : Nat → BArr 32} (hI : I.Nodup) (ht : 1 ≤ t) {run : KeyGenRun (node P B)} (h : run.Honest I t seed)
    {i : Nat} (hi : i ∈ I) : (node P B).partyKey (run.party i) = ⟨enc ((I.map fun k => P.coeff (seed k) 0).sum • P.g)⟩ := by
  obtain ⟨h1, -, g, h2, h3⟩ := h i hi
  have hfull := receive_commitments (F := F) (⟨i, t, I.length, P.coeff (seed i), [], []⟩ : Gen F G) (fun k => commitment P (P.coeff (seed k)) t) (fun k => by simp [commitment]) I [] (by simpa using hI)
  have he : run.full i = (⟨i, t, I.length, P.coeff (seed i), [] ++ I.map fun k => (k, commitment P (P.coeff (seed k)) t), []⟩ : Gen F G) := by
    exact Except.ok.inj (h1.symm.trans hfull)
  have hc := receiveShares_keep h2
  rw [he] at hc
  have h3 : finish g = .ok (run.party i) := h3
  unfold finish at h3
  split at h3
  · have h4 : run.party i = ⟨(g.shares.map Prod.snd).sum, (g.comms.map fun e => e.2.getD 0 0).sum⟩ := by
      exact (Except.ok.inj h3).symm
    rw [h4]
    show (⟨enc _⟩ : ElGamalKey) = _
    rw [hc]
    congr 2
    simp only [List.nil_append, List.map_map, Function.comp_def, commitment_zero P _ ht]
    rw [sum_map_smul, List.map_map]
    rfl
  · cases h3

/-- reading a ciphertext from shares of the trustees `I` at the places `Q` -/
def readWith (P : Params F G) (I Q : List Nat) (shares : Nat → Nat → Scalar) (c : Ciphertext) : Bytes :=
  match (dec c.raw : Option (G × G)) with
  | some (c1, c2) => P.extract (c2 - (Q.map fun q => lagrange F Q q * (I.map fun k => ((dec (shares k q).raw : Option F).getD 0)).sum).sum • c1)
  | none => []

end ElGamal

/-- **C91** Why this matters: with textbook threshold encryption, whoever holds the shares of all trustees at as many places as the threshold, for instance from other elections that
nodes took for this one, in which they have other indexes and there is another number of trustees, can read everything that is encrypted to the key of the election, without any
trustee. -/
theorem C91_shares_read_votes {F G : Type} [Field F] [AddCommGroup G] [Module F G] [Encodable F] [Encodable G] [DecidableEq G] (P : ElGamal.Params F G) (B : NodeEnv)
    (hF : ∀ i j : Nat, i ≤ 255 → j ≤ 255 → (i : F) = (j : F) → i = j) :
    ∃ read : List Nat → List Nat → (Nat → Nat → Scalar) → Ciphertext → Bytes,
      ∀ (el : Identifier) (I : List Nat) (t : Nat) (k : Nat → SecretKey), I.Nodup → 1 ≤ t →
      ∀ (run : KeyGenRun (ElGamal.node P B)) (key : ElGamalKey),
        run.Honest I t (fun i => B.hkdf el.toArray (k i).val (str "cryptoballot_trustee_generator")) → (∃ i ∈ I, (ElGamal.node P B).partyKey (run.party i) = key) →
      ∀ (Q : List Nat), Q.Nodup → (∀ q ∈ Q, q ≤ 255) → t ≤ Q.length →
      ∀ (index n : Nat → Nat) (shares : Nat → Nat → Scalar), (∀ i ∈ I, ∀ q ∈ Q, PolynomialShare (ElGamal.node P B) (k i) el (index i) t (n i) q (shares i q)) →
      ∀ m r, P.extract (P.embed m) = m → read I Q shares ((ElGamal.node P B).encrypt key m r) = m := by
  refine ⟨ElGamal.readWith P, ?_⟩
  intro el I t k hI ht run key hrun ⟨i, hi, hkey⟩ Q hQ hb hQt index n shares hsh m r hm
  rw [ElGamal.honest_key P B hI ht hrun hi] at hkey
  subst hkey
  have henc : (ElGamal.node P B).encrypt ⟨ElGamal.enc ((I.map fun i => P.coeff (B.hkdf el.toArray (k i).val (str "cryptoballot_trustee_generator")) 0).sum • P.g)⟩ m r =
      ⟨ElGamal.enc (P.draw r • P.g, P.embed m + P.draw r • ((I.map fun i => P.coeff (B.hkdf el.toArray (k i).val (str "cryptoballot_trustee_generator")) 0).sum • P.g))⟩ := by
    simp [ElGamal.node, ElGamal.encrypt, ElGamal.dec_enc]
  rw [henc]
  simp only [ElGamal.readWith, ElGamal.dec_enc]
  have hval : ∀ i ∈ I, ∀ q ∈ Q, (ElGamal.dec (shares i q).raw : Option F).getD 0 =
      ElGamal.value (P.coeff (B.hkdf el.toArray (k i).val (str "cryptoballot_trustee_generator"))) t (q : F) := by
    intro i hi q hq
    obtain ⟨cs, g, hg, hs⟩ := hsh i hi q hq
    obtain ⟨h1, h2⟩ := ElGamal.recv_keeps hg
    have hs : (Except.ok ⟨ElGamal.enc (ElGamal.value g.coeff g.t (q : F))⟩ : Except CryptoError Scalar) = .ok (shares i q) := hs
    injection hs with hs
    rw [← hs, h1, h2, ElGamal.dec_enc]
    rfl
  have hin := ElGamal.interpolation hF (I.map fun i => P.coeff (B.hkdf el.toArray (k i).val (str "cryptoballot_trustee_generator"))) t Q hQ hb hQt
  have h1 : (Q.map fun q => ElGamal.lagrange F Q q * (I.map fun i => ((ElGamal.dec (shares i q).raw : Option F).getD 0)).sum) =
      Q.map fun q => ElGamal.lagrange F Q q * ((I.map fun i => P.coeff (B.hkdf el.toArray (k i).val (str "cryptoballot_trustee_generator"))).map fun c => ElGamal.value c t (q : F)).sum := by
    refine List.map_congr_left fun q hq => ?_
    rw [List.map_map]
    congr 2
    exact List.map_congr_left fun i hi => hval i hi q hq
  rw [h1, hin, List.map_map]
  simp only [Function.comp_def, ElGamal.value_zero _ ht]
  rw [smul_comm, add_sub_cancel_right, hm]

/-- The hypotheses are met for every such scheme: honest runs and such shares exist; here trustees 1, 2 and 3, of which two are needed, and places 7 and 9. -/
example {F G : Type} [Field F] [AddCommGroup G] [Module F G] [Encodable F] [Encodable G] [DecidableEq G] (P : ElGamal.Params F G) (B : NodeEnv)
    (hF : ∀ i j : Nat, i ≤ 255 → j ≤ 255 → (i : F) = (j : F) → i = j) (el : Identifier) (k : Nat → SecretKey) :
    ∃ (run : KeyGenRun (ElGamal.node P B)) (key : ElGamalKey) (shares : Nat → Nat → Scalar),
      run.Honest [1, 2, 3] 2 (fun i => B.hkdf el.toArray (k i).val (str "cryptoballot_trustee_generator")) ∧ (∃ i ∈ [1, 2, 3], (ElGamal.node P B).partyKey (run.party i) = key) ∧
      ∀ i ∈ [1, 2, 3], ∀ q ∈ [7, 9], PolynomialShare (ElGamal.node P B) (k i) el (i + 4) 2 5 q (shares i q) := by
  obtain ⟨run, key, h1, h2, -⟩ := ElGamal.threshold_correct P B hF [1, 2, 3] 2 (fun i => B.hkdf el.toArray (k i).val (str "cryptoballot_trustee_generator")) (by decide) (by decide)
    (by decide) (by decide)
  exact ⟨run, key, fun i q => ⟨ElGamal.enc (ElGamal.value (P.coeff (B.hkdf el.toArray (k i).val (str "cryptoballot_trustee_generator"))) 2 (q : F))⟩, h1,
    ⟨1, by decide, h2 1 (by decide)⟩, fun i _ q _ => ⟨[], _, rfl, rfl⟩⟩

end CB
