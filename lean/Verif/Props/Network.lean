import Verif.Lemmas.NetDone
/-!
# Networks of nodes set elections up (C65)

The vocabulary is in `Spec/Network.lean`: `Permitted` schedules, who runs nodes (`Nodes`, `AllRun`), `Settled` states and the `SetUp` they lead to.
-/

namespace CB
open Spec Server

/-- **C65** Once the network has settled, the election is set up.  In every schedule (any order of deliveries, any repetition and delay of the nodes' reactions, any other
elections, votes and garbage submitted by anyone) in which only nodes submit set-up transactions of this election: when the election is stored, nothing of it is on its way
and all nodes have reacted, every trustee has posted its commitment, shares and public key, and the encryption key is stored.  It is the same key whatever the
schedule was. -/
theorem C65_settled_network_is_set_up (N : NodeEnv) (fits : Bytes → Prop) (hF : ThresholdCorrect N fits) (K : List SecretKey) (e : ElectionTx) (sk : UInt8 → SecretKey)
    (hN : Nodes N K e sk) (hK : AllRun N K e sk) :
    ∃ key, ∀ evs : List Event, (∀ ev ∈ evs, Permitted K e ev) → ElectionAt (Network.run N evs).store.toStore e.id e → Settled K e (Network.run N evs) →
      SetUp (Network.run N evs).store.toStore e key := by
  obtain ⟨run, key, hR⟩ := Setup.exists_run hF hN.trustees sk
  refine ⟨key, fun evs hq he hs => ?_⟩
  obtain ⟨hI, -⟩ := Setup.live_run hN hR evs hq he
  exact hI.setUp hN (hI.settled_complete hN hK he hs)

/-- **C65** The set-up can always be completed: after every permitted schedule that stored the election there are deliveries and reactions of the nodes alone, after which
the election is set up. -/
theorem C65_set_up_can_be_completed (N : NodeEnv) (fits : Bytes → Prop) (hF : ThresholdCorrect N fits) (K : List SecretKey) (e : ElectionTx) (sk : UInt8 → SecretKey)
    (hN : Nodes N K e sk) (hK : AllRun N K e sk) :
    ∃ key, ∀ evs : List Event, (∀ ev ∈ evs, Permitted K e ev) → ElectionAt (Network.run N evs).store.toStore e.id e →
      ∃ more : List Event, (∀ ev ∈ more, NodesOnly K ev) ∧ SetUp (Network.run N (evs ++ more)).store.toStore e key := by
  obtain ⟨run, key, hR⟩ := Setup.exists_run hF hN.trustees sk
  refine ⟨key, fun evs hq he => ?_⟩
  obtain ⟨more, h1, h2, h3⟩ := (Setup.live_run hN hR evs hq he).complete hN hR hK ⟨fun _ => BArr.fill 12 0, fun _ => []⟩
  refine ⟨more, h1, ?_⟩
  have : Network.run N (evs ++ more) = more.foldl (Network.step N) (Network.run N evs) := by simp [Network.run, List.foldl_append]
  rw [this]
  exact h2.inv.setUp hN h3

/-- **C65** Meanwhile no node fails: reacting to a set-up transaction of the election, on whatever part of the ledger the node has seen, succeeds. -/
theorem C65_set_up_reactions_succeed (N : NodeEnv) (fits : Bytes → Prop) (hF : ThresholdCorrect N fits) (K : List SecretKey) (e : ElectionTx) (sk : UInt8 → SecretKey)
    (hN : Nodes N K e sk) (evs : List Event) (hq : ∀ ev ∈ evs, Permitted K e ev) (he : ElectionAt (Network.run N evs).store.toStore e.id e)
    (k : SecretKey) (hk : k ∈ K) (rng : Rng) (view : Nat) (x : SignedTx) (hx : x ∈ (Network.run N evs).ledger.take view)
    (hkind : kindOf x = .election ∨ SetupKind (kindOf x)) (hf : x.id.electionId = e.id.electionId) :
    ∃ l, generateTransactions N rng k ((Network.run N evs).storeAt view).toStore x = .ok l := by
  obtain ⟨run, key, hR⟩ := Setup.exists_run hF hN.trustees sk
  obtain ⟨hI, -⟩ := Setup.live_run hN hR evs hq he
  obtain ⟨l, hl, -⟩ := (hI.orderly.take view).reacts hN hR hk rng hx hkind hf
  exact ⟨l, hl⟩

/-- set-up transactions of an election that only nodes submit carry the keys of nodes -/
theorem Setup.own_run (N : NodeEnv) (K : List SecretKey) (e : ElectionTx) (evs : List Event) (hq : ∀ ev ∈ evs, Permitted K e ev) :
    ∀ t, t ∈ (Network.run N evs).ledger ∨ t ∈ (Network.run N evs).pending → t.id.electionId = e.id.electionId → SetupKind (kindOf t) →
      (electionOf t).electionId = e.id.electionId ∧ ∀ i pk, trusteeOf t = some (i, pk) → ∃ k ∈ K, pk = N.edPublic k := by
  refine Network.run_induction (N := N) (P := fun s => ∀ t, t ∈ s.ledger ∨ t ∈ s.pending → t.id.electionId = e.id.electionId → SetupKind (kindOf t) →
      (electionOf t).electionId = e.id.electionId ∧ ∀ i pk, trusteeOf t = some (i, pk) → ∃ k ∈ K, pk = N.edPublic k) (Q := Permitted K e) ?_ ?_ evs hq
  · intro t ht
    simp [Network.empty] at ht
  · intro s ev hev hsound ih t ht hf hk
    cases ev with
    | submit u =>
      simp only [Network.step, List.mem_append, List.mem_singleton] at ht
      rcases ht with h | h | rfl
      · exact ih t (.inl h) hf hk
      · exact ih t (.inr h) hf hk
      · exact absurd hk (hev hf)
    | deliver i =>
      simp only [Network.step] at ht
      split at ht
      · exact ih t ht hf hk
      · rename_i u hu
        have hu := List.mem_of_getElem? hu
        split at ht
        · rcases ht with h | h
          · rcases List.mem_append.1 h with h | h
            · exact ih t (.inl h) hf hk
            · rw [List.mem_singleton] at h
              subst h
              exact ih t (.inr hu) hf hk
          · exact ih t (.inr (List.mem_of_mem_eraseIdx h)) hf hk
        · rcases ht with h | h
          · exact ih t (.inl h) hf hk
          · exact ih t (.inr (List.mem_of_mem_eraseIdx h)) hf hk
    | react k rng m v =>
      simp only [Network.step] at ht
      split at ht
      · exact ih t ht hf hk
      · rename_i x hx
        split at ht
        · rename_i l hl
          rcases ht with h | h
          · exact ih t (.inl h) hf hk
          · rcases List.mem_append.1 h with h | h
            · exact ih t (.inr h) hf hk
            · have hd := List.mem_of_mem_filter h
              have hin : InStore (MemStore.ofList (s.ledger.take v)).toStore x := (Network.stored_iff_mem (Network.nodup_take hsound.nodup v) x).2 (List.mem_of_getElem? hx)
              have hL := (hsound.ledger v).lawful
              obtain ⟨-, h1, -⟩ := Setup.emitted hL hin hl hd
              obtain ⟨h2, h3⟩ := Setup.emitted_own hL hin hl hd hk
              exact ⟨by rw [h2, ← h1]; exact hf, fun i pk ht => ⟨k, hev, h3 i pk ht⟩⟩
        · exact ih t ht hf hk

/-- **C65** No trustee can be left out: if an encryption key is stored for the election, every trustee runs a node.  (No assumption on the primitives or on the trustees is
needed for this one.) -/
theorem C65_every_trustee_is_needed (N : NodeEnv) (K : List SecretKey) (e : ElectionTx) (evs : List Event) (hq : ∀ ev ∈ evs, Permitted K e ev)
    (he : ElectionAt (Network.run N evs).store.toStore e.id e) (hkey : SlotFilled (Network.run N evs).store.toStore e.id .encryptionKey) :
    ∀ tr ∈ e.trustees, ∃ k ∈ K, N.edPublic k = tr.publicKey := by
  intro tr htr
  have hs := Network.sound_run N evs
  have hown := Setup.own_run N K e evs hq
  generalize Network.run N evs = s at *
  obtain ⟨x, hx⟩ := hkey
  have hxid := hs.whole.lawful.keyed _ _ hx
  have hin : InStore s.store.toStore x := by unfold InStore; rw [hxid]; exact hx
  have hty := hs.whole.replay.typedStore x hin
  rw [hxid] at hty
  cases x with
  | encryptionKey x =>
    have hf : (SignedTx.encryptionKey x).id.electionId = e.id.electionId := by rw [hxid]; rfl
    obtain ⟨hel, -⟩ := hown _ (.inl ((Network.stored_iff_mem hs.nodup _).1 hin)) hf (by simp [SetupKind, kindOf])
    obtain ⟨m0, hl0, hfresh, hv, hsteps⟩ := hs.whole.accepted hin
    have hext : Extends m0 s.store := (Extends.set_fresh hfresh).trans hsteps.extends
    obtain ⟨-, -, hv⟩ := SignedTx.validate_ok.1 hv
    obtain ⟨e', he', -, pks, hm, -, hall, -⟩ := EncryptionKeyTx.validateTx_ok.1 hv
    -- the election it names is `e`
    have hwf : ∀ {m : MemStore} {id : Identifier} {y : ElectionTx}, Ledger N.toEnv m → ElectionAt m.toStore id y → id = ⟨id.electionId, .election, zero16⟩ := by
      intro m id y hm hy
      have h1 := electionAt_id hm.lawful hy
      obtain ⟨sg, hg⟩ := hy
      obtain ⟨m1, -, -, hv1, -⟩ := hm.accepted hg
      rw [← h1]
      exact (ElectionTx.validateTx_ok.1 (SignedTx.validate_ok.1 hv1).2.2).1
    have hid : x.tx.election = e.id := by
      rw [hwf hl0 he', hwf hs.whole he]
      have : x.tx.election.electionId = e.id.electionId := hel
      rw [this]
    rw [hid] at he' hm
    have : e' = e := Setup.uniq_of_stored he e' (by obtain ⟨sg, hg⟩ := he'; exact ⟨sg, hext _ _ hg⟩)
    subst this
    obtain ⟨p, hp, -, h2⟩ := hall tr htr
    obtain ⟨l, hl, hmem, -⟩ := hl0.lawful.getMultiple e'.id .keyGenPublicKey
    have : l = pks.map .keyGenPublicKey := Res.ok.inj (hl.symm.trans hm)
    subst this
    obtain ⟨h3, h4, -⟩ := (hmem _).1 (List.mem_map_of_mem hp)
    obtain ⟨-, h5⟩ := hown _ (.inl ((Network.stored_iff_mem hs.nodup _).1 (hext _ _ h3))) h4 (by simp [SetupKind, kindOf])
    obtain ⟨k, hk, hpk⟩ := h5 _ _ rfl
    exact ⟨k, hk, by rw [← hpk, h2]⟩
  | _ => simp [kindOf, singleId] at hty

/-! ## A network that settles -/

namespace Toy

theorem node_threshold : ThresholdCorrect node fun _ => True := by
  intro I t seed hI hb ht hle
  have hc : ∀ (l : List Nat) (g : node.Gen), l.foldlM (fun g k => node.genReceiveCommitment g k (node.genCommitment (node.genNew (seed k) k t I.length))) g = .ok g := by
    intro l
    induction l with
    | nil => intro g; rfl
    | cons a l ih => exact fun g => ih g
  have hs : ∀ (l : List Nat) (g : node.Gen), l.foldlM (fun g k => node.genReceiveShare g k ⟨[1]⟩) g = .ok g := by
    intro l
    induction l with
    | nil => intro g; rfl
    | cons a l ih => exact fun g => ih g
  refine ⟨⟨fun i => i, fun _ _ => ⟨[1]⟩, fun i => i⟩, ⟨[5]⟩, ?_, fun _ _ => rfl, ?_⟩
  · intro i hi
    exact ⟨hc I _, fun j _ => ⟨rfl, rfl⟩, i, hs I _, rfl⟩
  · intro m r _
    refine ⟨fun i _ rnd => by show (_ == _) = true; simp [node], fun Q rnd hQ hQI hlen => ?_⟩
    show (if t ≤ _ then _ else _) = _
    rw [if_pos]
    · rfl
    · rw [List.map_map]
      refine Nat.le_trans hlen (List.Nodup.subperm (l₂ := List.eraseDups _) hQ fun i hi => ?_).length_le
      rw [List.mem_eraseDups]
      exact List.mem_map.2 ⟨i, hi, rfl⟩

/-- the nodes of trustees 1 and 2 and of the authority -/
def nodeKeys3 : List SecretKey := [key 11, key 12, key 1]
def trusteeKey (i : UInt8) : SecretKey := key (i + 10)

theorem nodes : Nodes node nodeKeys3 (election none) trusteeKey where
  trustees := ⟨by decide +kernel, by decide +kernel, by decide +kernel, by decide +kernel⟩
  keys := by decide +kernel
  held := by decide +kernel
  only := by decide +kernel
  sign := node_sign
  aes := aes_correct
  dh := dh_agrees

theorem allRun : AllRun node nodeKeys3 (election none) trusteeKey := ⟨by decide +kernel, key 1, by decide +kernel, by decide +kernel⟩

/-- all three nodes react to the first `n` transactions, and everything pending is delivered -/
def round (n : Nat) : List Event := (nodeKeys3.flatMap fun k => (List.range n).map fun m => .react k rng m n) ++ List.replicate 20 (.deliver 0)

/-- the election is submitted, and five times all nodes react to all that is stored -/
def schedule : List Event := [.submit (electionTx none), .deliver 0] ++ round 1 ++ round 3 ++ round 5 ++ round 7 ++ round 8

/-- everything is delivered and reacted to -/
def settledCheck (K : List SecretKey) (s : Network) : Bool :=
  s.pending.isEmpty && K.all fun k => (List.range s.ledger.length).all fun m => s.reacted.contains (k, m)

theorem settled_of_check {K : List SecretKey} {s : Network} (h : settledCheck K s = true) (e : ElectionTx) : Settled K e s := by
  simp only [settledCheck, Bool.and_eq_true, List.isEmpty_iff, List.all_eq_true, List.mem_range, List.contains_iff_mem] at h
  refine ⟨by simp [h.1], fun m t ht _ _ k hk => h.2 k hk m (List.getElem?_eq_some_iff.1 ht).1⟩

theorem stored_later {N : NodeEnv} {pre post : List Event} {e : ElectionTx} (h : ElectionAt (Network.run N pre).store.toStore e.id e) :
    ElectionAt (Network.run N (pre ++ post)).store.toStore e.id e := by
  obtain ⟨sg, hg⟩ := h
  refine ⟨sg, Network.extends_prefix (Network.sound_run N (pre ++ post)).nodup ?_ _ _ hg⟩
  have : Network.run N (pre ++ post) = post.foldl (Network.step N) (Network.run N pre) := by simp [Network.run, List.foldl_append]
  rw [this]
  exact Setup.steps_prefix N post _

theorem schedule_stored : ElectionAt (Network.run node schedule).store.toStore (election none).id (election none) := by
  unfold schedule
  simp only [List.append_assoc]
  exact stored_later ⟨sig 1, by rfl⟩
theorem schedule_settled : settledCheck nodeKeys3 (Network.run node schedule) = true := by decide +kernel

/-- somebody else's election, with the stranger as its trustee 9 -/
def blockElection : SignedTx := .election ⟨{ (election none) with id := eid2, authorityPublic := key 2, trustees := [trustee 9 2], trusteesThreshold := 1 }, sig 2⟩
/-- a commitment to that election, filed where trustee 1's commitment to the first election belongs -/
def blockCommit : SignedTx := .keyGenCommitment ⟨{ KeyGenCommitmentTx.new eid2 9 (key 2) (key 0) ⟨[]⟩ with id := (commitTx 1 11).id }, sig 2⟩

def blocked : List Event :=
  [.submit blockElection, .deliver 0, .submit blockCommit, .deliver 0, .submit (electionTx none), .deliver 0] ++ round 3 ++ round 4

theorem blocked_stored : ElectionAt (Network.run node blocked).store.toStore (election none).id (election none) := by
  unfold blocked
  simp only [List.append_assoc]
  exact stored_later ⟨sig 1, by rfl⟩
theorem blocked_settled : settledCheck nodeKeys3 (Network.run node blocked) = true := by decide +kernel

end Toy

/-- The hypotheses of the theorems above are met by a schedule that leads to a ledger of eight transactions. -/
example : (∀ ev ∈ Toy.schedule, Permitted Toy.nodeKeys3 (Toy.election none) ev) ∧
    ElectionAt (Network.run Toy.node Toy.schedule).store.toStore Toy.eid (Toy.election none) ∧ Settled Toy.nodeKeys3 (Toy.election none) (Network.run Toy.node Toy.schedule) ∧
    (Network.run Toy.node Toy.schedule).ledger.map kindOf =
      [.election, .keyGenCommitment, .keyGenCommitment, .keyGenShare, .keyGenShare, .keyGenPublicKey, .keyGenPublicKey, .encryptionKey] := by
  refine ⟨?_, Toy.schedule_stored, Toy.settled_of_check Toy.schedule_settled _, by decide +kernel⟩
  have hround : ∀ n, ∀ ev ∈ Toy.round n, Permitted Toy.nodeKeys3 (Toy.election none) ev := by
    intro n ev hev
    simp only [Toy.round, List.mem_append, List.mem_flatMap, List.mem_map, List.mem_replicate] at hev
    rcases hev with ⟨k, hk, m, -, rfl⟩ | ⟨-, rfl⟩
    · exact hk
    · trivial
  intro ev hev
  simp only [Toy.schedule, List.mem_append, List.mem_cons, List.not_mem_nil, or_false] at hev
  rcases hev with (((((rfl | rfl) | h) | h) | h) | h) | h
  · exact fun _ => by simp [SetupKind, kindOf, Toy.electionTx]
  · trivial
  all_goals exact hround _ ev h

/-- **C65 is false of the code if outsiders may submit what they like** instead of only what is `Permitted`: an outsider's commitment to an election of their own, filed in a
trustee's slot (ids of commitments are not checked, C16), makes the network settle with the election not set up. -/
theorem C65_outsiders_cannot_block_set_up_false :
    ¬ ∀ (N : NodeEnv) (fits : Bytes → Prop), ThresholdCorrect N fits → ∀ (K : List SecretKey) (e : ElectionTx) (sk : UInt8 → SecretKey), Nodes N K e sk → AllRun N K e sk →
      ∀ evs : List Event, (∀ ev ∈ evs, Outsiders K e ev) → ElectionAt (Network.run N evs).store.toStore e.id e → Settled K e (Network.run N evs) →
        ∃ key, SetUp (Network.run N evs).store.toStore e key := by
  intro h
  have hperm : ∀ ev ∈ Toy.blocked, Outsiders Toy.nodeKeys3 (Toy.election none) ev := by
    have hround : ∀ n, ∀ ev ∈ Toy.round n, Outsiders Toy.nodeKeys3 (Toy.election none) ev := by
      intro n ev hev
      simp only [Toy.round, List.mem_append, List.mem_flatMap, List.mem_map, List.mem_replicate] at hev
      rcases hev with ⟨k, hk, m, -, rfl⟩ | ⟨-, rfl⟩
      · exact hk
      · trivial
    intro ev hev
    simp only [Toy.blocked, List.mem_append, List.mem_cons, List.not_mem_nil, or_false] at hev
    rcases hev with ((rfl | rfl | rfl | rfl | rfl | rfl) | h) | h
    · right; rintro k ⟨⟩; decide +kernel
    · trivial
    · right; rintro k ⟨⟩; decide +kernel
    · trivial
    · left; rfl
    · trivial
    all_goals exact hround _ ev h
  obtain ⟨key, hkey⟩ := h Toy.node _ Toy.node_threshold Toy.nodeKeys3 (Toy.election none) Toy.trusteeKey Toy.nodes Toy.allRun Toy.blocked hperm Toy.blocked_stored
    (Toy.settled_of_check Toy.blocked_settled _)
  obtain ⟨s, hs, -⟩ := hkey.encryptionKey
  have : ((Network.run Toy.node Toy.blocked).store.toStore.getTransaction (singleId (Toy.election none).id .encryptionKey)).isNone = true := by decide +kernel
  rw [hs] at this
  cases this

end CB
