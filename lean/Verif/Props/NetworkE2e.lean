import Verif.Lemmas.NetE2e
import Verif.Props.NetworkMix
import Verif.Props.Client
/-!
# C69: elections that nodes hold verify, and `cryptoballot election generate`'s are counted right
-/

namespace CB
open Spec Server

theorem _root_.CB.Spec.OnlyElection.filed {S : Store} {e : ElectionTx} {p : Str} (hO : OnlyElection S e p) {t : SignedTx} (ht : InStore S t) :
    p <+: t.id.toString ↔ t.id.electionId = e.id.electionId := by
  refine ⟨hO.2 t ht, fun h => hO.1.trans ?_⟩
  unfold Identifier.toString Identifier.toArray
  rw [List.append_assoc, hexEncode_append, h]
  exact List.prefix_append _ _

theorem Setup.CleanHeld.verifies {N : NodeEnv} {K : List SecretKey} {e : ElectionTx} {sk : UInt8 → SecretKey} {run : KeyGenRun N} {key : ElGamalKey} {s : Network}
    (h : Setup.CleanHeld N K e sk run key s) (he : ElectionAt s.store.toStore e.id e) (hD : DistinctVoters s.store.toStore e) {p : Str} (hO : OnlyElection s.store.toStore e p)
    {txs : List SignedTx} (htxs : Answer s.store.toStore p txs) : E2e.verify N.toEnv txs = .ok (MemStore.ofList txs) := by
  have hl := h.ledger hD (P := fun eid => eid = e.id.electionId) (fun t _ ht => ht) s.ledger.length
  rw [List.take_length] at hl
  refine E2e.C59_honest_ledger_verifies_partial N.toEnv _ _ hl txs ?_ htxs.1 fun t => ?_
  · rintro rfl
    obtain ⟨sg, hs⟩ := he
    have := (htxs.2 (.election ⟨e, sg⟩)).2 ⟨hs, (hO.filed (t := .election ⟨e, sg⟩) hs).2 rfl⟩
    cases this
  · rw [htxs.2]
    exact and_congr_right fun ht => hO.filed ht

/-- **C69** (elections verify) After every schedule of an election, with or without mixnet, in which the voters' keys differ: the e2e command reports success on the answer to its
query, provided that the transactions of no other election are in the answer. -/
theorem C69_held_elections_verify (N : NodeEnv) (fits : Bytes → Prop) (hF : ThresholdCorrect N fits) (K : List SecretKey) (e : ElectionTx) (sk : UInt8 → SecretKey)
    (hN : Nodes N K e sk) (evs : List Event) (hq : ∀ ev ∈ evs, FairE2e N K e ev) (S : Store) (hS : S = (Network.run N evs).store.toStore) (he : ElectionAt S e.id e)
    (hD : DistinctVoters S e) (p : Str) (hO : OnlyElection S e p) (txs : List SignedTx) (htxs : Answer S p txs) :
    E2e.verify N.toEnv txs = .ok (MemStore.ofList txs) := by
  subst hS
  obtain ⟨run, key, hR⟩ := Setup.exists_run hF hN.trustees sk
  exact (Setup.cleanHeld_run hN hR evs hq he).verifies he hD hO htxs

/-! ## Elections of the command line client -/

namespace Setup

variable {N : NodeEnv} {K : List SecretKey} {e : ElectionTx} {sk : UInt8 → SecretKey} {run : KeyGenRun N} {key : ElGamalKey} {fits : Bytes → Prop}

theorem clientVote_honest {k : EncryptionKeyTx} {v : VoteTx} {text : Str} (h : ClientVote N fits k v text) :
    HonestVote N fits k.encryptionKey v 0 [⟨true, 0, text⟩] ∧ v.encryptedVotes.length = 1 ∧ ∀ ev ∈ v.encryptedVotes, ev.contestIndex = 0 ∧ ev.selections.length = 1 := by
  obtain ⟨h1, h2, sk, rng, rfl⟩ := h
  refine ⟨⟨?_, rng, rfl⟩, rfl, ?_⟩
  · intro s hs
    rw [List.mem_singleton] at hs
    subst hs
    exact ⟨h1, h2⟩
  · intro ev hev
    simp only [Client.vote, List.mem_singleton] at hev
    subst hev
    exact ⟨rfl, rfl⟩

theorem firstChoices_perm {c : Str} {ds ds' : List (Signed DecryptionTx)} (h : ds.Perm ds') : firstChoices c ds = firstChoices c ds' := (h.filter _).length_eq

theorem firstChoices_texts {c : Str} {ds : List (Signed DecryptionTx)} {texts : List Str} (h : (ds.map (·.tx.decryptedVote)).Perm (texts.map fun t => [⟨true, 0, t⟩])) :
    firstChoices c ds = texts.count c := by
  have h1 : firstChoices c ds = ((ds.map (·.tx.decryptedVote)).filter fun l => l.head?.map Selection.selection = some c).length := by
    unfold firstChoices
    rw [List.filter_map, List.length_map]
    rfl
  rw [h1, (h.filter _).length_eq, List.filter_map, List.length_map, List.count, List.countP_eq_length_filter]
  congr 1
  refine List.filter_congr fun x _ => ?_
  rw [Bool.eq_iff_iff]
  simp [Function.comp]

theorem clientVote_shape {k : EncryptionKeyTx} {votes : List (Signed VoteTx)} {texts : List Str} (hv : List.Forall₂ (fun v text => ClientVote N fits k v.tx text) votes texts) :
    ∀ v ∈ votes, ∃ text, ClientVote N fits k v.tx text := by
  intro v hv'
  induction hv with
  | nil => cases hv'
  | cons h _ ih =>
    rcases List.mem_cons.1 hv' with rfl | h'
    · exact ⟨_, h⟩
    · exact ih h'

/-- When all votes come from the client and their decryptions are stored, verification succeeds and the tally is theirs. -/
theorem CleanHeld.counted {s : Network} (h : CleanHeld N K e sk run key s) (hp : e.mixConfig ≠ none) (he : ElectionAt s.store.toStore e.id e) (hD : DistinctVoters s.store.toStore e)
    {votes : List (Signed VoteTx)} (hall : AllVotes s.store.toStore e.id votes) {texts : List Str} {k : EncryptionKeyTx}
    (hv : List.Forall₂ (fun v text => ClientVote N fits k v.tx text) votes texts) {ds' : List (Signed DecryptionTx)} (hds : AllDecryptions s.store.toStore e 0 ds')
    (hperm : (ds'.map (·.tx.decryptedVote)).Perm (texts.map fun t => [⟨true, 0, t⟩])) {p : Str} (hO : OnlyElection s.store.toStore e p) {txs : List SignedTx}
    (htxs : Answer s.store.toStore p txs) :
    ∃ m totals, E2e.verify N.toEnv txs = .ok m ∧ E2e.tally m e.id = .ok totals ∧ (totals.map Prod.fst).Nodup ∧ ∀ c n, (c, n) ∈ totals ↔ 0 < n ∧ n = texts.count c := by
  obtain ⟨hnd', hds'⟩ := hds
  have hmh := h.mixHeld hp
  have hshape := clientVote_shape hv
  -- all decryptions are of contest 0
  have hzero : ∀ d : Signed DecryptionTx, InStore s.store.toStore (.decryption d) → d.tx.id.electionId = e.id.electionId → d.tx.contestIndex = 0 := by
    intro d hd hf
    obtain ⟨-, -, m, hm, -, hmf, hmc, hlt⟩ := hmh.decryption_item (h.in_ledger.1 hd) hf
    obtain ⟨i, hi⟩ := List.getElem?_of_mem hm
    obtain ⟨-, -, -, tr, votes', r, out, proof, -, hall'', hone, -⟩ := hmh.mix_honest hi hmf
    have := allVotes_unique hall'' hall
    subst this
    rw [hmh.mix_length hm hmf hall] at hlt
    obtain ⟨v, hvm⟩ := List.exists_mem_of_length_pos (Nat.lt_of_le_of_lt (Nat.zero_le _) hlt)
    obtain ⟨ev, hev⟩ := List.exists_mem_of_length_pos (show 0 < (v.tx.encryptedVotes.filter fun ev => ev.contestIndex = m.tx.contestIndex).length by rw [hone v hvm]; exact Nat.one_pos)
    obtain ⟨hev, hec⟩ := List.mem_filter.1 hev
    obtain ⟨text, ht⟩ := hshape v hvm
    rw [← hmc, ← of_decide_eq_true hec]
    exact ((clientVote_honest ht).2.2 ev hev).1
  have hver := h.verifies he hD hO htxs
  obtain ⟨ds, hnd, hds, htally, -⟩ := E2e.C60_printed_tally_partial N.toEnv txs _ hver e.id
  have hmem : ∀ d, d ∈ ds ↔ d ∈ ds' := by
    intro d
    have hst : InStore (MemStore.ofList txs).toStore (.decryption d) ↔ SignedTx.decryption d ∈ txs := Network.stored_iff_mem (idLt_nodup htxs.1) _
    rw [hds, hds', hst, htxs.2]
    constructor
    · rintro ⟨⟨h1, -⟩, h2⟩
      exact ⟨h1, (h.decryption_upstream (h.in_ledger.1 h1) h2).1, hzero d h1 h2⟩
    · rintro ⟨h1, h2, -⟩
      have h3 := h.decryption_filed (h.in_ledger.1 h1) h2
      exact ⟨⟨h1, (hO.filed h1).2 h3⟩, h3⟩
  have hpd := (List.perm_ext_iff_of_nodup hnd hnd').2 hmem
  obtain ⟨totals, h2, h3, h4⟩ := htally (by
    intro d hd hnil
    have : d.tx.decryptedVote ∈ texts.map fun t => [(⟨true, 0, t⟩ : Selection)] := hperm.mem_iff.1 (List.mem_map_of_mem (f := fun d : Signed DecryptionTx => d.tx.decryptedVote) ((hmem d).1 hd))
    rw [hnil] at this
    simp at this)
  refine ⟨_, totals, hver, h2, h3, fun c n => ?_⟩
  rw [h4, firstChoices_perm hpd, firstChoices_texts hperm]

end Setup

/-- **C69** (elections are counted right) Take an election made by `cryptoballot election generate`, of which the authority runs the one trustee's node, and any schedule that ends
voting on it, with any other elections around it.  If the votes were made by `cryptoballot vote generate` with keys that differ, deliveries and reactions of the authority's node alone
lead to a state in which the e2e command reports success on the answer to its query, and prints the tally of the texts the voters gave: every text with the number of voters who gave
it, and nothing else. -/
theorem C69_client_elections_are_counted (N : NodeEnv) (fits : Bytes → Prop) (Enc : ElGamalKey → Ciphertext → Bytes → Prop) (hM : MixCorrect N fits Enc) (hsw : ShuffleWorks N)
    (K : List SecretKey) (authority : SecretKey) (hK : authority ∈ K) (el : BArr 15) (e : ElectionTx) (hee : e = Client.election N authority el)
    (hN : Nodes N K e fun _ => authority) (evs : List Event) (hq : ∀ ev ∈ evs, FairE2e N K e ev) (S₀ : Store) (hS₀ : S₀ = (Network.run N evs).store.toStore)
    (he : ElectionAt S₀ e.id e) (ek : Signed EncryptionKeyTx) (hek : S₀.getTransaction (singleId e.id .encryptionKey) = some (.encryptionKey ek))
    (vs : Signed VotingEndTx) (hend : InStore S₀ (.votingEnd vs)) (hvs : vs.tx.election = e.id)
    (votes : List (Signed VoteTx)) (hall : AllVotes S₀ e.id votes) (hlen : votes.length ≤ 65535) (texts : List Str)
    (hv : List.Forall₂ (fun v text => ClientVote N fits ek.tx v.tx text) votes texts) (hD : DistinctVoters S₀ e) :
    ∃ more : List Event, (∀ ev ∈ more, NodesOnly K ev) ∧ ∀ S : Store, S = (Network.run N (evs ++ more)).store.toStore → ∀ p, OnlyElection S e p → ∀ txs, Answer S p txs →
      ∃ m totals, E2e.verify N.toEnv txs = .ok m ∧ E2e.tally m e.id = .ok totals ∧ (totals.map Prod.fst).Nodup ∧ ∀ c n, (c, n) ∈ totals ↔ 0 < n ∧ n = texts.count c := by
  subst hS₀
  have hp : e.mixConfig ≠ none := by subst hee; simp [Client.election]
  have hth : e.trusteesThreshold = 1 := by subst hee; rfl
  have h1 : ∃ tr ∈ e.trustees, tr.index = 1 := by subst hee; exact ⟨_, List.mem_singleton_self _, rfl⟩
  have hq' : ∀ ev ∈ evs, FairMix N K e ev := fun ev hev => (hq ev hev).1
  obtain ⟨run, key, hR, hW⟩ := Setup.exists_mixing_run hM hN.trustees (fun _ => authority)
  have h0 := Setup.cleanHeld_run hN hR evs hq he
  have hkey := (h0.mixHeld hp).key_stored hek
  have hmem : ∀ v : Signed VoteTx, InStore (Network.run N evs).store.toStore (.vote v) → v.tx.id.electionId = e.id.electionId → v ∈ votes := by
    intro v hv hf
    obtain ⟨j, hj⟩ := List.getElem?_of_mem (h0.in_ledger.1 hv)
    obtain ⟨w, hw, heq⟩ := (hall.1 (.vote v)).1 ⟨hv, hf, (h0.vote_at hj hf).2.1⟩
    cases heq
    exact hw
  have hshape := Setup.clientVote_shape hv
  have hu : Uniform (Network.run N evs).store.toStore e := by
    refine fun c => ⟨1, Nat.le_refl 1, fun v hv hf ev hev _ => ?_⟩
    obtain ⟨text, ht⟩ := hshape v (hmem v hv hf)
    exact ((Setup.clientVote_honest ht).2.2 ev hev).2
  obtain ⟨more, hmore, hdone⟩ := C68_tally_can_be_completed_partial N fits Enc hM hsw K e (fun _ => authority) hN hp hth evs hq' _ rfl he hu ek hek vs hend hvs h1 hK
  refine ⟨more, hmore, ?_⟩
  rintro S rfl p hO txs htxs
  have hqm : ∀ ev ∈ evs ++ more, FairE2e N K e ev := by
    intro ev hev
    rcases List.mem_append.1 hev with hev | hev
    · exact hq ev hev
    · exact Setup.fairE2e_of_nodes (hmore ev hev)
  have he' := Setup.stored_more more he
  have h := Setup.cleanHeld_run hN hR (evs ++ more) hqm he'
  have hmh := h.mixHeld hp
  -- no vote comes in after the end of voting
  obtain ⟨j, hj⟩ := List.getElem?_of_mem (h0.in_ledger.1 hend)
  have hpre := Setup.run_prefix N evs more
  have hvid := (h0.mixHeld hp).end_id hj hvs
  have hall' : AllVotes (Network.run N (evs ++ more)).store.toStore e.id votes := by
    refine (h.votes_stay hvid (w := (Network.run N evs).ledger.length) ?_).1 ?_
    · rw [List.prefix_iff_eq_take.1 hpre] at hj
      exact List.mem_of_getElem? hj
    · unfold Setup.at'
      rw [← List.prefix_iff_eq_take.1 hpre]
      exact hall
  have hD' : DistinctVoters (Network.run N (evs ++ more)).store.toStore e := by
    have hback : ∀ v : Signed VoteTx, InStore (Network.run N (evs ++ more)).store.toStore (.vote v) → v.tx.election = e.id → InStore (Network.run N evs).store.toStore (.vote v) := by
      intro v hv hve
      obtain ⟨j, hj⟩ := List.getElem?_of_mem (h.in_ledger.1 hv)
      obtain ⟨hid, -⟩ := (VoteTx.validateTx_ok (h.hist.sound.ledger j).lawful).1 (SignedTx.validate_ok.1 (h.hist.accepted j _ hj)).2.2
      have hf : v.tx.id.electionId = e.id.electionId := by rw [hid, hve]; rfl
      obtain ⟨w, hw, heq⟩ := (hall'.1 (.vote v)).1 ⟨hv, hf, (h.vote_at hj hf).2.1⟩
      exact ((hall.1 (.vote v)).2 ⟨w, hw, heq⟩).1
    exact fun v w hv hw hve hwe => hD v w (hback v hv hve) (hback w hw hwe) hve hwe
  obtain ⟨ds', hds', hperm⟩ := hdone _ rfl votes hall' hlen 0 (texts.map fun t => [⟨true, 0, t⟩]) (by
    rw [List.forall₂_map_right_iff]
    exact hv.imp fun _ _ h => (Setup.clientVote_honest h).1)
  exact h.counted hp he' hD' hall' hv hds' hperm hO htxs

/-! ## An election of two votes -/

namespace Toy

/-- what `cryptoballot election generate` makes with key 1 -/
def clientElection : ElectionTx := Client.election node (key 1) eid.electionId
def clientTx : SignedTx := .election ⟨clientElection, sig 1⟩
def clientVote (k : UInt8) (name : String) : Signed VoteTx := ⟨Client.vote node (key k) rng encOf.tx (str name), sig k⟩

example : (Client.electionGenerate node (key 1) eid.electionId : VRes SignedTx) = .ok clientTx := rfl

theorem clientNodes : Nodes node [key 1] clientElection fun _ => key 1 where
  trustees := ⟨by decide +kernel, by decide +kernel, by decide +kernel, by decide +kernel⟩
  keys := by decide +kernel
  held := by decide +kernel
  only := by decide +kernel
  sign := node_sign
  aes := aes_correct
  dh := dh_agrees

/-- set-up by the authority's node, two votes, the end of voting -/
def clientPoll : List Event :=
  [.submit clientTx, .deliver 0] ++ roundOn [key 1] 0 1 ++ roundOn [key 1] 1 2 ++ roundOn [key 1] 2 3 ++ roundOn [key 1] 3 4 ++
    [.submit (.vote (clientVote 31 "a")), .submit (.vote (clientVote 32 "b")), .submit endTx, .deliver 0, .deliver 0, .deliver 0]

theorem clientPoll_fair : ∀ ev ∈ clientPoll, FairE2e node [key 1] clientElection ev := by
  intro ev hev
  simp only [clientPoll, List.mem_append, List.mem_cons, List.not_mem_nil, or_false] at hev
  rcases hev with (((((rfl | rfl) | h) | h) | h) | h) | rfl | rfl | rfl | rfl | rfl | rfl
  · exact ⟨⟨fun _ => ⟨by simp [SetupKind, kindOf, clientTx], by simp [kindOf, clientTx]⟩, fun _ h => (by cases h), fun _ h => (by cases h)⟩, fun _ h => (by cases h)⟩
  · exact ⟨trivial, fun _ h => (by cases h)⟩
  iterate 4
    refine ⟨roundOn_fairMix (fun _ h => h) _ _ ev h, ?_⟩
    rintro x rfl
    simp [roundOn] at h
  iterate 2
    exact ⟨⟨fun _ => ⟨by simp [SetupKind, kindOf], by simp [kindOf]⟩, fun _ h => (by cases h), fun _ h => (by cases h)⟩, fun _ h => (by cases h)⟩
  · refine ⟨⟨fun _ => ⟨by simp [SetupKind, kindOf, endTx], by simp [kindOf, endTx]⟩, fun y h _ _ _ => ?_, fun _ h => (by cases h)⟩, fun y h _ => ?_⟩
    · cases h
      rfl
    · cases h
      rfl
  iterate 3 exact ⟨trivial, fun _ h => (by cases h)⟩

theorem distinct_of_check {s : Network} (hn : (s.ledger.map SignedTx.id).Nodup) {e : ElectionTx}
    (h : ((s.ledger.filterMap fun t => match t with | .vote v => some v | _ => none).all fun v =>
      (s.ledger.filterMap fun t => match t with | .vote v => some v | _ => none).all fun w =>
        decide (v.tx.anonymousKey.val.take 10 = w.tx.anonymousKey.val.take 10 → v = w)) = true) : DistinctVoters s.store.toStore e := by
  intro v w hv hw _ _ hk
  have hv' : v ∈ s.ledger.filterMap fun t => match t with | .vote v => some v | _ => none := List.mem_filterMap.2 ⟨_, (Network.stored_iff_mem hn _).1 hv, rfl⟩
  have hw' : w ∈ s.ledger.filterMap fun t => match t with | .vote v => some v | _ => none := List.mem_filterMap.2 ⟨_, (Network.stored_iff_mem hn _).1 hw, rfl⟩
  exact of_decide_eq_true (List.all_eq_true.1 (List.all_eq_true.1 h v hv') w hw') hk

theorem clientVote_made (k : UInt8) (name : String) (h : IsText (str name)) : ClientVote node (fun _ => True) encOf.tx (clientVote k name).tx (str name) := ⟨h, trivial, key k, rng, rfl⟩

end Toy

/-- The schedule meets the hypotheses; its ledger has 8 transactions. -/
example : (∀ ev ∈ Toy.clientPoll, FairE2e Toy.node [Toy.key 1] Toy.clientElection ev) ∧ Nodes Toy.node [Toy.key 1] Toy.clientElection (fun _ => Toy.key 1) ∧
    MixCorrect Toy.node (fun _ => True) (fun _ c m => c.raw = m) ∧ ShuffleWorks Toy.node ∧
    ElectionAt (Network.run Toy.node Toy.clientPoll).store.toStore Toy.clientElection.id Toy.clientElection ∧
    (Network.run Toy.node Toy.clientPoll).store.toStore.getTransaction (singleId Toy.clientElection.id .encryptionKey) = some (.encryptionKey Toy.encOf) ∧
    AllVotes (Network.run Toy.node Toy.clientPoll).store.toStore Toy.clientElection.id [Toy.clientVote 31 "a", Toy.clientVote 32 "b"] ∧
    List.Forall₂ (fun v text => ClientVote Toy.node (fun _ => True) Toy.encOf.tx v.tx text) [Toy.clientVote 31 "a", Toy.clientVote 32 "b"] [str "a", str "b"] ∧
    InStore (Network.run Toy.node Toy.clientPoll).store.toStore (.votingEnd Toy.endOf) ∧ DistinctVoters (Network.run Toy.node Toy.clientPoll).store.toStore Toy.clientElection ∧
    (Network.run Toy.node Toy.clientPoll).ledger.map kindOf = [.election, .keyGenCommitment, .keyGenShare, .keyGenPublicKey, .encryptionKey, .vote, .vote, .votingEnd] := by
  have hn := (Network.sound_run Toy.node Toy.clientPoll).nodup
  obtain ⟨hend, hpos⟩ := Toy.end_of_check hn (i := 7) (v := Toy.endOf) (by decide +kernel)
  refine ⟨Toy.clientPoll_fair, Toy.clientNodes, Toy.node_mix, Toy.node_shuffles, ?_, Toy.key_of_check (by decide +kernel), ?_, ?_, hend, Toy.distinct_of_check hn (by decide +kernel),
    by decide +kernel⟩
  · unfold Toy.clientPoll
    simp only [List.append_assoc]
    exact Toy.stored_later (e := Toy.clientElection) ⟨Toy.sig 1, by rfl⟩
  · exact Toy.votes_of_check hn (by decide +kernel) (by decide +kernel) Toy.two_sorted
  · exact .cons (Toy.clientVote_made _ _ ⟨by decide +kernel, by decide +kernel⟩) (.cons (Toy.clientVote_made _ _ ⟨by decide +kernel, by decide +kernel⟩) .nil)

/-! ## What a stranger can do -/

namespace Toy

/-- a stranger's election -/
def strangerTx : SignedTx := .election ⟨Client.election node (key 2) eid2.electionId, sig 2⟩
/-- and its end of voting, filed under somebody else's election -/
def strayEnd : Signed VotingEndTx := ⟨⟨⟨eid.electionId, .votingEnd, BArr.fill 16 9⟩, eid2, key 2⟩, sig 2⟩
def strayPoll : List Event := [.submit clientTx, .submit strangerTx, .submit (.votingEnd strayEnd), .deliver 0, .deliver 0, .deliver 0]

end Toy

/-- **C69 is false for what `FairMix` allows**: a stranger who files the end of voting of an election of their own under another election makes the e2e command report the latter as
invalid. -/
theorem C69_held_elections_verify_false :
    ¬ ∀ (N : NodeEnv) (fits : Bytes → Prop), ThresholdCorrect N fits → ∀ (K : List SecretKey) (e : ElectionTx) (sk : UInt8 → SecretKey), Nodes N K e sk →
      ∀ evs : List Event, (∀ ev ∈ evs, FairMix N K e ev) → ∀ S : Store, S = (Network.run N evs).store.toStore → ElectionAt S e.id e → DistinctVoters S e →
      ∀ p, OnlyElection S e p → ∀ txs, Answer S p txs → ∃ m, E2e.verify N.toEnv txs = .ok m := by
  intro h
  have hn := (Network.sound_run Toy.node Toy.strayPoll).nodup
  have hl : (Network.run Toy.node Toy.strayPoll).ledger = [Toy.clientTx, Toy.strangerTx, .votingEnd Toy.strayEnd] := by rfl
  have hin : ∀ t, InStore (Network.run Toy.node Toy.strayPoll).store.toStore t ↔ t = Toy.clientTx ∨ t = Toy.strangerTx ∨ t = .votingEnd Toy.strayEnd := by
    intro t
    have : InStore (Network.run Toy.node Toy.strayPoll).store.toStore t ↔ t ∈ (Network.run Toy.node Toy.strayPoll).ledger := Network.stored_iff_mem hn t
    rw [this, hl]
    simp
  have hfair : ∀ ev ∈ Toy.strayPoll, FairMix Toy.node [Toy.key 1] Toy.clientElection ev := by
    intro ev hev
    simp only [Toy.strayPoll, List.mem_cons, List.not_mem_nil, or_false] at hev
    rcases hev with rfl | rfl | rfl | rfl | rfl | rfl
    iterate 2
      exact ⟨fun _ => ⟨by simp [SetupKind, kindOf, Toy.clientTx, Toy.strangerTx], by simp [kindOf, Toy.clientTx, Toy.strangerTx]⟩, fun _ h => (by cases h), fun _ h => (by cases h)⟩
    · refine ⟨fun _ => ⟨by simp [SetupKind, kindOf], by simp [kindOf]⟩, fun y h hy _ _ => ?_, fun _ h => (by cases h)⟩
      cases h
      exact absurd hy (by decide +kernel)
    iterate 3 trivial
  have hst : ElectionAt (Network.run Toy.node Toy.strayPoll).store.toStore Toy.clientElection.id Toy.clientElection := ⟨Toy.sig 1, (hin Toy.clientTx).2 (.inl rfl)⟩
  obtain ⟨m, hm⟩ := h Toy.node _ Toy.node_threshold [Toy.key 1] Toy.clientElection (fun _ => Toy.key 1) Toy.clientNodes Toy.strayPoll hfair _ rfl hst
    (Toy.distinct_of_check hn (by decide +kernel)) (Toy.eid.toString.take 15) ⟨by decide +kernel, by
      intro t ht hp
      rcases (hin t).1 ht with rfl | rfl | rfl
      · rfl
      · exact absurd hp (by decide +kernel)
      · rfl⟩ [Toy.clientTx, .votingEnd Toy.strayEnd] ⟨by
        simp only [List.pairwise_cons, List.mem_cons, List.not_mem_nil, or_false, forall_eq, false_imp_iff, implies_true, List.Pairwise.nil, and_true]
        show IdLt _ _
        unfold IdLt
        decide +kernel, by
      intro t
      simp only [List.mem_cons, List.not_mem_nil, or_false]
      constructor
      · rintro (rfl | rfl)
        · exact ⟨(hin _).2 (.inl rfl), by decide +kernel⟩
        · exact ⟨(hin _).2 (.inr (.inr rfl)), by decide +kernel⟩
      · rintro ⟨h1, h2⟩
        rcases (hin t).1 h1 with rfl | rfl | rfl
        · exact .inl rfl
        · exact absurd h2 (by decide +kernel)
        · exact .inr rfl⟩
  have : (match E2e.verify Toy.node.toEnv [Toy.clientTx, .votingEnd Toy.strayEnd] with | .ok _ => true | _ => false) = false := by decide +kernel
  rw [hm] at this
  cases this

end CB
