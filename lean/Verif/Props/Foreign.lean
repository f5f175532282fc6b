import Verif.Props.Verifiable
import Verif.Props.Api
import Verif.Props.Json
import Verif.Props.E2eHonest
import Verif.Model.Report
/-!
# C88: the end-to-end report is about the election asked for
-/

namespace CB
open Spec

theorem cmpBytes_le_of_cmp_lt {a b : Identifier} (h : a.cmp b = .lt) : cmpBytes a.electionId.val b.electionId.val ≠ .gt := by
  intro hgt
  unfold Identifier.cmp at h
  rw [hgt] at h
  cases h

/-- Of a list in the order of ids, the transactions of the first election come first. -/
theorem own_first {txs : List SignedTx} (hs : txs.Pairwise IdLt) {e : BArr 15} (hle : ∀ t ∈ txs, cmpBytes e.val t.id.electionId.val ≠ .gt) :
    txs = (txs.filter fun t => decide (t.id.electionId = e)) ++ txs.filter fun t => !decide (t.id.electionId = e) := by
  induction txs with
  | nil => rfl
  | cons t ts ih =>
    rw [List.pairwise_cons] at hs
    have ih := ih hs.2 fun u hu => hle u (by simp [hu])
    by_cases h : t.id.electionId = e
    · rw [List.filter_cons_of_pos (by simpa using h), List.filter_cons_of_neg (by simpa using h), List.cons_append, ← ih]
    · have hnone : ∀ u ∈ ts, ¬ u.id.electionId = e := by
        intro u hu he
        have h1 := cmpBytes_le_of_cmp_lt (hs.1 u hu)
        have h2 := hle t (by simp)
        rw [he] at h1
        cases hc : cmpBytes e.val t.id.electionId.val with
        | lt => exact h1 ((cmpBytes_gt_iff _ _).2 hc)
        | eq => exact h (Subtype.ext ((cmpBytes_eq_iff _ _).1 hc).symm)
        | gt => exact h2 hc
      rw [List.filter_cons_of_neg (by simpa using h), List.filter_cons_of_pos (by simpa using h),
        List.filter_eq_nil_iff.2 (fun u hu => by simpa using hnone u hu), List.filter_eq_self.2 (fun u hu => by simpa using hnone u hu)]
      rfl

theorem first_le {t : SignedTx} {ts : List SignedTx} (hs : (t :: ts).Pairwise IdLt) : ∀ u ∈ t :: ts, cmpBytes t.id.electionId.val u.id.electionId.val ≠ .gt := by
  intro u hu
  rcases List.mem_cons.1 hu with rfl | hu
  · rw [cmpBytes_refl]; simp
  · exact cmpBytes_le_of_cmp_lt ((List.pairwise_cons.1 hs).1 u hu)

namespace E2e

/-- The transactions filed under the election. -/
def _root_.CB.Spec.ownOf (election : Identifier) (txs : List SignedTx) : List SignedTx := txs.filter fun t => decide (t.id.electionId = election.electionId)

theorem verify_own {E : Env} {t : SignedTx} {ts : List SignedTx} {m : MemStore} (hs : (t :: ts).Pairwise IdLt) (h : verify E (t :: ts) = .ok m) :
    verify E (ownOf t.id (t :: ts)) = .ok (MemStore.ofList (ownOf t.id (t :: ts))) ∧
      AgreeOn m.toStore (MemStore.ofList (ownOf t.id (t :: ts))).toStore t.id.electionId := by
  obtain ⟨⟨e, rest, he⟩, rfl, hv⟩ := (C40_e2e_replays _ _ _).1 h
  have hsplit := own_first hs (first_le hs)
  refine ⟨(C40_e2e_replays _ _ _).2 ⟨⟨e, ts.filter fun u => decide (u.id.electionId = t.id.electionId), ?_⟩, rfl, ?_⟩, ?_⟩
  · cases he
    exact List.filter_cons_of_pos (by simp)
  · intro b u a hb
    refine hv b u (a ++ (t :: ts).filter fun x => !decide (x.id.electionId = t.id.electionId)) ?_
    refine hsplit.trans ?_
    rw [show List.filter (fun x => decide (x.id.electionId = t.id.electionId)) (t :: ts) = _ from hb]
    simp
  · intro id hid
    have hn := idLt_nodup hs
    have hn' : ((ownOf t.id (t :: ts)).map SignedTx.id).Nodup := idLt_nodup (hs.filter _)
    have key : ∀ x, (MemStore.ofList (t :: ts)).getTransaction id = some x ↔ (MemStore.ofList (ownOf t.id (t :: ts))).getTransaction id = some x := by
      intro x
      have s1 := (C06_memstore_is_map (t :: ts)).1 id x
      have s2 := (C06_memstore_is_map (ownOf t.id (t :: ts))).1 id x
      constructor
      · intro hx
        have hxi := (s1.1 hx).1
        subst hxi
        have := (Toy.stored_iff hn x).1 hx
        exact (Toy.stored_iff hn' x).2 (List.mem_filter.2 ⟨this, by simpa using hid⟩)
      · intro hx
        have hxi := (s2.1 hx).1
        subst hxi
        have := (Toy.stored_iff hn' x).1 hx
        exact (Toy.stored_iff hn x).2 (List.mem_filter.1 this).1
    show (MemStore.ofList (t :: ts)).getTransaction id = (MemStore.ofList (ownOf t.id (t :: ts))).getTransaction id
    exact Option.ext key

/-- **C88** (other elections) Given transactions in the order of ids, as nodes answer, the command may find transactions of other elections among them.  If it reports success, then so
it does for the transactions of the first election alone, and whatever it prints, votes, tally and winner, is what it prints for these. -/
theorem C88_other_elections_make_no_difference (E : Env) (t : SignedTx) (ts : List SignedTx) (hs : (t :: ts).Pairwise IdLt) (m : MemStore) (h : verify E (t :: ts) = .ok m) :
    ∃ own, verify E (ownOf t.id (t :: ts)) = .ok own ∧ printVotes m t.id = printVotes own t.id ∧ tally m t.id = tally own t.id ∧
      ∀ winners, printResults winners m t.id = printResults winners own t.id := by
  obtain ⟨h1, h2⟩ := verify_own hs h
  have hg := getMultiple_congr (replay_of_verify h).lawful (replay_of_verify h1).lawful h2 .decryption
  have ht : tally m t.id = tally (MemStore.ofList (ownOf t.id (t :: ts))) t.id := by unfold tally; rw [hg]
  exact ⟨_, h1, by unfold printVotes; rw [hg], ht, fun w => by unfold printResults; rw [ht]⟩

theorem upstream_own {E : Env} {t : SignedTx} {ts : List SignedTx} (hs : (t :: ts).Pairwise IdLt) {m : MemStore} (h : verify E (t :: ts) = .ok m)
    {d : Signed DecryptionTx} (hd : InStore m.toStore (.decryption d)) (hde : d.tx.id.electionId = t.id.electionId) :
    d.tx.upstreamId.electionId = t.id.electionId := by
  obtain ⟨h1, h2⟩ := verify_own hs h
  have hn' : ((ownOf t.id (t :: ts)).map SignedTx.id).Nodup := idLt_nodup (hs.filter _)
  have hL := ledger_of_verify h1 hn'
  have hd' : (MemStore.ofList (ownOf t.id (t :: ts))).getTransaction (SignedTx.decryption d).id = some (.decryption d) := by
    exact (h2 (SignedTx.decryption d).id hde).symm.trans hd
  obtain ⟨m0, hm0, hfresh, hv, hsteps⟩ := hL.accepted hd'
  have hext : Extends m0 _ := (Extends.set_fresh hfresh).trans hsteps.extends
  obtain ⟨-, e', cts, -, hi, -⟩ := C30_decryption_is_threshold_decryption_partial E m0 hm0.replay d.tx d.sig hv
  have : ∃ x, m0.getTransaction d.tx.upstreamId = some x := by
    generalize e'.mixConfig = cfg at hi
    cases hi with
    | ofVote hg => exact ⟨_, hg⟩
    | ofMix hg => exact ⟨_, hg⟩
  obtain ⟨x, hx⟩ := this
  have hx' := hext _ _ hx
  have hid := hL.lawful.keyed _ _ hx'
  have hmem := (Toy.stored_iff hn' x).1 (by rw [InStore, hid]; exact hx')
  have := (List.mem_filter.1 hmem).2
  rw [← hid]
  simpa using this

/-- What is reported depends on the first election's decryptions only. -/
theorem report_own {E : Env} {P : Plurality} {flags : Flags} {t : SignedTx} {ts : List SignedTx} (hs : (t :: ts).Pairwise IdLt) {lines : List Bytes}
    (h : report E P flags (t :: ts) = .ok lines) : report E P flags (ownOf t.id (t :: ts)) = .ok lines := by
  unfold report at h
  simp only [Res.bind_eq_ok] at h
  obtain ⟨m, hm, votes, h1, totals, h2, results, h3, h4⟩ := h
  obtain ⟨own, ho, hv, ht, hw⟩ := C88_other_elections_make_no_difference E t ts hs m hm
  have hcons : ownOf t.id (t :: ts) = t :: ownOf t.id ts := List.filter_cons_of_pos (by simp)
  rw [hcons] at ho ⊢
  unfold report
  simp only [ho, Res.ok_bind]
  have e1 : votesLines own t.id = votesLines m t.id := by unfold votesLines; rw [hv]
  have e2 : tallyLines P own t.id = tallyLines P m t.id := by unfold tallyLines; rw [ht]
  have e3 : resultsLines P own t.id = resultsLines P m t.id := by unfold resultsLines; rw [hw]
  rw [e1, e2, e3, h1, h2, h3]
  exact h4

end E2e

/-- The transactions of the election that a node holds, in the order of ids. -/
def Spec.Own (S : Store) (election : Identifier) (own : List SignedTx) : Prop :=
  own.Pairwise IdLt ∧ ∀ t, t ∈ own ↔ InStore S t ∧ t.id.electionId = election.electionId

namespace Client
open E2e

theorem prefix_own {p : Str} {id : Identifier} (hp : p <+: hexEncode id.electionId.val) {id' : Identifier} (h : id'.electionId = id.electionId) : p <+: id'.toString := by
  refine hp.trans ?_
  rw [Identifier.toString, Identifier.toArray, List.append_assoc, hexEncode_append, h]
  exact List.prefix_append _ _

theorem queryPrefix_ok {id p : Str} (h : queryPrefix id = .ok p) : p = id.take 15 := by
  unfold queryPrefix at h
  split at h
  · cases h
  · split at h
    · split at h
      · cases h
      · cases h; rfl
    · cases h; rfl

theorem prefix_of_query {e : Identifier} {p : Str} (h : queryPrefix e.toString = .ok p) : p <+: hexEncode e.electionId.val := by
  rw [queryPrefix_ok h, Identifier.toString, Identifier.toArray, List.append_assoc, hexEncode_append, List.take_append_of_le_length]
  · exact List.take_prefix _ _
  · rw [hexEncode_length, e.electionId.property]; omega

/-- **C88 (partial)** (what is reported) The command is asked for an election that a node holds, by its id, and no other election whose id has the same first 15 digits has a lesser id.
Then whatever it prints is what it prints for the election's own transactions.  (Submissions are labelled with their ids; properties nest at most 119 deep, see C74; and transactions
hold nothing that serialization forgets.)
Missing: an election with a lesser id (`C88_report_is_about_election_false`), mislabelled submissions (`C88_own_votes_only_false`). -/
theorem C88_report_is_about_election_partial (E : Env) (P : Plurality) (flags : Flags) (subs : List Exonum.Envelope) (hl : ∀ x ∈ subs, Labelled x) (e : ElectionTx)
    (he : ElectionAt (Exonum.toStore (Exonum.deliverAll E OMap.empty subs)) e.id e)
    (hfirst : ∀ t, InStore (Exonum.toStore (Exonum.deliverAll E OMap.empty subs)) t → e.id.toString.take 15 <+: t.id.toString →
      cmpBytes e.id.electionId.val t.id.electionId.val ≠ .gt)
    (hjson : ∀ t, InStore (Exonum.toStore (Exonum.deliverAll E OMap.empty subs)) t → JsonProperties 119 t ∧ forget t = t) (lines : List Bytes)
    (h : Client.report E P flags (Exonum.deliverAll E OMap.empty subs) e.id.toString = .ok lines) :
    ∃ own, Own (Exonum.toStore (Exonum.deliverAll E OMap.empty subs)) e.id own ∧ E2e.report E P flags own = .ok lines := by
  unfold Client.report at h
  rw [Res.bind_eq_ok] at h
  obtain ⟨p, hq, h⟩ := h
  obtain ⟨txs, hall, hmem, hpw⟩ := (Api.C39_prefix_query_exact_partial E subs hl).1 p
  have hj : ∀ t ∈ txs, JsonProperties 119 t ∧ forget t = t := fun t ht => hjson t ((hmem t).1 ht).1
  have hm : txs.map forget = txs := by
    conv_rhs => rw [← List.map_id txs]
    exact List.map_congr_left fun t ht => (hj t ht).2
  rw [Json.C74_rest_listing_is_faithful_partial _ p txs hall (fun t ht => (hj t ht).1), hm] at h
  simp only at h
  have hpre := prefix_of_query hq
  obtain ⟨sg, he⟩ := he
  have hein : SignedTx.election ⟨e, sg⟩ ∈ txs := (hmem _).2 ⟨he, prefix_own hpre rfl⟩
  cases txs with
  | nil => cases hein
  | cons t ts =>
    have hte : t.id.electionId = e.id.electionId := by
      have h1 := hfirst t ((hmem t).1 (by simp)).1 (by rw [← queryPrefix_ok hq]; exact ((hmem t).1 (by simp)).2)
      have h2 := first_le hpw _ hein
      have h2 : cmpBytes t.id.electionId.val e.id.electionId.val ≠ .gt := h2
      cases hc : cmpBytes e.id.electionId.val t.id.electionId.val with
      | lt => exact absurd ((cmpBytes_gt_iff _ _).2 hc) h2
      | eq => exact Subtype.ext ((cmpBytes_eq_iff _ _).1 hc).symm
      | gt => exact absurd hc h1
    refine ⟨ownOf t.id (t :: ts), ⟨hpw.filter _, fun u => ?_⟩, report_own hpw h⟩
    rw [ownOf, List.mem_filter, hmem, decide_eq_true_eq, hte]
    constructor
    · rintro ⟨⟨h1, _⟩, h2⟩; exact ⟨h1, h2⟩
    · rintro ⟨h1, h2⟩; exact ⟨⟨h1, prefix_own hpre h2⟩, h2⟩

/-- **C88 (partial)** (what is counted) Every decryption that is printed, or counted in the tally, is of a vote or a mix of the election reported on, which the node holds.
Missing: mislabelled submissions (`C88_own_votes_only_false`). -/
theorem C88_own_votes_only_partial (E : Env) (subs : List Exonum.Envelope) (hl : ∀ x ∈ subs, Labelled x) (p : Str) (t : SignedTx) (ts : List SignedTx) (m : MemStore)
    (h1 : Api.getAll (Exonum.deliverAll E OMap.empty subs) (some p) = .ok (t :: ts)) (h2 : verify E (t :: ts) = .ok m) (d : Signed DecryptionTx)
    (hd : InStore m.toStore (.decryption d)) (hde : d.tx.id.electionId = t.id.electionId) :
    d.tx.electionId.electionId = t.id.electionId ∧ d.tx.upstreamId.electionId = t.id.electionId ∧
      ∃ u, InStore (Exonum.toStore (Exonum.deliverAll E OMap.empty subs)) u ∧ u.id = d.tx.upstreamId ∧
        ((∃ v, u = .vote v ∧ v.tx.election.electionId = t.id.electionId) ∨ ∃ x, u = .mix x ∧ x.tx.electionId.electionId = t.id.electionId) := by
  obtain ⟨txs, hall, hmem, hpw⟩ := (Api.C39_prefix_query_exact_partial E subs hl).1 p
  rw [h1] at hall
  cases hall
  have hup := upstream_own hpw h2 hd hde
  have hL := ledger_of_verify h2 (idLt_nodup hpw)
  obtain ⟨m0, hm0, hfresh, hv, hsteps⟩ := hL.accepted (show m.getTransaction (SignedTx.decryption d).id = _ from hd)
  have hext : Extends m0 m := (Extends.set_fresh hfresh).trans hsteps.extends
  obtain ⟨hid, e', cts, -, hi, -⟩ := C30_decryption_is_threshold_decryption_partial E m0 hm0.replay d.tx d.sig hv
  refine ⟨?_, hup, ?_⟩
  · rw [← hde, hid]; rfl
  · have hu : ∃ u, m0.getTransaction d.tx.upstreamId = some u ∧ ((∃ v, u = .vote v) ∨ ∃ x, u = .mix x) := by
      generalize e'.mixConfig = cfg at hi
      cases hi with
      | ofVote hg => exact ⟨_, hg, .inl ⟨_, rfl⟩⟩
      | ofMix hg => exact ⟨_, hg, .inr ⟨_, rfl⟩⟩
    obtain ⟨u, hu, hk⟩ := hu
    have hu := hext _ _ hu
    have hui := hL.lawful.keyed _ _ hu
    have hin : InStore m.toStore u := by rw [InStore, hui]; exact hu
    obtain ⟨_, rfl, _⟩ := (C40_e2e_replays E _ m).1 h2
    refine ⟨u, ((hmem u).1 ((Toy.stored_iff (idLt_nodup hpw) u).1 hin)).1, hui, ?_⟩
    obtain ⟨m1, hm1, hv1⟩ := hL.replay.accepted hu
    rcases hk with ⟨v, rfl⟩ | ⟨x, rfl⟩
    · refine .inl ⟨v, rfl, ?_⟩
      have := (VoteTx.validateTx_ok_store.1 (SignedTx.validate_ok.1 hv1).2.2).1
      rw [← hup, ← hui]
      show _ = v.tx.id.electionId
      rw [this]; rfl
    · refine .inr ⟨x, rfl, ?_⟩
      have := ((MixTx.validateTx_ok hm1.lawful).1 (SignedTx.validate_ok.1 hv1).2.2).1
      rw [← hup, ← hui]
      show _ = x.tx.id.electionId
      rw [this]; rfl

end Client

/-! ## Concrete elections -/

namespace Toy

/-- a stranger's election without trustees and authenticators, with this id -/
def strangersElection (id : Identifier) : ElectionTx :=
  { election none with id := id, authorityPublic := key 9, trustees := [], trusteesThreshold := 0, authenticators := [], authenticatorsThreshold := 0 }
def strangersElectionTx (id : Identifier) : SignedTx := .election ⟨strangersElection id, sig 9⟩

/-- an id that begins like that of the sample election -/
def neighbour (b : UInt8) : Identifier := ⟨⟨List.replicate 14 7 ++ [b], rfl⟩, .election, BArr.fill 16 0⟩

/-- a node to which these were sent holds them all -/
def Holds (ts : List SignedTx) : Prop :=
  (∀ x ∈ ts.map Exonum.Envelope.ofTx, Labelled x) ∧ (∀ t ∈ ts, JsonProperties 119 t ∧ forget t = t) ∧
    ∀ t, InStore (Exonum.toStore (Exonum.deliverAll Toy.env OMap.empty (ts.map Exonum.Envelope.ofTx))) t ↔ t ∈ ts

theorem node_holds {ts : List SignedTx} (hc : (ts.all fun t => fitsCheck 127 t.toCbor && (propertiesOf t).all (fun p => p.entries.isEmpty)) = true) (hf : ts.map forget = ts.map id)
    (hrun : (runLedger Toy.env .empty ts).isSome = true) (hn : (ts.map SignedTx.id).Nodup) : Holds ts := by
  have hr : ∀ t ∈ ts, RustData t := fun t ht => fits_of_check _ _ (Bool.and_eq_true_iff.1 (List.all_eq_true.1 hc t ht)).1
  have hf := List.map_inj_left.1 hf
  refine ⟨?_, fun t ht => ⟨?_, hf t ht⟩, fun t => ?_⟩
  · intro e he
    obtain ⟨t, ht, rfl⟩ := List.mem_map.1 he
    exact (Exonum.C37_envelope_roundtrip t (hr t ht)).2.2.1
  · intro p hp e he
    rw [List.isEmpty_iff.1 (List.all_eq_true.1 (Bool.and_eq_true_iff.1 (List.all_eq_true.1 hc t ht)).2 p hp)] at he
    cases he
  · rw [← Toy.stored_iff hn t]
    have := E2e.delivered hr hf hrun t.id
    constructor
    · intro h; exact this.symm.trans h
    · intro h; exact this.trans h

/-- the tally as tallystick keeps it; the first candidate wins -/
def plurality : E2e.Plurality := ⟨fun t => t, fun t => t.map (·.1)⟩

/-- the sample election without mixnet, and before it an election of a stranger whose id begins alike and is the lesser -/
def shadowed : List SignedTx := strangersElectionTx (neighbour 6) :: plainComplete
/-- the same with the greater id -/
def shaded : List SignedTx := plainComplete ++ [strangersElectionTx (neighbour 8)]
/-- a stranger's election, and after it one whose transactions are not accepted in the order of their ids -/
def entangled : List SignedTx := strangersElectionTx (neighbour 6) :: earlyMix

theorem shadowed_holds : Holds shadowed := node_holds (by decide +kernel) rfl (by decide +kernel) (by decide +kernel)
theorem shaded_holds : Holds shaded := node_holds (by decide +kernel) rfl (by decide +kernel) (by decide +kernel)
theorem entangled_holds : Holds entangled := node_holds (by decide +kernel) rfl (by decide +kernel) (by decide +kernel)

/-- what is printed about the sample election -/
def plainReport : List Bytes :=
  ["> Election verified OK", "Votes:", "  0:a", "", "  0:b", "", "Tally:", "  a got 1 votes", "  b got 1 votes", "Results:", "  The winner is a"].map str
def allFlags : E2e.Flags := ⟨true, true, true⟩

end Toy

namespace Client
open E2e

/-- The hypotheses of `C88_report_is_about_election_partial` can be met: the sample election, whose neighbour has a greater id. -/
example : (∀ x ∈ Toy.shaded.map Exonum.Envelope.ofTx, Labelled x) ∧
    ElectionAt (Exonum.toStore (Exonum.deliverAll Toy.env OMap.empty (Toy.shaded.map Exonum.Envelope.ofTx))) Toy.eid (Toy.election none) ∧
    (∀ t, InStore (Exonum.toStore (Exonum.deliverAll Toy.env OMap.empty (Toy.shaded.map Exonum.Envelope.ofTx))) t →
      cmpBytes Toy.eid.electionId.val t.id.electionId.val ≠ .gt ∧ JsonProperties 119 t ∧ forget t = t) ∧
    (∃ t, InStore (Exonum.toStore (Exonum.deliverAll Toy.env OMap.empty (Toy.shaded.map Exonum.Envelope.ofTx))) t ∧ Toy.eid.toString.take 15 <+: t.id.toString ∧
      t.id.electionId ≠ Toy.eid.electionId) ∧
    Client.report Toy.env Toy.plurality Toy.allFlags (Exonum.deliverAll Toy.env OMap.empty (Toy.shaded.map Exonum.Envelope.ofTx)) Toy.eid.toString = .ok Toy.plainReport := by
  obtain ⟨h1, h2, h3⟩ := Toy.shaded_holds
  refine ⟨h1, ⟨Toy.sig 1, (h3 (Toy.electionTx none)).2 (by simp [Toy.shaded, Toy.plainComplete, Toy.setup])⟩, ?_, ⟨Toy.strangersElectionTx (Toy.neighbour 8), ?_, ?_, ?_⟩, by decide +kernel⟩
  · intro t ht
    have : ∀ t ∈ Toy.shaded, cmpBytes Toy.eid.electionId.val t.id.electionId.val ≠ .gt := by decide +kernel
    exact ⟨this t ((h3 t).1 ht), h2 t ((h3 t).1 ht)⟩
  · exact (h3 _).2 (by simp [Toy.shaded])
  · decide +kernel
  · decide

/-- **C88 (false)** (what is reported) The command asked for an election by its full id reports on another one: anybody can create an election whose id has the same first 15
digits and is lesser; the transactions are then verified, and what is printed is the tally of that election.  (Same hypotheses as `C88_report_is_about_election_partial`, except that
the election's id is the least.) -/
theorem C88_report_is_about_election_false : ¬ ∀ (E : Env) (P : Plurality) (flags : Flags) (subs : List Exonum.Envelope), (∀ x ∈ subs, Labelled x) → ∀ e : ElectionTx,
    ElectionAt (Exonum.toStore (Exonum.deliverAll E OMap.empty subs)) e.id e →
    (∀ t, InStore (Exonum.toStore (Exonum.deliverAll E OMap.empty subs)) t → JsonProperties 119 t ∧ forget t = t) → ∀ lines : List Bytes,
    Client.report E P flags (Exonum.deliverAll E OMap.empty subs) e.id.toString = .ok lines →
    ∃ own, Own (Exonum.toStore (Exonum.deliverAll E OMap.empty subs)) e.id own ∧ E2e.report E P flags own = .ok lines := by
  intro h
  obtain ⟨h1, h2, h3⟩ := Toy.shadowed_holds
  obtain ⟨own, ⟨ho, hmem⟩, hr⟩ := h Toy.env Toy.plurality ⟨true, true, false⟩ _ h1 (Toy.election none)
    ⟨Toy.sig 1, (h3 (Toy.electionTx none)).2 (by simp [Toy.shadowed, Toy.plainComplete, Toy.setup])⟩ (fun t ht => h2 t ((h3 t).1 ht))
    (["> Election verified OK", "Votes:", "Tally:"].map str) (by decide +kernel)
  have hown : own = Toy.plainComplete := by
    refine MemStore.idLt_ext ho (sorted_of_decide (by decide +kernel)) fun t => ?_
    rw [hmem, h3]
    have h4 : ∀ t ∈ Toy.plainComplete, t.id.electionId = Toy.eid.electionId := by decide +kernel
    constructor
    · rintro ⟨h5, h6⟩
      rcases List.mem_cons.1 h5 with rfl | h5
      · exact absurd h6 (by decide)
      · exact h5
    · intro h5
      exact ⟨List.mem_cons_of_mem _ h5, h4 t h5⟩
  rw [hown] at hr
  exact absurd hr (by decide +kernel)

/-- **C88 (false)** (whether anything is reported) An election that would be verified by itself, and whose id is the least, is not verified because of somebody else's election whose
id begins alike. -/
theorem C88_report_despite_others_false : ¬ ∀ (E : Env) (P : Plurality) (flags : Flags) (subs : List Exonum.Envelope), (∀ x ∈ subs, Labelled x) → ∀ e : ElectionTx,
    ElectionAt (Exonum.toStore (Exonum.deliverAll E OMap.empty subs)) e.id e →
    (∀ t, InStore (Exonum.toStore (Exonum.deliverAll E OMap.empty subs)) t → cmpBytes e.id.electionId.val t.id.electionId.val ≠ .gt) →
    (∀ t, InStore (Exonum.toStore (Exonum.deliverAll E OMap.empty subs)) t → JsonProperties 119 t ∧ forget t = t) → ∀ (own : List SignedTx) (lines : List Bytes),
    Own (Exonum.toStore (Exonum.deliverAll E OMap.empty subs)) e.id own → E2e.report E P flags own = .ok lines →
    Client.report E P flags (Exonum.deliverAll E OMap.empty subs) e.id.toString = .ok lines := by
  intro h
  obtain ⟨h1, h2, h3⟩ := Toy.entangled_holds
  have hr := h Toy.env Toy.plurality ⟨true, true, false⟩ _ h1 (Toy.strangersElection (Toy.neighbour 6)) ⟨Toy.sig 9, (h3 (Toy.strangersElectionTx (Toy.neighbour 6))).2 (by simp [Toy.entangled])⟩
    (fun t ht => (by decide +kernel : ∀ t ∈ Toy.entangled, cmpBytes (Toy.neighbour 6).electionId.val t.id.electionId.val ≠ .gt) t ((h3 t).1 ht))
    (fun t ht => h2 t ((h3 t).1 ht)) [Toy.strangersElectionTx (Toy.neighbour 6)] (["> Election verified OK", "Votes:", "Tally:"].map str)
  have h4 : ∀ t ∈ Toy.earlyMix, t.id.electionId ≠ (Toy.neighbour 6).electionId := by decide +kernel
  have hr := hr ⟨by simp, fun t => by
    rw [h3]
    constructor
    · intro h5
      rw [List.mem_singleton.1 h5]
      exact ⟨by simp [Toy.entangled], rfl⟩
    · rintro ⟨h5, h6⟩
      rcases List.mem_cons.1 h5 with rfl | h5
      · simp
      · exact absurd h6 (h4 t h5)⟩ (by decide +kernel)
  exact absurd hr (by decide +kernel)

end Client

/-! ## Mislabelled submissions -/

namespace Toy

/-- the id of a stranger's vote in the stranger's own election -/
def strangersVoteId : Identifier := VoteTx.buildId eid2 (key 41)
/-- a stranger's election with an encryption key and a vote of the stranger's -/
def strangersVotes : List SignedTx :=
  [strangersElectionTx eid2, .encryptionKey ⟨EncryptionKeyTx.new eid2 (key 9) ⟨[6]⟩, sig 9⟩,
    .vote ⟨⟨strangersVoteId, eid2, str "b1", [⟨0, [ct "x"]⟩], key 41, []⟩, sig 41⟩]
/-- what the trustees of the sample election do with the stranger's vote -/
def strangersCounted : List SignedTx :=
  [.partialDecryption ⟨PartialDecryptionTx.new eid strangersVoteId 0 1 0 (key 11) [⟨(ct "x").raw⟩], sig 11⟩,
    .partialDecryption ⟨PartialDecryptionTx.new eid strangersVoteId 0 2 0 (key 12) [⟨(ct "x").raw⟩], sig 12⟩, .decryption (decOf strangersVoteId 0 "x")]
/-- copies of the stranger's transactions, labelled with ids that follow that of the sample election -/
def copies : List Exonum.Envelope :=
  (strangersVotes.zip [(1 : UInt8), 2, 3]).map fun x =>
    { Exonum.Envelope.ofTx x.1 with id := hexEncode (eid.electionId.val ++ [1] ++ List.replicate 15 0 ++ [x.2]) }
/-- all that a stranger and the trustees submit after the election -/
def foreignSubmissions : List Exonum.Envelope := (strangersVotes ++ strangersCounted).map Exonum.Envelope.ofTx ++ copies

/-- the node after them -/
def foreignNode : Exonum.Schema := Exonum.deliverAll Toy.env OMap.empty (plainComplete.map Exonum.Envelope.ofTx ++ foreignSubmissions)

/-- the answer is verified, and under the election is filed a decryption of the stranger's vote -/
def foreignCheck : Bool :=
  match Api.getAll foreignNode (some (eid.toString.take 15)) with
  | .ok (t :: ts) => match E2e.verify Toy.env (t :: ts) with
    | .ok m => decide (t.id = eid) && match m.getTransaction (decOf strangersVoteId 0 "x").tx.id with
      | some (.decryption d) => decide (d.tx.id = (decOf strangersVoteId 0 "x").tx.id ∧ d.tx.upstreamId = strangersVoteId)
      | _ => false
    | _ => false
  | _ => false

theorem foreign_check : foreignCheck = true := by decide +kernel

end Toy

namespace Client
open E2e

/-- **C88 (false)** (what is counted) If submissions need not be labelled with their ids, which nodes do not check (C36), a vote that was cast in another election can be counted.
A decryption may name any vote as the vote it decrypts, provided that it is found on the ledger, and the order in which the command replays the transactions is that of the labels: a
stranger sends copies of an election, its encryption key and a vote in it, with labels that come after the id of the sample election, and the sample election's trustees decrypt
that vote, which no authenticator has seen. -/
theorem C88_own_votes_only_false : ¬ ∀ (E : Env) (subs : List Exonum.Envelope) (p : Str) (t : SignedTx) (ts : List SignedTx) (m : MemStore),
    Api.getAll (Exonum.deliverAll E OMap.empty subs) (some p) = .ok (t :: ts) → verify E (t :: ts) = .ok m → ∀ d : Signed DecryptionTx,
    InStore m.toStore (.decryption d) → d.tx.id.electionId = t.id.electionId → d.tx.upstreamId.electionId = t.id.electionId := by
  intro h
  have hc := Toy.foreign_check
  unfold Toy.foreignCheck at hc
  split at hc
  · rename_i t ts h1
    split at hc
    · rename_i m h2
      rw [Bool.and_eq_true_iff] at hc
      obtain ⟨h3, hc⟩ := hc
      split at hc
      · rename_i d h4
        obtain ⟨h5, h6⟩ := of_decide_eq_true hc
        have h3 := of_decide_eq_true h3
        have := h Toy.env _ _ t ts m h1 h2 d (by rw [InStore, show (SignedTx.decryption d).id = d.tx.id from rfl, h5]; exact h4) (by rw [h5, h3]; decide)
        rw [h6, h3] at this
        exact absurd this (by decide)
      · cases hc
    · cases hc
  · cases hc

/-- The hypotheses of `C88_own_votes_only_partial` can be met: the report on the sample election lists the decryptions of its two votes. -/
example : (∀ x ∈ Toy.shaded.map Exonum.Envelope.ofTx, Labelled x) ∧ ∃ (t : SignedTx) (ts : List SignedTx) (m : MemStore) (d : Signed DecryptionTx),
    Api.getAll (Exonum.deliverAll Toy.env OMap.empty (Toy.shaded.map Exonum.Envelope.ofTx)) (some (Toy.eid.toString.take 15)) = .ok (t :: ts) ∧ verify Toy.env (t :: ts) = .ok m ∧
      InStore m.toStore (.decryption d) ∧ d.tx.id.electionId = t.id.electionId := by
  obtain ⟨h1, _, h3⟩ := Toy.shaded_holds
  refine ⟨h1, ?_⟩
  obtain ⟨txs, h4, h5, h6⟩ := (Api.C39_prefix_query_exact_partial Toy.env _ h1).1 (Toy.eid.toString.take 15)
  have h7 : txs = Toy.shaded := by
    refine MemStore.idLt_ext h6 (sorted_of_decide (by decide +kernel)) fun t => ?_
    have key : ∀ s u, Exonum.getTransaction s u.id = some u ↔ InStore (Exonum.toStore s) u := fun _ _ => Iff.rfl
    rw [h5, key, h3]
    have hp : (Toy.shaded.all fun t => (Toy.eid.toString.take 15).isPrefixOf t.id.toString) = true := by decide +kernel
    constructor
    · rintro ⟨h, _⟩; exact h
    · intro h; exact ⟨h, List.isPrefixOf_iff_prefix.1 (List.all_eq_true.1 hp t h)⟩
  obtain ⟨m, hm⟩ := Json.ok_of_check (r := verify Toy.env Toy.shaded) (by decide +kernel)
  have hd : SignedTx.decryption (Toy.decOf (VoteTx.buildId Toy.eid (Toy.key 31)) 0 "a") ∈ Toy.shaded := by simp [Toy.shaded, Toy.plainComplete]
  have hel : ∀ t ∈ Toy.shaded.head?, t.id.electionId = Toy.eid.electionId := by decide +kernel
  rw [← h7] at hm hd hel
  cases txs with
  | nil => cases hd
  | cons t ts =>
    refine ⟨t, ts, m, Toy.decOf (VoteTx.buildId Toy.eid (Toy.key 31)) 0 "a", h4, hm, ?_, (hel t rfl).symm⟩
    obtain ⟨_, rfl, _⟩ := (C40_e2e_replays _ _ _).1 hm
    exact (Toy.stored_iff (idLt_nodup h6) _).2 hd

end Client
end CB
