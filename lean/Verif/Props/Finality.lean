import Verif.Spec.Finality
import Verif.Props.Order
import Verif.Props.Verifiable
import Verif.Props.Foreign
/-!
# C78: results are final
-/

namespace CB
open Spec
namespace Exonum

/-- once voting has ended on a node, its votes stay as they are -/
theorem votes_final {E : Env} {s : Schema} {el : Identifier} (hend : SlotFilled (toStore s) el .votingEnd) (l : List Envelope) (hl : ∀ x ∈ l, Labelled x) (v : Signed VoteTx)
    (hv : InStore (toStore (deliverAll E s l)) (.vote v)) (hel : v.tx.id.electionId = el.electionId) : InStore (toStore s) (.vote v) := by
  induction l using List.reverseRecOn with
  | nil => exact hv
  | append_singleton l x ih =>
    have hl' : ∀ y ∈ l, Labelled y := fun y hy => hl y (by simp [hy])
    have hend' : SlotFilled (toStore (deliverAll E s l)) el .votingEnd := by
      obtain ⟨y, hy⟩ := hend
      obtain ⟨z, hz, hd⟩ := getTransaction_eq_some.1 hy
      exact ⟨y, getTransaction_eq_some.2 ⟨z, deliverAll_keeps hz, hd⟩⟩
    refine ih hl' ?_
    rw [deliverAll_snoc] at hv
    rcases deliver_cases E (deliverAll E s l) x with h' | ⟨hn, t, h1, h2, h'⟩
    · rw [h'] at hv; exact hv
    · rw [h'] at hv
      obtain ⟨z, hz, hd⟩ := getTransaction_eq_some.1 hv
      rw [OMap.get_insert] at hz
      split at hz
      · cases hz
        rw [h1] at hd
        cases hd
        obtain ⟨_, _, h3⟩ := SignedTx.validate_ok.1 h2
        obtain ⟨hid, _, _, _, _, hne, _⟩ := VoteTx.validateTx_ok_store.1 h3
        refine absurd ?_ hne
        obtain ⟨y, hy⟩ := hend'
        have : v.tx.election.electionId = el.electionId := by rw [← hel, hid]; rfl
        exact ⟨y, by simpa [singleId, this] using hy⟩
      · exact getTransaction_eq_some.2 ⟨z, hz, hd⟩

end Exonum

namespace E2e

/-- **C78** (without mixnet) When voting has ended and everything is decrypted, the tally that the command prints is final: whatever is submitted to the node afterwards, by
whomever, whenever the command verifies the election again it prints the same tally.  (An election may share the first 15 characters of its id with others; the tally printed is
that of the first transaction.)  Missing: elections with mixnet (`C78_results_are_final_false`), mislabelled submissions (`C78_unlabelled_false`). -/
theorem C78_results_are_final_partial (E : Env) (l l' : List Exonum.Envelope) (hl : ∀ x ∈ l ++ l', Labelled x) (e : ElectionTx)
    (he : ElectionAt (Exonum.toStore (Exonum.deliverAll E OMap.empty l)) e.id e) (hmix : e.mixConfig = none)
    (hend : SlotFilled (Exonum.toStore (Exonum.deliverAll E OMap.empty l)) e.id .votingEnd)
    (hdone : Counted (Exonum.toStore (Exonum.deliverAll E OMap.empty l)) e)
    (p : Str) (hp : p <+: hexEncode e.id.electionId.val) (txs : List SignedTx) (t' : SignedTx) (ts' : List SignedTx) (m m' : MemStore)
    (h1 : Api.getAll (Exonum.deliverAll E OMap.empty l) (some p) = .ok txs) (h2 : verify E txs = .ok m)
    (h1' : Api.getAll (Exonum.deliverAll E OMap.empty (l ++ l')) (some p) = .ok (t' :: ts')) (h2' : verify E (t' :: ts') = .ok m')
    (hfirst : t'.id.electionId = e.id.electionId) : tally m' e.id = tally m e.id := by
  have hll : ∀ x ∈ l, Labelled x := fun x hx => hl x (by simp [hx])
  have answer : ∀ (k : List Exonum.Envelope) (ts : List SignedTx) (M : MemStore), (∀ x ∈ k, Labelled x) →
      Api.getAll (Exonum.deliverAll E OMap.empty k) (some p) = .ok ts → verify E ts = .ok M →
      ts.Pairwise IdLt ∧ Ledger E M ∧ ∀ t, InStore M.toStore t ↔ InStore (Exonum.toStore (Exonum.deliverAll E OMap.empty k)) t ∧ p <+: t.id.toString := by
    intro k ts M hk ha hv
    obtain ⟨ts', ha', hmem, hpw⟩ := (Api.C39_prefix_query_exact_partial E k hk).1 p
    rw [ha] at ha'
    cases ha'
    have hnd := idLt_nodup hpw
    refine ⟨hpw, ledger_of_verify hv hnd, fun t => ?_⟩
    obtain ⟨_, rfl, _⟩ := (C40_e2e_replays E ts M).1 hv
    rw [Toy.stored_iff hnd, hmem]
    rfl
  obtain ⟨-, hL, hM⟩ := answer l txs m hll h1 h2
  obtain ⟨hpw', hL', hM'⟩ := answer (l ++ l') (t' :: ts') m' hl h1' h2'
  have hkS : Keeps (Exonum.toStore (Exonum.deliverAll E OMap.empty l)) (Exonum.toStore (Exonum.deliverAll E OMap.empty (l ++ l'))) := by
    intro id t ht
    rw [Exonum.deliverAll_append]
    obtain ⟨z, hz, hd⟩ := Exonum.getTransaction_eq_some.1 ht
    exact Exonum.getTransaction_eq_some.2 ⟨z, Exonum.deliverAll_keeps hz, hd⟩
  have hkM : Keeps m.toStore m'.toStore := by
    intro id t ht
    have hi := hL.lawful.keyed _ _ ht
    subst hi
    obtain ⟨a, b⟩ := (hM t).1 ht
    exact (hM' t).2 ⟨hkS _ _ a, b⟩
  have hpre : ∀ id : Identifier, id.electionId = e.id.electionId → p <+: id.toString := by
    intro id hid
    refine hp.trans ?_
    rw [Identifier.toString, Identifier.toArray, List.append_assoc, hexEncode_append, hid]
    exact List.prefix_append _ _
  have hscan : m'.toStore.getMultiple e.id .decryption = m.toStore.getMultiple e.id .decryption := by
    obtain ⟨ds, hds, _⟩ := hL.lawful.getMultiple e.id .decryption
    rw [hds]
    refine scan_congr hL.lawful hL'.lawful hkM hds ?_
    rintro u hu hnone ⟨hue, huty⟩
    have hty := hL'.replay.typed (id := u.id) hu
    rw [huty] at hty
    obtain ⟨d, rfl⟩ : ∃ d, u = .decryption d := by cases u <;> simp [SignedTx.transactionType] at hty ⊢
    obtain ⟨m0, hm0, hfresh, hv, hsteps⟩ := hL'.accepted hu
    have hext : Extends m0 m' := (Extends.set_fresh hfresh).trans hsteps.extends
    obtain ⟨hid, e', cts, he', hi, _⟩ := C30_decryption_is_threshold_decryption_partial E m0 hm0.replay d.tx d.sig hv
    have heS : ElectionAt m'.toStore e.id e := by
      obtain ⟨sg, he⟩ := he
      have hk := (Exonum.lawful (Exonum.wf_deliverAll (E := E) hll)).keyed _ _ he
      have := (hM' (.election ⟨e, sg⟩)).2 ⟨by rw [InStore, hk]; exact hkS _ _ he, hpre _ rfl⟩
      exact ⟨sg, this⟩
    obtain ⟨heq1, rfl⟩ := election_id_of hL' (electionAt_keeps (show Keeps m0.toStore m'.toStore from hext) he') heS (by
      have : d.tx.id.electionId = d.tx.electionId.electionId := by rw [hid]; rfl
      rw [← this]; exact hue)
    have hi' := itemAt_extends hext hi
    rw [hmix] at hi'
    cases hi' with
    | ofVote hg hvty hz hev hbefore =>
      rename_i v sg before after
      obtain ⟨hin, hvid, _, _⟩ := vote_stored hL' hg
      have hvS' := ((hM' _).1 hin)
      have hvel : v.id.electionId = e'.id.electionId := by
        rw [← hfirst, ← upstream_own hpw' h2' hu (by show d.tx.id.electionId = _; rw [hfirst]; exact hue)]
        exact congrArg Identifier.electionId hvid
      have hvS : InStore (Exonum.toStore (Exonum.deliverAll E OMap.empty l)) (.vote ⟨v, sg⟩) := by
        have := hvS'.1
        rw [Exonum.deliverAll_append] at this
        exact Exonum.votes_final hend l' (fun x hx => hl x (by simp [hx])) _ this hvel
      obtain ⟨d0, hd0, f1, f2, f3, f4⟩ := hdone.1 hmix ⟨v, sg⟩ hvS hvel ⟨d.tx.contestIndex, cts⟩ (by simp [hev])
      obtain ⟨M, hLM, hgM⟩ := Exonum.refines E l hll
      obtain ⟨M0, hM0, hv0⟩ := hLM.replay.accepted ((hgM (SignedTx.decryption d0).id).symm.trans hd0)
      have hid0 := (C30_decryption_is_threshold_decryption_partial E M0 hM0 d0.tx d0.sig hv0).1
      have hids : d0.tx.id = d.tx.id := by
        rw [hid0, hid, f1, f2, f3, f4, heq1, hz]
        exact congrArg (fun x => DecryptionTx.buildId _ x _ _) hvid
      have := (hM (.decryption d0)).2 ⟨hd0, hpre _ (by show d0.tx.id.electionId = _; rw [hids]; exact hue)⟩
      rw [InStore, show (SignedTx.decryption d0).id = (SignedTx.decryption d).id from hids, hnone] at this
      cases this
  unfold tally
  rw [hscan]

/-- **C78** (with and without mixnet) Only a quorum of trustees can change a result: if the command prints another tally later on, then a decryption has been stored in between, and
the election's threshold many distinct trustees have published shares of its item (or the item is an empty vote, which makes the command crash). -/
theorem C78_only_a_quorum_changes_results (E : Env) (hq : NeedsQuorum E) (l l' : List Exonum.Envelope) (hl : ∀ x ∈ l ++ l', Labelled x) (e : ElectionTx)
    (he : ElectionAt (Exonum.toStore (Exonum.deliverAll E OMap.empty l)) e.id e) (p : Str) (hp : p <+: hexEncode e.id.electionId.val) (txs txs' : List SignedTx) (m m' : MemStore)
    (h1 : Api.getAll (Exonum.deliverAll E OMap.empty l) (some p) = .ok txs) (h2 : verify E txs = .ok m)
    (h1' : Api.getAll (Exonum.deliverAll E OMap.empty (l ++ l')) (some p) = .ok txs') (h2' : verify E txs' = .ok m')
    (hne : tally m' e.id ≠ tally m e.id) :
    ∃ d : Signed DecryptionTx, InStore (Exonum.toStore (Exonum.deliverAll E OMap.empty (l ++ l'))) (.decryption d) ∧
      ¬ InStore (Exonum.toStore (Exonum.deliverAll E OMap.empty l)) (.decryption d) ∧ d.tx.electionId = e.id ∧
      (d.tx.decryptedVote = [] ∨ ∃ is : List UInt8, is.Nodup ∧ e.trusteesThreshold.toNat ≤ is.length ∧
        ∀ i ∈ is, (∃ tr ∈ e.trustees, tr.index = i) ∧ ∃ part, PartialFor (Exonum.toStore (Exonum.deliverAll E OMap.empty (l ++ l'))) d.tx i part) := by
  have hll : ∀ x ∈ l, Labelled x := fun x hx => hl x (by simp [hx])
  have answer : ∀ (k : List Exonum.Envelope) (ts : List SignedTx) (M : MemStore), (∀ x ∈ k, Labelled x) →
      Api.getAll (Exonum.deliverAll E OMap.empty k) (some p) = .ok ts → verify E ts = .ok M →
      Ledger E M ∧ ∀ t, InStore M.toStore t ↔ InStore (Exonum.toStore (Exonum.deliverAll E OMap.empty k)) t ∧ p <+: t.id.toString := by
    intro k ts M hk ha hv
    obtain ⟨ts', ha', hmem, hpw⟩ := (Api.C39_prefix_query_exact_partial E k hk).1 p
    rw [ha] at ha'
    cases ha'
    have hnd := idLt_nodup hpw
    refine ⟨ledger_of_verify hv hnd, fun t => ?_⟩
    obtain ⟨_, rfl, _⟩ := (C40_e2e_replays E ts M).1 hv
    rw [Toy.stored_iff hnd, hmem]
    rfl
  obtain ⟨hL, hM⟩ := answer l txs m hll h1 h2
  obtain ⟨hL', hM'⟩ := answer (l ++ l') txs' m' hl h1' h2'
  have hkS : Keeps (Exonum.toStore (Exonum.deliverAll E OMap.empty l)) (Exonum.toStore (Exonum.deliverAll E OMap.empty (l ++ l'))) := by
    intro id t ht
    rw [Exonum.deliverAll_append]
    obtain ⟨z, hz, hd⟩ := Exonum.getTransaction_eq_some.1 ht
    exact Exonum.getTransaction_eq_some.2 ⟨z, Exonum.deliverAll_keeps hz, hd⟩
  have hkM : Keeps m.toStore m'.toStore := by
    intro id t ht
    have hi := hL.lawful.keyed _ _ ht
    subst hi
    obtain ⟨a, b⟩ := (hM t).1 ht
    exact (hM' t).2 ⟨hkS _ _ a, b⟩
  have hpre : ∀ id : Identifier, id.electionId = e.id.electionId → p <+: id.toString := by
    intro id hid
    refine hp.trans ?_
    rw [Identifier.toString, Identifier.toArray, List.append_assoc, hexEncode_append, hid]
    exact List.prefix_append _ _
  refine Classical.by_contradiction fun hcon => hne ?_
  have hscan : m'.toStore.getMultiple e.id .decryption = m.toStore.getMultiple e.id .decryption := by
    obtain ⟨ds, hds, _⟩ := hL.lawful.getMultiple e.id .decryption
    rw [hds]
    refine scan_congr hL.lawful hL'.lawful hkM hds ?_
    rintro u hu hnone ⟨hue, huty⟩
    apply hcon
    have hty := hL'.replay.typed (id := u.id) hu
    rw [huty] at hty
    obtain ⟨d, rfl⟩ : ∃ d, u = .decryption d := by cases u <;> simp [SignedTx.transactionType] at hty ⊢
    obtain ⟨m0, hm0, hfresh, hv, hsteps⟩ := hL'.accepted hu
    have hext : Extends m0 m' := (Extends.set_fresh hfresh).trans hsteps.extends
    obtain ⟨hid, e', cts, he', _⟩ := C30_decryption_is_threshold_decryption_partial E m0 hm0.replay d.tx d.sig hv
    have heS : ElectionAt m'.toStore e.id e := by
      obtain ⟨sg, he⟩ := he
      have hk := (Exonum.lawful (Exonum.wf_deliverAll (E := E) hll)).keyed _ _ he
      have := (hM' (.election ⟨e, sg⟩)).2 ⟨by rw [InStore, hk]; exact hkS _ _ he, hpre _ rfl⟩
      exact ⟨sg, this⟩
    obtain ⟨heq1, rfl⟩ := election_id_of hL' (electionAt_keeps (show Keeps m0.toStore m'.toStore from hext) he') heS (by
      have : d.tx.id.electionId = d.tx.electionId.electionId := by rw [hid]; rfl
      rw [← this]; exact hue)
    refine ⟨d, ((hM' _).1 hu).1, fun hin => ?_, heq1, ?_⟩
    · have := (hM (.decryption d)).2 ⟨hin, hpre _ hue⟩
      rw [InStore, hnone] at this
      cases this
    · by_cases hdv : d.tx.decryptedVote = []
      · exact .inl hdv
      · obtain ⟨e2, he2, ⟨is, i1, i2, i3⟩, _⟩ := C31_distinct_quorum_partial E hq m0 hm0 d.tx d.sig hv hdv
        obtain ⟨-, rfl⟩ := election_id_of hL' (electionAt_keeps (show Keeps m0.toStore m'.toStore from hext) he2) heS (by rw [heq1])
        refine .inr ⟨is, i1, i2, fun i hi => ⟨(i3 i hi).2.1, ?_⟩⟩
        obtain ⟨part, hpart⟩ := (i3 i hi).2.2
        exact ⟨part, ((hM' _).1 (hext _ _ hpart.stored)).1, hpart.election, hpart.contest, hpart.trustee, hpart.item⟩
  unfold tally
  rw [hscan]

/-! ## Concrete elections -/

namespace Toy

/-- the check of `VotesDecrypted` or `MixesDecrypted` on a list of all that is stored -/
def countedCheck (ts : List SignedTx) (e : ElectionTx) : Bool :=
  let dec (up : Identifier) (n : UInt16) (c : UInt32) : Bool := ts.any fun t => match t with
    | .decryption d => decide (d.tx.electionId = e.id ∧ d.tx.upstreamId = up ∧ d.tx.upstreamIndex = n ∧ d.tx.contestIndex = c)
    | _ => false
  match e.mixConfig with
  | none => ts.all fun t => match t with
    | .vote v => v.tx.encryptedVotes.all fun ev => dec v.tx.id 0 ev.contestIndex
    | _ => true
  | some _ => (ts.all fun t => match t with
      | .vote v => v.tx.encryptedVotes.all fun ev => ts.any fun u => match u with
        | .mix x => decide (x.tx.electionId = e.id ∧ x.tx.contestIndex = ev.contestIndex ∧ v.tx.id ∈ x.tx.voteIds)
        | _ => false
      | _ => true) &&
    ts.all fun t => match t with
      | .mix x => (ts.any fun u => match u with | .mix y => decide (y.tx.prevMixId = some x.tx.id) | _ => false) ||
        (List.range x.tx.mixedCiphertexts.length).all fun n => dec x.tx.id (UInt16.ofNat n) x.tx.contestIndex
      | _ => true

theorem counted_of_check {S : Store} {ts : List SignedTx} {e : ElectionTx} (hS : ∀ t, InStore S t ↔ t ∈ ts) (h : countedCheck ts e = true) : Counted S e := by
  have hdec : ∀ up n c, (ts.any fun t => match t with
      | .decryption d => decide (d.tx.electionId = e.id ∧ d.tx.upstreamId = up ∧ d.tx.upstreamIndex = n ∧ d.tx.contestIndex = c)
      | _ => false) = true → DecryptedAt S e up n c := by
    intro up n c h
    obtain ⟨t, ht, h⟩ := List.any_eq_true.1 h
    split at h
    · exact ⟨_, (hS _).2 ht, of_decide_eq_true h⟩
    · cases h
  constructor
  · intro hm v hv _ ev hev
    simp only [countedCheck, hm] at h
    exact hdec _ _ _ (List.all_eq_true.1 (List.all_eq_true.1 h _ ((hS _).1 hv)) ev hev)
  · intro hm
    obtain ⟨cfg, hm⟩ := Option.ne_none_iff_exists'.1 hm
    simp only [countedCheck, hm, Bool.and_eq_true] at h
    refine ⟨fun v hv _ ev hev => ?_, fun x hx _ hlast n hn => ?_⟩
    · obtain ⟨u, hu, h'⟩ := List.any_eq_true.1 (List.all_eq_true.1 (List.all_eq_true.1 h.1 _ ((hS _).1 hv)) ev hev)
      split at h'
      · exact ⟨_, (hS _).2 hu, of_decide_eq_true h'⟩
      · cases h'
    · have h' := List.all_eq_true.1 h.2 _ ((hS _).1 hx)
      rcases Bool.or_eq_true_iff.1 h' with h' | h'
      · obtain ⟨u, hu, h'⟩ := List.any_eq_true.1 h'
        split at h'
        · exact absurd (of_decide_eq_true h') (hlast _ ((hS _).2 hu))
        · cases h'
      · have := List.all_eq_true.1 h' n.toNat (List.mem_range.2 hn)
        exact hdec _ _ _ (by simpa using this)

/-- all that the hypotheses say about a node given `ts`, later `ts'` (`only`: of this election only), and the tallies printed -/
def nodeCheck (ts ts' : List SignedTx) (mixed only : Bool) (before after : VRes Tally.Totals) : Bool :=
  let s := Exonum.deliverAll Toy.env OMap.empty (ts.map Exonum.Envelope.ofTx)
  let s' := Exonum.deliverAll Toy.env OMap.empty (ts.map Exonum.Envelope.ofTx ++ ts'.map Exonum.Envelope.ofTx)
  let p := Toy.eid.toString.take 15
  (ts ++ ts').all (fun t => match SignedTx.fromBytes (Exonum.Envelope.ofTx t).data with | .ok u => decide (u.id = t.id) | _ => true) &&
  match Exonum.getTransaction s Toy.eid, Api.getAll s none, Api.getAll s' none, Api.getAll s (some p), Api.getAll s' (some p) with
  | some (.election x), .ok all, .ok all', .ok txs, .ok txs' =>
    decide (x.tx.id = Toy.eid) && (x.tx.mixConfig.isSome == mixed) && (Exonum.getTransaction s (singleId Toy.eid .votingEnd)).isSome && countedCheck all x.tx &&
    all'.all (fun t => !only || decide (t.id.electionId = Toy.eid.electionId)) && (match txs' with | t :: _ => decide (t.id.electionId = Toy.eid.electionId) | [] => false) &&
    match verify Toy.env txs, verify Toy.env txs' with
    | .ok m, .ok m' => decide (tally m Toy.eid = before) && decide (tally m' Toy.eid = after)
    | _, _ => false
  | _, _, _, _, _ => false

theorem hypotheses {ts ts' : List SignedTx} {mixed only : Bool} {before after : VRes Tally.Totals} (h : nodeCheck ts ts' mixed only before after = true) :
    ∃ (l l' : List Exonum.Envelope) (e : ElectionTx) (p : Str) (txs txs' : List SignedTx) (m m' : MemStore), (∀ x ∈ l ++ l', Labelled x) ∧ p <+: hexEncode e.id.electionId.val ∧
      (∃ t' us, txs' = t' :: us ∧ t'.id.electionId = e.id.electionId) ∧
      ElectionAt (Exonum.toStore (Exonum.deliverAll Toy.env OMap.empty l)) e.id e ∧ e.mixConfig.isSome = mixed ∧
      SlotFilled (Exonum.toStore (Exonum.deliverAll Toy.env OMap.empty l)) e.id .votingEnd ∧ Counted (Exonum.toStore (Exonum.deliverAll Toy.env OMap.empty l)) e ∧
      (only = true → OnlyElection (Exonum.toStore (Exonum.deliverAll Toy.env OMap.empty (l ++ l'))) e p) ∧
      Api.getAll (Exonum.deliverAll Toy.env OMap.empty l) (some p) = .ok txs ∧ verify Toy.env txs = .ok m ∧
      Api.getAll (Exonum.deliverAll Toy.env OMap.empty (l ++ l')) (some p) = .ok txs' ∧ verify Toy.env txs' = .ok m' ∧ tally m e.id = before ∧ tally m' e.id = after := by
  unfold nodeCheck at h
  simp only [Bool.and_eq_true] at h
  obtain ⟨hlab, h⟩ := h
  have hlab' : ∀ x ∈ ts.map Exonum.Envelope.ofTx ++ ts'.map Exonum.Envelope.ofTx, Labelled x := by
    intro x hx u hu
    rw [← List.map_append] at hx
    obtain ⟨t, ht, rfl⟩ := List.mem_map.1 hx
    have := List.all_eq_true.1 hlab t ht
    rw [hu] at this
    rw [of_decide_eq_true this]
    rfl
  have hl1 : ∀ x ∈ ts.map Exonum.Envelope.ofTx, Labelled x := fun x hx => hlab' x (List.mem_append_left _ hx)
  split at h
  · rename_i x all all' txs txs' hx hall hall' htxs htxs'
    simp only [Bool.and_eq_true] at h
    obtain ⟨⟨⟨⟨⟨⟨h1, h2⟩, h3⟩, h4⟩, h5⟩, h0⟩, h6⟩ := h
    have h1 := of_decide_eq_true h1
    split at h6
    · rename_i m m' hm hm'
      simp only [Bool.and_eq_true, decide_eq_true_eq] at h6
      refine ⟨_, _, x.tx, _, txs, txs', m, m', hlab', ?_, ?_, ⟨x.sig, ?_⟩, eq_of_beq h2, ?_, ?_, fun ho => ⟨?_, ?_⟩, htxs, hm, htxs', hm', ?_, ?_⟩
      · rw [h1]; decide +kernel
      · split at h0
        · exact ⟨_, _, rfl, by rw [h1]; exact of_decide_eq_true h0⟩
        · cases h0
      · rw [h1]; exact hx
      · obtain ⟨y, hy⟩ := Option.isSome_iff_exists.1 h3
        rw [h1]
        exact ⟨y, hy⟩
      · obtain ⟨lst, hlst, hmem, _⟩ := (Api.C39_prefix_query_exact_partial Toy.env _ hl1).2.1
        rw [hall] at hlst
        cases hlst
        exact counted_of_check (fun t => (hmem t).symm) h4
      · rw [h1]; decide +kernel
      · intro t ht _
        obtain ⟨lst, hlst, hmem, _⟩ := (Api.C39_prefix_query_exact_partial Toy.env _ hlab').2.1
        rw [hall'] at hlst
        cases hlst
        rw [h1]
        have := List.all_eq_true.1 h5 t ((hmem t).2 ht)
        rw [ho] at this
        exact of_decide_eq_true this
      · rw [h1]; exact h6.1
      · rw [h1]; exact h6.2
    · cases h6
  · cases h

theorem plain_check : nodeCheck Toy.plainComplete [Toy.voteTx 33 "b", Toy.voteTx 31 "b", Toy.endTx, Toy.strangersElectionTx (Toy.neighbour 8)] false false (.ok [(str "a", 1), (str "b", 1)]) (.ok [(str "a", 1), (str "b", 1)]) = true := by
  decide +kernel

theorem twice_check : nodeCheck Toy.complete (Toy.twice.drop 19) true true (.ok [(str "a", 1), (str "b", 1)]) (.ok [(str "b", 2), (str "a", 1)]) = true := by
  decide +kernel

end Toy

/-- The hypotheses can be met: two votes without mixnet, both decrypted, and afterwards further votes and an election with a similar id. -/
example := Toy.hypotheses Toy.plain_check

/-- **C78 (false)** With mixnet the tally is not final: after voting has ended and all outputs of the last mix are decrypted, trustees can have outputs of an earlier mix decrypted in
addition, and the tally printed for the verified election changes. -/
theorem C78_results_are_final_false : ¬ ∀ (E : Env) (l l' : List Exonum.Envelope), (∀ x ∈ l ++ l', Labelled x) → ∀ e : ElectionTx,
    ElectionAt (Exonum.toStore (Exonum.deliverAll E OMap.empty l)) e.id e → SlotFilled (Exonum.toStore (Exonum.deliverAll E OMap.empty l)) e.id .votingEnd →
    Counted (Exonum.toStore (Exonum.deliverAll E OMap.empty l)) e → ∀ p : Str, OnlyElection (Exonum.toStore (Exonum.deliverAll E OMap.empty (l ++ l'))) e p →
    ∀ (txs txs' : List SignedTx) (m m' : MemStore), Api.getAll (Exonum.deliverAll E OMap.empty l) (some p) = .ok txs → verify E txs = .ok m →
    Api.getAll (Exonum.deliverAll E OMap.empty (l ++ l')) (some p) = .ok txs' → verify E txs' = .ok m' → tally m' e.id = tally m e.id := by
  intro h
  obtain ⟨l, l', e, p, txs, txs', m, m', h1, -, -, h2, -, h3, h4, h5, h6, h7, h8, h9, h10, h11⟩ := Toy.hypotheses Toy.twice_check
  have := h _ _ _ h1 _ h2 h3 h4 _ (h5 rfl) _ _ _ _ h6 h7 h8 h9
  rw [h10, h11] at this
  exact absurd this (by decide)

/-- The hypotheses of `C78_only_a_quorum_changes_results` can be met, with mixnet: both trustees publish shares of outputs of an earlier mix, and one vote counts twice. -/
example : NeedsQuorum CB.Toy.env ∧ ∃ l l' e p txs txs' m m', (∀ x ∈ l ++ l', Labelled x) ∧ p <+: hexEncode e.id.electionId.val ∧
    ElectionAt (Exonum.toStore (Exonum.deliverAll CB.Toy.env OMap.empty l)) e.id e ∧
    Api.getAll (Exonum.deliverAll CB.Toy.env OMap.empty l) (some p) = .ok txs ∧ verify CB.Toy.env txs = .ok m ∧
    Api.getAll (Exonum.deliverAll CB.Toy.env OMap.empty (l ++ l')) (some p) = .ok txs' ∧ verify CB.Toy.env txs' = .ok m' ∧ tally m' e.id ≠ tally m e.id := by
  refine ⟨toy_needsQuorum _, ?_⟩
  obtain ⟨l, l', e, p, txs, txs', m, m', h1, hp, -, h2, -, h3, h4, h5, h6, h7, h8, h9, h10, h11⟩ := Toy.hypotheses Toy.twice_check
  exact ⟨l, l', e, p, txs, txs', m, m', h1, hp, h2, h6, h7, h8, h9, by rw [h10, h11]; decide⟩

/-- the sample election without mixnet on a node, and what a stranger and the trustees submit after it -/
def Toy.foreignTallies : Bool :=
  let s := Exonum.deliverAll Toy.env OMap.empty (Toy.plainComplete.map Exonum.Envelope.ofTx)
  match Api.getAll s (some (Toy.eid.toString.take 15)), Api.getAll Toy.foreignNode (some (Toy.eid.toString.take 15)) with
  | .ok txs, .ok (t' :: ts') => decide (t'.id = Toy.eid) && match verify Toy.env txs, verify Toy.env (t' :: ts') with
    | .ok m, .ok m' => decide (tally m Toy.eid = .ok [(str "a", 1), (str "b", 1)]) && decide (tally m' Toy.eid = .ok [(str "a", 1), (str "b", 1), (str "x", 1)])
    | _, _ => false
  | _, _ => false

theorem Toy.foreign_tallies : Toy.foreignTallies = true := by decide +kernel

theorem Toy.plain_holds : Toy.Holds Toy.plainComplete := Toy.node_holds (by decide +kernel) rfl (by decide +kernel) (by decide +kernel)

/-- **C78 (false)** Without mixnet, if later submissions need not be labelled with their ids, the tally is not final: a vote of another election is counted afterwards, see
`C88_own_votes_only_false`.  (Same hypotheses as `C78_results_are_final_partial`, except that only the submissions before are labelled.) -/
theorem C78_unlabelled_false : ¬ ∀ (E : Env) (l l' : List Exonum.Envelope), (∀ x ∈ l, Labelled x) → ∀ e : ElectionTx,
    ElectionAt (Exonum.toStore (Exonum.deliverAll E OMap.empty l)) e.id e → e.mixConfig = none → SlotFilled (Exonum.toStore (Exonum.deliverAll E OMap.empty l)) e.id .votingEnd →
    Counted (Exonum.toStore (Exonum.deliverAll E OMap.empty l)) e → ∀ p : Str, p <+: hexEncode e.id.electionId.val →
    ∀ (txs : List SignedTx) (t' : SignedTx) (ts' : List SignedTx) (m m' : MemStore), Api.getAll (Exonum.deliverAll E OMap.empty l) (some p) = .ok txs → verify E txs = .ok m →
    Api.getAll (Exonum.deliverAll E OMap.empty (l ++ l')) (some p) = .ok (t' :: ts') → verify E (t' :: ts') = .ok m' → t'.id.electionId = e.id.electionId →
    tally m' e.id = tally m e.id := by
  intro h
  obtain ⟨h1, _, h3⟩ := Toy.plain_holds
  have hc := Toy.foreign_tallies
  unfold Toy.foreignTallies at hc
  dsimp only at hc
  split at hc
  · rename_i txs t' ts' g1 g1'
    rw [Bool.and_eq_true_iff] at hc
    obtain ⟨g3, hc⟩ := hc
    split at hc
    · rename_i m m' g2 g2'
      rw [Bool.and_eq_true_iff] at hc
      have h4 := of_decide_eq_true hc.1
      have h5 := of_decide_eq_true hc.2
      have := h Toy.env _ _ h1 (Toy.election none) ⟨Toy.sig 1, (h3 (Toy.electionTx none)).2 (by simp [Toy.plainComplete, Toy.setup])⟩ rfl
        ⟨Toy.endTx, (h3 Toy.endTx).2 (by simp [Toy.plainComplete])⟩ (Toy.counted_of_check h3 (by decide +kernel)) _ (by decide +kernel) txs t' ts' m m' g1 g2 g1' g2'
        (by rw [of_decide_eq_true g3]; rfl)
      exact absurd (h4.symm.trans (this.symm.trans h5)) (by decide)
    · cases hc
  · cases hc

end E2e
end CB
