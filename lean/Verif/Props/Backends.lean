import Verif.Props.Sawtooth
import Verif.Spec.Backends
import Mathlib.Data.List.Induction
/-!
# C101: the two ledgers set elections up alike
-/

namespace CB
open Spec

namespace Sawtooth

/-- set-up transactions are judged by the election they name only -/
theorem setup_congr {E : Env} {S S' : Store} {t : SignedTx} (hk : kindOf t ∈ setupKinds)
    (h : ∀ id e, S.getTransaction id = some (.election e) → ∃ e', S'.getTransaction id = some (.election e') ∧ forgetElection e'.tx = forgetElection e.tx)
    (hv : t.validate E S = .ok ()) : t.validate E S' = .ok () := by
  rw [SignedTx.validate_ok] at hv ⊢
  refine ⟨hv.1, hv.2.1, ?_⟩
  have hv := hv.2.2
  have hex : ∀ {e e' : ElectionTx}, forgetElection e' = forgetElection e → e'.authorityPublic = e.authorityPublic ∧ e'.trustees.length = e.trustees.length ∧
      (∀ i k, trusteeExists e'.trustees i k = trusteeExists e.trustees i k) ∧ e'.trustees.map (·.index) = e.trustees.map (·.index) := by
    intro e e' he
    have h1 : e'.trustees.map forgetTrustee = e.trustees.map forgetTrustee := congrArg ElectionTx.trustees he
    refine ⟨(congrArg ElectionTx.authorityPublic he : _), by simpa using congrArg List.length h1, fun i k => ?_, ?_⟩
    · have : ∀ l : List Trustee, trusteeExists l i k = trusteeExists (l.map forgetTrustee) i k := by
        intro l; simp only [trusteeExists, List.any_map]; rfl
      rw [this, this e.trustees, h1]
    · have : ∀ l : List Trustee, l.map (·.index) = (l.map forgetTrustee).map (·.index) := by
        intro l; simp only [List.map_map]; rfl
      rw [this, this e.trustees, h1]
  cases t with
  | election s => exact hv
  | keyGenCommitment s =>
    have hv : s.tx.validateTx S = .ok () := hv
    show s.tx.validateTx S' = .ok ()
    simp only [KeyGenCommitmentTx.validateTx, Res.bind_def, Res.bind_eq_ok, Store.getElection_ok, Res.failIf_eq_ok] at hv ⊢
    obtain ⟨e, he, hx⟩ := hv
    obtain ⟨e', he', hf⟩ := h _ _ he
    exact ⟨e', he', by rw [(hex hf).2.2.1]; exact hx⟩
  | keyGenShare s =>
    have hv : s.tx.validateTx S = .ok () := hv
    show s.tx.validateTx S' = .ok ()
    simp only [KeyGenShareTx.validateTx, Res.bind_def, Res.bind_eq_ok, Res.exists_unit, Store.getElection_ok, Res.failIf_eq_ok] at hv ⊢
    obtain ⟨e, he, hx, hy, hz⟩ := hv
    obtain ⟨e', he', hf⟩ := h _ _ he
    obtain ⟨-, h2, h3, h4⟩ := hex hf
    refine ⟨e', he', by rw [h3]; exact hx, by rw [h2]; exact hy, ?_⟩
    rw [Res.forEach_eq_ok] at hz ⊢
    intro tr htr
    have : tr.index ∈ e.tx.trustees.map (·.index) := by rw [← h4]; exact List.mem_map_of_mem htr
    obtain ⟨tr', htr', hi⟩ := List.mem_map.1 this
    rw [← hi]
    exact hz tr' htr'
  | keyGenPublicKey s =>
    have hv : s.tx.validateTx S = .ok () := hv
    show s.tx.validateTx S' = .ok ()
    simp only [KeyGenPublicKeyTx.validateTx, Res.bind_def, Res.bind_eq_ok, Store.getElection_ok, Res.failIf_eq_ok] at hv ⊢
    obtain ⟨e, he, hx⟩ := hv
    obtain ⟨e', he', hf⟩ := h _ _ he
    exact ⟨e', he', by rw [(hex hf).2.2.1]; exact hx⟩
  | votingEnd s =>
    have hv : s.tx.validateTx S = .ok () := hv
    show s.tx.validateTx S' = .ok ()
    simp only [VotingEndTx.validateTx, Res.bind_def, Res.bind_eq_ok, Store.getElection_ok, Res.failIf_eq_ok] at hv ⊢
    obtain ⟨e, he, hx⟩ := hv
    obtain ⟨e', he', hf⟩ := h _ _ he
    exact ⟨e', he', by rw [(hex hf).1]; exact hx⟩
  | _ => exact absurd hk (by simp only [kindOf]; decide)

theorem forget_election {t : SignedTx} {e : Signed ElectionTx} (h : forget t = .election e) : ∃ e', t = .election e' ∧ e = ⟨forgetElection e'.tx, e'.sig⟩ := by
  cases t <;> simp only [forget, SignedTx.election.injEq, reduceCtorEq] at h
  exact ⟨_, rfl, h.symm⟩

theorem exonum_get {s : Exonum.Schema} {id : Identifier} {t : SignedTx} :
    Exonum.getTransaction s id = some t ↔ ∃ x, s.get id.toString = some x ∧ SignedTx.fromBytes x.data = .ok t := by
  unfold Exonum.getTransaction Exonum.Envelope.decoded
  split
  · rename_i b hb
    simp only [hb, Option.some.injEq, exists_eq_left']
    split <;> simp_all
  · simp_all

theorem exonum_ok {E : Env} {s s' : Exonum.Schema} {x : Exonum.Envelope} {t : SignedTx} (hx : SignedTx.fromBytes x.data = .ok t) :
    Exonum.verifyAndStore E s x = .ok s' ↔ s.get x.id = none ∧ t.validate E (Exonum.toStore s) = .ok () ∧ s' = s.insert x.id x := by
  unfold Exonum.verifyAndStore
  split
  · rename_i h
    simp only [reduceCtorEq, false_iff, not_and]
    intro h0; rw [h0] at h; cases h
  · rename_i h
    rw [Option.not_isSome_iff_eq_none] at h
    simp only [Res.bind_eq_ok, Res.mapErr_eq_ok, Res.exists_unit, Res.ok.injEq, h, true_and, hx, exists_eq_left']
    exact and_congr_right fun _ => eq_comm

/-- what the two ledgers have in common after the same payloads -/
structure Agree (pre : Str) (l : List Bytes) (s : State) (x : Exonum.Schema) : Prop where
  wf : WF pre s
  filed : ∀ k y, x.get k = some y → y.data ∈ l ∧ ∃ t, SignedTx.fromBytes y.data = .ok t ∧ k = t.id.toString ∧ t.id.txType = kindOf t
  same : ∀ id u, getTransaction pre s id = some u ↔ ∃ t, Exonum.getTransaction x id = some t ∧ kindOf t ∈ setupKinds ∧ u = forget t

theorem agree (E : Env) (pre : Str) (l : List Bytes) (hl : NoElectionTwice l) :
    Agree pre l (applyAll E pre OMap.empty l) (Exonum.deliverAll E OMap.empty (l.filterMap posting)) := by
  induction l using List.reverseRecOn with
  | nil =>
    refine ⟨wf_empty pre, fun k y h => (nomatch h), fun id u => ?_⟩
    constructor
    · intro h; cases h
    · rintro ⟨t, h, -⟩; cases h
  | append_singleton l p ih =>
    have hl' := List.pairwise_append.1 hl
    have ih := ih hl'.1
    have hlast : ∀ q ∈ l, ∀ a b, SignedTx.fromBytes q = .ok (.election a) → SignedTx.fromBytes p = .ok (.election b) → a.tx.id ≠ b.tx.id :=
      fun q hq => hl'.2.2 q hq p (by simp)
    have hsnoc : Exonum.deliverAll E OMap.empty ((l ++ [p]).filterMap posting) =
        ([p].filterMap posting).foldl (Exonum.deliver E) (Exonum.deliverAll E OMap.empty (l.filterMap posting)) := by
      rw [List.filterMap_append]; exact List.foldl_append
    rw [applyAll_snoc, hsnoc]
    clear hsnoc
    generalize applyAll E pre OMap.empty l = s at ih ⊢
    generalize Exonum.deliverAll E OMap.empty (l.filterMap posting) = x at ih ⊢
    have grow : ∀ {s : State} {x : Exonum.Schema}, Agree pre l s x → Agree pre (l ++ [p]) s x :=
      fun h => ⟨h.wf, fun k y hy => ⟨List.mem_append_left _ (h.filed k y hy).1, (h.filed k y hy).2⟩, h.same⟩
    cases hd : SignedTx.fromBytes p with
    | err e =>
      have h1 : ∀ s', apply E pre s p ≠ .ok s' := fun s' h => by obtain ⟨t, ht, -⟩ := apply_ok.1 h; rw [hd] at ht; cases ht
      have h2 : posting p = none := by unfold posting; rw [hd]
      simp only [List.filterMap_cons, h2, List.filterMap_nil, List.foldl_nil]
      exact grow ih
    | panic e =>
      have h1 : ∀ s', apply E pre s p ≠ .ok s' := fun s' h => by obtain ⟨t, ht, -⟩ := apply_ok.1 h; rw [hd] at ht; cases ht
      have h2 : posting p = none := by unfold posting; rw [hd]
      simp only [List.filterMap_cons, h2, List.filterMap_nil, List.foldl_nil]
      exact grow ih
    | ok t =>
      obtain ⟨y, hy, hyd, hyi⟩ : ∃ y, posting p = some y ∧ y.data = p ∧ y.id = t.id.toString := by
        refine ⟨_, by unfold posting; rw [hd], rfl, rfl⟩
      simp only [List.filterMap_cons, hy, List.filterMap_nil, List.foldl_cons, List.foldl_nil]
      have hyx : SignedTx.fromBytes y.data = .ok t := by rw [hyd]; exact hd
      have hins : ∀ id, Exonum.getTransaction (x.insert y.id y) id = if id = t.id then some t else Exonum.getTransaction x id := by
        intro id
        unfold Exonum.getTransaction
        rw [OMap.get_insert]
        by_cases hi : id = t.id
        · rw [if_pos hi, hi, if_pos hyi.symm]
          simp only [Exonum.Envelope.decoded, hyx]
        · rw [if_neg hi, if_neg (fun h => hi (Identifier.toString_injective (h.trans hyi)))]
      have hfiled : t.id.txType = kindOf t → ∀ k z, (x.insert y.id y).get k = some z → z.data ∈ l ++ [p] ∧ ∃ t, SignedTx.fromBytes z.data = .ok t ∧ k = t.id.toString ∧ t.id.txType = kindOf t := by
        intro htt k z hz
        rw [OMap.get_insert] at hz
        split at hz
        · rename_i hk
          cases hz
          exact ⟨by rw [hyd]; simp, t, hyx, hk.trans hyi, htt⟩
        · exact ⟨List.mem_append_left _ (ih.filed k z hz).1, (ih.filed k z hz).2⟩
      have htype : ∀ {S : Store}, t.validate E S = .ok () → t.id.txType = kindOf t := fun h => by rw [kindOf_eq]; exact (SignedTx.validate_ok.1 h).1
      by_cases hk : kindOf t ∈ setupKinds
      · -- a set-up transaction: both take it or both do not
        have hv : t.validate E (toStore pre s) = .ok () ↔ t.validate E (Exonum.toStore x) = .ok () := by
          constructor
          · refine setup_congr hk fun id e he => ?_
            obtain ⟨u, hu, -, hf⟩ := (ih.same id _).1 he
            obtain ⟨e', rfl, he'⟩ := forget_election hf.symm
            refine ⟨e', hu, ?_⟩
            rw [he']
            simp only [forgetElection, List.map_map]
            congr 1
          · refine setup_congr hk fun id e he => ?_
            refine ⟨⟨forgetElection e.tx, e.sig⟩, (ih.same id _).2 ⟨_, he, (by decide : TxType.election ∈ setupKinds), rfl⟩, ?_⟩
            simp only [forgetElection, List.map_map]
            congr 1
        have habs : t.id.txType = kindOf t → ((kindOf t = .election ∨ getTransaction pre s t.id = none) ↔ x.get y.id = none) := by
          intro htt
          constructor
          · intro h
            cases hg : x.get y.id with
            | none => rfl
            | some z =>
              exfalso
              obtain ⟨hz, t', ht', hid, hty⟩ := ih.filed _ _ hg
              have hid : t'.id = t.id := Identifier.toString_injective (hid.symm.trans hyi)
              have hkk : kindOf t' = kindOf t := by rw [← hty, hid, htt]
              rcases h with h | h
              · rw [h] at hkk
                cases t <;> simp only [kindOf, reduceCtorEq] at h
                cases t' <;> simp only [kindOf, reduceCtorEq] at hkk
                exact hlast _ hz _ _ ht' hd hid
              · have : getTransaction pre s t.id = some (forget t') :=
                  (ih.same _ _).2 ⟨t', exonum_get.2 ⟨z, by rw [← hyi]; exact hg, ht'⟩, by rw [hkk]; exact hk, rfl⟩
                rw [h] at this; cases this
          · intro h
            right
            cases hg : getTransaction pre s t.id with
            | none => rfl
            | some u =>
              exfalso
              obtain ⟨t', ht', -⟩ := (ih.same _ _).1 hg
              obtain ⟨z, hz, -⟩ := exonum_get.1 ht'
              rw [← hyi, h] at hz; cases hz
        by_cases hval : t.validate E (toStore pre s) = .ok ()
        · have htt := htype hval
          by_cases hn : x.get y.id = none
          · have h1 : apply E pre s p = .ok (s.insert (address pre t.id) t.asBytes) := apply_ok.2 ⟨t, hd, (habs htt).2 hn, hval, rfl⟩
            have h2 : Exonum.deliver E x y = x.insert y.id y := by
              unfold Exonum.deliver; rw [(exonum_ok hyx).2 ⟨hn, hv.1 hval, rfl⟩]
            rw [h1, h2]
            refine ⟨wf_apply ih.wf h1, hfiled htt, fun id u => ?_⟩
            rw [hins]
            have hsaw : getTransaction pre (s.insert (address pre t.id) t.asBytes) id = if id = t.id then some (forget t) else getTransaction pre s id := by
              unfold getTransaction
              rw [OMap.get_insert]
              by_cases hi : id = t.id
              · rw [if_pos hi, hi, if_pos rfl]
                simp only [C47_serialization_roundtrip t (rustData_of_fromBytes hd)]
              · rw [if_neg hi, if_neg (fun h => hi (address_injective h))]
            rw [hsaw]
            split
            · simp only [Option.some.injEq, exists_eq_left', hk, true_and]
              exact eq_comm
            · exact ih.same id u
          · have h1 : ∀ s', apply E pre s p ≠ .ok s' := fun s' h => by
              obtain ⟨t', ht', ha, -⟩ := apply_ok.1 h
              rw [hd] at ht'; cases ht'
              exact hn ((habs htt).1 ha)
            have h2 : Exonum.deliver E x y = x := by
              unfold Exonum.deliver
              split
              · exact absurd ((exonum_ok hyx).1 ‹_›).1 hn
              · rfl
            rw [h2]
            split
            · exact absurd ‹_› (h1 _)
            · exact grow ih
        · have h1 : ∀ s', apply E pre s p ≠ .ok s' := fun s' h => by
            obtain ⟨t', ht', -, ha, -⟩ := apply_ok.1 h
            rw [hd] at ht'; cases ht'
            exact hval ha
          have h2 : Exonum.deliver E x y = x := by
            unfold Exonum.deliver
            split
            · exact absurd (hv.2 ((exonum_ok hyx).1 ‹_›).2.1) hval
            · rfl
          rw [h2]
          split
          · exact absurd ‹_› (h1 _)
          · exact grow ih
      · -- anything else: Sawtooth does not take it
        have h1 : ∀ s', apply E pre s p ≠ .ok s' := fun s' h => by
          obtain ⟨t', ht', -, ha, -⟩ := apply_ok.1 h
          rw [hd] at ht'; cases ht'
          exact hk (validates_setup ih.wf ha)
        have : Agree pre (l ++ [p]) s (Exonum.deliver E x y) := by
          unfold Exonum.deliver
          split
          · rename_i x' hx'
            obtain ⟨-, hval, rfl⟩ := (exonum_ok hyx).1 hx'
            refine ⟨ih.wf, hfiled (htype hval), fun id u => ?_⟩
            rw [hins]
            split
            · rename_i hi
              constructor
              · intro h
                obtain ⟨hid, h2, h3⟩ := get_setup ih.wf h
                rw [← h2, hid, hi, htype hval] at h3
                exact absurd h3 hk
              · rintro ⟨t', ht', hk', -⟩
                cases ht'
                exact absurd hk' hk
            · exact ih.same id u
          · exact grow ih
        split
        · exact absurd ‹_› (h1 _)
        · exact this

/-- **C101** Send the same payloads, in the same order, to the Sawtooth processor and to an Exonum node, none of them an election whose id an earlier one had.  Then what Sawtooth
holds is exactly what Exonum holds of elections, key generation and ends of voting. -/
theorem C101_sawtooth_is_exonum_set_up (E : Env) (pre : Str) (l : List Bytes) (hl : NoElectionTwice l) (id : Identifier) (u : SignedTx) :
    getTransaction pre (applyAll E pre OMap.empty l) id = some u ↔
      ∃ t, Exonum.getTransaction (Exonum.deliverAll E OMap.empty (l.filterMap posting)) id = some t ∧ kindOf t ∈ setupKinds ∧ u = forget t :=
  (agree E pre l hl).same id u

/-- whether a payload is an election, and of which id -/
def electionIn (p : Bytes) : Option Identifier :=
  match SignedTx.fromBytes p with
  | .ok (.election a) => some a.tx.id
  | _ => none

theorem noElectionTwice_of {l : List Bytes} (h : (l.filterMap electionIn).Nodup) : NoElectionTwice l := by
  rw [List.Nodup, List.pairwise_filterMap] at h
  refine h.imp fun {p q} h a b ha hb => ?_
  exact h _ (by simp only [electionIn, ha]) _ (by simp only [electionIn, hb])

/-- the sample election with a vote: the hypothesis is met, and both hold its key generation, but only Exonum the vote -/
example : let l := (Toy.setup ++ [Toy.voteTx 31 "a"]).map SignedTx.asBytes
    NoElectionTwice l ∧ (getTransaction (str "abc123") (applyAll Toy.env (str "abc123") OMap.empty l) (Toy.pkTx 1 11).id).isSome ∧
    getTransaction (str "abc123") (applyAll Toy.env (str "abc123") OMap.empty l) (Toy.voteTx 31 "a").id = none ∧
    (Exonum.getTransaction (Exonum.deliverAll Toy.env OMap.empty (l.filterMap posting)) (Toy.voteTx 31 "a").id).isSome := by
  refine ⟨noElectionTwice_of (by decide +kernel), by decide +kernel, ?_, by decide +kernel⟩
  exact Option.isNone_iff_eq_none.1 (by decide +kernel)

/-- **C101 is false of the code** when an election comes again under the same id: Exonum keeps the first, Sawtooth the last. -/
theorem C101_same_elections_false : ¬ ∀ (E : Env) (pre : Str) (l : List Bytes) (id : Identifier) (u : SignedTx),
    getTransaction pre (applyAll E pre OMap.empty l) id = some u ↔
      ∃ t, Exonum.getTransaction (Exonum.deliverAll E OMap.empty (l.filterMap posting)) id = some t ∧ kindOf t ∈ setupKinds ∧ u = forget t := by
  intro h
  have h1 : (match getTransaction (str "abc123") (applyAll Toy.env (str "abc123") OMap.empty [Toy.electionTx.asBytes, stolen.asBytes]) Toy.eid with
    | some t => t.pub == some (Toy.key 99) | none => false) = true := by decide +kernel
  have h2 : (match Exonum.getTransaction (Exonum.deliverAll Toy.env OMap.empty ([Toy.electionTx.asBytes, stolen.asBytes].filterMap posting)) Toy.eid with
    | some t => t.pub == some (Toy.key 1) | none => false) = true := by decide +kernel
  split at h1
  · rename_i u hu
    obtain ⟨t, ht, -, rfl⟩ := (h _ _ _ _ _).1 hu
    rw [ht] at h2
    have : (forget t).pub = t.pub := by cases t <;> rfl
    rw [this, eq_of_beq h2] at h1
    exact absurd (eq_of_beq h1) (by decide +kernel)
  · cases h1

end Sawtooth
end CB
