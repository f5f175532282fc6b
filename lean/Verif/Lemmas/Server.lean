import Verif.Model.Server
import Verif.Spec.Server
import Verif.Lemmas.AcceptDec
import Verif.Lemmas.Pigeon
import Verif.Props.Setup
import Mathlib.Data.List.Nodup
import Mathlib.Data.List.Perm.Subperm
/-!
# Lemmas about trustee nodes
-/

namespace CB
open Spec

theorem SignedTx.intoKeyGenCommitment_ok {t : SignedTx} {s : Signed KeyGenCommitmentTx} :
    t.intoKeyGenCommitment = .ok s ↔ t = .keyGenCommitment s := by cases t <;> simp [SignedTx.intoKeyGenCommitment]
theorem SignedTx.intoKeyGenShare_ok {t : SignedTx} {s : Signed KeyGenShareTx} :
    t.intoKeyGenShare = .ok s ↔ t = .keyGenShare s := by cases t <;> simp [SignedTx.intoKeyGenShare]

namespace Server

@[simp] theorem v_eq_ok {α : Type} {r : VRes α} {a : α} : v r = .ok a ↔ r = .ok a := by simp [v]
@[simp] theorem v_ok {α : Type} (a : α) : v (.ok a) = .ok a := rfl

theorem sign_eq {T : Type} [CBTransaction T] {N : NodeEnv} {sk : SecretKey} {tx : T}
    (h : ∀ k, CBTransaction.pub tx = some k → k = N.edPublic sk) :
    sign N sk tx = .ok ⟨tx, N.edSign sk (CBTransaction.asBytes tx)⟩ := by
  unfold sign Signed.sign
  split
  · rename_i k hk
    rw [h k hk]
    simp [Res.mapErr]
  · rfl

theorem sign_ok {T : Type} [CBTransaction T] {N : NodeEnv} {sk : SecretKey} {tx : T} {s : Signed T} (h : sign N sk tx = .ok s) :
    s = ⟨tx, N.edSign sk (CBTransaction.asBytes tx)⟩ ∧ ∀ k, CBTransaction.pub tx = some k → k = N.edPublic sk := by
  unfold sign Signed.sign at h
  dsimp only at h
  split at h
  · rename_i k hk
    split at h
    · simp [Res.mapErr] at h
    · rename_i hne
      simp only [Res.mapErr, Res.ok.injEq] at h
      refine ⟨h.symm, fun k' hk' => ?_⟩
      rw [hk] at hk'
      cases hk'
      exact (Decidable.not_not.1 hne).symm
  · rename_i hn
    simp only [Res.mapErr, Res.ok.injEq] at h
    exact ⟨h.symm, fun k hk => by rw [hn] at hk; cases hk⟩

theorem stepTxs_perm {S : Store} {e : ElectionTx} {ty : TxType} {l l' : List SignedTx} (h : StepTxs S e ty l) (h' : StepTxs S e ty l') :
    l.length = l'.length := by
  have key : ∀ {l l' : List SignedTx}, StepTxs S e ty l → StepTxs S e ty l' → l.length ≤ l'.length := by
    intro l l' h h'
    have h1 : (l.map SignedTx.id) ⊆ l'.map SignedTx.id := by
      intro x hx
      obtain ⟨t, ht, rfl⟩ := List.mem_map.1 hx
      exact List.mem_map_of_mem ((h'.2 t).2 ((h.2 t).1 ht))
    have := (List.Nodup.subperm h.1 h1).length_le
    simpa using this
  exact Nat.le_antisymm (key h h') (key h' h)

theorem countIs_iff {S : Store} {e : ElectionTx} {ty : TxType} {l : List SignedTx} (h : StepTxs S e ty l) {n : Nat} :
    CountIs S e ty n ↔ l.length = n :=
  ⟨fun ⟨_, h', hn⟩ => (stepTxs_perm h h').trans hn, fun hn => ⟨l, h, hn⟩⟩

/-- Scanning for one kind. -/
theorem getAll_spec {T : Type} {S : Store} (hS : Lawful S) (hT : Typed S) (e : ElectionTx) {ty : TxType} {into : SignedTx → VRes (Signed T)}
    {wrap : Signed T → SignedTx} (hi : ∀ t s, into t = .ok s ↔ t = wrap s) (hk : ∀ t, kindOf t = ty → ∃ s, t = wrap s) :
    ∃ ss : List (Signed T), S.getMultiple e.id ty = .ok (ss.map wrap) ∧ getAll S e.id ty into = .ok (ss.map (·.tx)) ∧
      StepTxs S e ty (ss.map wrap) ∧ (ss.map wrap).Pairwise IdLt := by
  obtain ⟨l, h1, h2, h3⟩ := hS.getMultiple e.id ty
  have hl : ∀ l : List SignedTx, (∀ t ∈ l, ∃ s, t = wrap s) → ∃ ss : List (Signed T), l = ss.map wrap := by
    intro l
    induction l with
    | nil => intro _; exact ⟨[], rfl⟩
    | cons t l ih =>
      intro h
      obtain ⟨s, rfl⟩ := h t (by simp)
      obtain ⟨ss, rfl⟩ := ih fun t ht => h t (by simp [ht])
      exact ⟨s :: ss, rfl⟩
  obtain ⟨ss, rfl⟩ := hl l fun t ht => by
    obtain ⟨a, b, c⟩ := (h2 t).1 ht
    exact hk t ((hT t a).symm.trans c)
  refine ⟨ss, h1, ?_, ⟨idLt_nodup h3, fun t => ?_⟩, h3⟩
  · unfold getAll
    rw [h1]
    simp only [v_ok, Res.bind_def, Res.ok_bind]
    rw [(mapM'_into hi).2 rfl]
    rfl
  · rw [h2]
    refine and_congr_right fun hin => and_congr_right fun _ => ?_
    rw [hT t hin]

theorem getAll_commits {S : Store} (hS : Lawful S) (hT : Typed S) (e : ElectionTx) :
    ∃ ss : List (Signed KeyGenCommitmentTx), getAll S e.id .keyGenCommitment SignedTx.intoKeyGenCommitment = .ok (ss.map (·.tx)) ∧
      StepTxs S e .keyGenCommitment (ss.map .keyGenCommitment) := by
  obtain ⟨ss, _, h, h', _⟩ := getAll_spec hS hT e (ty := .keyGenCommitment) (wrap := .keyGenCommitment) (fun t s => SignedTx.intoKeyGenCommitment_ok (t := t) (s := s))
    (fun t ht => by cases t <;> simp_all [kindOf])
  exact ⟨ss, h, h'⟩

theorem getAll_shares {S : Store} (hS : Lawful S) (hT : Typed S) (e : ElectionTx) :
    ∃ ss : List (Signed KeyGenShareTx), getAll S e.id .keyGenShare SignedTx.intoKeyGenShare = .ok (ss.map (·.tx)) ∧
      StepTxs S e .keyGenShare (ss.map .keyGenShare) := by
  obtain ⟨ss, _, h, h', _⟩ := getAll_spec hS hT e (ty := .keyGenShare) (wrap := .keyGenShare) (fun t s => SignedTx.intoKeyGenShare_ok (t := t) (s := s))
    (fun t ht => by cases t <;> simp_all [kindOf])
  exact ⟨ss, h, h'⟩

theorem getAll_pks {S : Store} (hS : Lawful S) (hT : Typed S) (e : ElectionTx) :
    ∃ ss : List (Signed KeyGenPublicKeyTx), S.getMultiple e.id .keyGenPublicKey = .ok (ss.map .keyGenPublicKey) ∧
      getAll S e.id .keyGenPublicKey SignedTx.intoKeyGenPublicKey = .ok (ss.map (·.tx)) ∧
      StepTxs S e .keyGenPublicKey (ss.map .keyGenPublicKey) := by
  obtain ⟨ss, h0, h, h', _⟩ := getAll_spec hS hT e (ty := .keyGenPublicKey) (wrap := .keyGenPublicKey) (fun t s => SignedTx.intoKeyGenPublicKey_ok (t := t) (s := s))
    (fun t ht => by cases t <;> simp_all [kindOf])
  exact ⟨ss, h0, h, h'⟩

theorem getAll_votes {S : Store} (hS : Lawful S) (hT : Typed S) (e : ElectionTx) :
    ∃ ss : List (Signed VoteTx), S.getMultiple e.id .vote = .ok (ss.map .vote) ∧
      getAll S e.id .vote SignedTx.intoVote = .ok (ss.map (·.tx)) ∧ StepTxs S e .vote (ss.map .vote) ∧ AllVotes S e.id ss := by
  obtain ⟨ss, h0, h, h', _⟩ := getAll_spec hS hT e (ty := .vote) (wrap := .vote) (fun t s => SignedTx.intoVote_ok (t := t) (s := s))
    (fun t ht => by cases t <;> simp_all [kindOf])
  exact ⟨ss, h0, h, h', (allVotes_of_getMultiple hS).1 h0⟩

theorem trusteeFromElection_some {e : ElectionTx} {key : PublicKey} {tr : Trustee} (h : trusteeFromElection e key = some tr) :
    tr.publicKey = key ∧ IsTrustee e tr.index key := by
  have h1 := List.mem_of_find?_eq_some h
  have h2 := List.find?_some h
  simp only [beq_iff_eq] at h2
  simp only [ElectionTx.getFullTrustees, List.mem_map] at h1
  obtain ⟨tr0, hm, rfl⟩ := h1
  exact ⟨h2, tr0, hm, rfl, h2⟩

theorem trusteeFromElection_none {e : ElectionTx} {key : PublicKey} : trusteeFromElection e key = none ↔ ¬ TrusteeKey e key := by
  unfold trusteeFromElection TrusteeKey
  rw [List.find?_eq_none]
  simp only [ElectionTx.getFullTrustees, List.mem_map, beq_iff_eq]
  constructor
  · rintro h ⟨tr, hm, hk⟩
    exact h _ ⟨tr, hm, rfl⟩ hk
  · rintro h _ ⟨tr, hm, rfl⟩ hk
    exact h ⟨tr, hm, hk⟩

theorem trusteeFromElection_of {e : ElectionTx} {key : PublicKey} (h : TrusteeKey e key) : ∃ tr, trusteeFromElection e key = some tr := by
  cases htr : trusteeFromElection e key with
  | none => exact absurd h (trusteeFromElection_none.1 htr)
  | some tr => exact ⟨tr, rfl⟩

theorem getElection_at {S : Store} {id : Identifier} {e : ElectionTx} (h : ElectionAt S id e) : ∃ sig, S.getElection id = .ok ⟨e, sig⟩ :=
  h.imp fun _ h => Store.getElection_ok.2 h

theorem electionAt_id {S : Store} (hS : Lawful S) {id : Identifier} {e : ElectionTx} (h : ElectionAt S id e) : e.id = id := by
  obtain ⟨sig, h⟩ := h
  exact hS.keyed _ _ h

theorem keygenStep_inj {ty : TxType} {i j : UInt8} {el : Identifier} {s s' : Step} (h : keygenStep i ty = some s) (h' : keygenStep j ty = some s')
    (heq : stepId el s = stepId el s') : i = j := by
  cases ty <;> simp only [keygenStep, Option.some.injEq, reduceCtorEq] at h h' <;> subst h <;> subst h' <;>
    simp only [stepId, KeyGenCommitmentTx.buildId, KeyGenShareTx.buildId, KeyGenPublicKeyTx.buildId, Identifier.new, Option.getD_some, Identifier.mk.injEq, true_and] at heq <;>
    exact trusteeUnique_inj heq

theorem trustee_of_index {e : ElectionTx} (hd : DistinctTrustees e) {a b : Trustee} (ha : a ∈ e.trustees) (hb : b ∈ e.trustees) (h : a.index = b.index) : a = b :=
  List.inj_on_of_nodup_map hd ha hb h

/-- index of the trustee a key-generation transaction names, 0 if none -/
def indexOf (t : SignedTx) : UInt8 := ((trusteeOf t).map Prod.fst).getD 0

/-- In their own slots, as many transactions as trustees means one by each trustee. -/
theorem countIs_done {S : Store} {e : ElectionTx} {ty : TxType} (hd : DistinctTrustees e) (ho : OwnSlots S e ty) :
    CountIs S e ty e.trustees.length ↔ StepDone S e ty := by
  constructor
  · rintro ⟨l, ⟨hn, hm⟩, hlen⟩ tr htr
    have hidx : (l.map indexOf).Nodup := by
      refine List.Nodup.map_on ?_ (List.Nodup.of_map _ hn)
      intro a ha b hb hab
      obtain ⟨a1, a2, a3⟩ := (hm a).1 ha
      obtain ⟨b1, b2, b3⟩ := (hm b).1 hb
      obtain ⟨ta, _, h1, sa, h2, h3⟩ := ho a a1 a2 a3
      obtain ⟨tb, _, h4, sb, h5, h6⟩ := ho b b1 b2 b3
      simp only [indexOf, h1, h4, Option.map_some, Option.getD_some] at hab
      rw [hab, h5] at h2
      have : a.id = b.id := by rw [h3, h6]; cases h2; rfl
      unfold InStore at a1 b1
      rw [this, b1] at a1
      exact (Option.some.inj a1).symm
    have hp := perm_of_nodup_subset (l := l.map indexOf) (l' := e.trustees.map (·.index)) hidx ?_ (by simp [hlen])
    · have : tr.index ∈ l.map indexOf := hp.mem_iff.2 (List.mem_map_of_mem htr)
      obtain ⟨t, ht, hi⟩ := List.mem_map.1 this
      obtain ⟨a1, a2, a3⟩ := (hm t).1 ht
      obtain ⟨tr', htr', h1, _⟩ := ho t a1 a2 a3
      simp only [indexOf, h1, Option.map_some, Option.getD_some] at hi
      have := trustee_of_index hd htr' htr hi
      subst this
      exact ⟨t, a1, a2, a3, h1⟩
    · intro x hx
      obtain ⟨t, ht, rfl⟩ := List.mem_map.1 hx
      obtain ⟨a1, a2, a3⟩ := (hm t).1 ht
      obtain ⟨tr', htr', h1, _⟩ := ho t a1 a2 a3
      simp only [indexOf, h1, Option.map_some, Option.getD_some]
      exact List.mem_map_of_mem htr'
  · intro h
    have key : ∀ trs : List Trustee, trs ⊆ e.trustees → (trs.map (·.index)).Nodup →
        ∃ l : List SignedTx, l.length = trs.length ∧ (l.map SignedTx.id).Nodup ∧ ∀ t, t ∈ l ↔ ∃ tr ∈ trs, InStore S t ∧ t.id.electionId = e.id.electionId ∧
          kindOf t = ty ∧ trusteeOf t = some (tr.index, tr.publicKey) := by
      intro trs
      induction trs with
      | nil => intro _ _; exact ⟨[], rfl, by simp, by simp⟩
      | cons tr trs ih =>
        intro hsub hnd
        rw [List.map_cons, List.nodup_cons] at hnd
        obtain ⟨l, h1, h2, h3⟩ := ih (fun x hx => hsub (by simp [hx])) hnd.2
        obtain ⟨t, t1, t2, t3, t4⟩ := h tr (hsub (by simp))
        refine ⟨t :: l, by simp [h1], ?_, ?_⟩
        · rw [List.map_cons, List.nodup_cons]
          refine ⟨fun hmem => ?_, h2⟩
          obtain ⟨t', ht', hid⟩ := List.mem_map.1 hmem
          obtain ⟨tr', htr', a1, a2, a3, a4⟩ := (h3 t').1 ht'
          unfold InStore at a1 t1
          rw [hid, t1] at a1
          cases a1
          rw [t4] at a4
          simp only [Option.some.injEq, Prod.mk.injEq] at a4
          exact hnd.1 (List.mem_map.2 ⟨tr', htr', a4.1.symm⟩)
        · intro u
          simp only [List.mem_cons]
          constructor
          · rintro (rfl | hu)
            · exact ⟨tr, .inl rfl, t1, t2, t3, t4⟩
            · obtain ⟨tr', htr', hrest⟩ := (h3 u).1 hu
              exact ⟨tr', .inr htr', hrest⟩
          · rintro ⟨tr', rfl | htr', a1, a2, a3, a4⟩
            · left
              obtain ⟨ta, _, h1, sa, h2, h3⟩ := ho u a1 a2 a3
              obtain ⟨tb, _, h4, sb, h5, h6⟩ := ho t t1 t2 t3
              rw [a4] at h1
              rw [t4] at h4
              simp only [Option.some.injEq, Prod.mk.injEq] at h1 h4
              rw [← h1.1] at h2
              rw [← h4.1, h2] at h5
              have : u.id = t.id := by rw [h3, h6]; cases h5; rfl
              unfold InStore at a1 t1
              rw [this, t1] at a1
              exact (Option.some.inj a1).symm
            · exact .inr ((h3 u).2 ⟨tr', htr', a1, a2, a3, a4⟩)
    obtain ⟨l, h1, h2, h3⟩ := key e.trustees (fun _ h => h) hd
    refine ⟨l, ⟨h2, fun t => ?_⟩, h1⟩
    rw [h3]
    constructor
    · rintro ⟨_, _, a1, a2, a3, _⟩; exact ⟨a1, a2, a3⟩
    · rintro ⟨a1, a2, a3⟩
      obtain ⟨tr, htr, h, _⟩ := ho t a1 a2 a3
      exact ⟨tr, htr, a1, a2, a3, h⟩

/-! ## Shares -/

theorem IndexMap.length_insertList {κ ν : Type} [DecidableEq κ] (k : κ) (x : ν) (l : List (κ × ν)) (h : k ∉ l.map Prod.fst) :
    (IndexMap.insertList k x l).length = l.length + 1 := by
  induction l with
  | nil => rfl
  | cons e l ih =>
    obtain ⟨k', v'⟩ := e
    simp only [List.map_cons, List.mem_cons, not_or] at h
    simp only [IndexMap.insertList]
    rw [if_neg fun h' => h.1 h'.symm]
    simp [ih h.2]

theorem encryptShares_keys {ε : Type} {N : NodeEnv} {rng : Rng} {sk : SecretKey} {el : Identifier} {g : N.Gen} {l : List (UInt8 × X25519Pub)} {k : Nat}
    {m m' : IndexMap UInt8 EncryptedShare} (h : (Trustee.encryptShares N rng sk el g k m l : Res ε _) = .ok m') :
    (∀ i, i ∈ m'.entries.map Prod.fst ↔ i ∈ m.entries.map Prod.fst ∨ i ∈ l.map Prod.fst) ∧
    ((l.map Prod.fst).Nodup → (∀ i ∈ l.map Prod.fst, i ∉ m.entries.map Prod.fst) → m'.entries.length = m.entries.length + l.length) := by
  induction l generalizing k m with
  | nil =>
    simp only [Trustee.encryptShares, Res.ok.injEq] at h
    subst h
    simp
  | cons e l ih =>
    obtain ⟨i, key⟩ := e
    simp only [Trustee.encryptShares, Res.bind_eq_ok] at h
    obtain ⟨share, _, h⟩ := h
    obtain ⟨h1, h2⟩ := ih h
    constructor
    · intro j
      rw [h1]
      simp only [IndexMap.insert, IndexMap.mem_keys_insertList, List.map_cons, List.mem_cons]
      tauto
    · intro hn hf
      rw [List.map_cons, List.nodup_cons] at hn
      rw [h2 hn.2]
      · simp only [IndexMap.insert]
        rw [IndexMap.length_insertList _ _ _ (hf i (by simp))]
        simp; omega
      · intro j hj hm
        simp only [IndexMap.insert, IndexMap.mem_keys_insertList] at hm
        rcases hm with rfl | hm
        · exact hn.1 hj
        · exact hf j (by rw [List.map_cons]; exact List.mem_cons_of_mem _ hj) hm

theorem expect_no_err {ε ε' α : Type} {r : Except ε' α} {p : Panic} {er : ε} : (Res.expect r p : Res ε α) ≠ .err er := by
  unfold Res.expect; split <;> simp

theorem generateShares_no_err {ε : Type} {N : NodeEnv} {t : Trustee} {rng : Rng} {sk : SecretKey} {keys : List (UInt8 × X25519Pub)} {el : Identifier}
    {cs : List (UInt8 × KeygenCommitment)} {er : ε} (h : t.generateShares N rng sk keys el cs = .err er) : False := by
  have h1 : ∀ cs (g : N.Gen), (Trustee.receiveCommitments N g cs : Res ε N.Gen) ≠ .err er := by
    intro cs
    induction cs with
    | nil => simp [Trustee.receiveCommitments]
    | cons c cs ih =>
      intro g h
      simp only [Trustee.receiveCommitments, Res.bind_eq_err] at h
      rcases h with h | ⟨g', _, h⟩
      · exact expect_no_err h
      · exact ih _ h
  have h2 : ∀ l k m (g : N.Gen), (Trustee.encryptShares N rng sk el g k m l : Res ε _) ≠ .err er := by
    intro l
    induction l with
    | nil => simp [Trustee.encryptShares]
    | cons e l ih =>
      intro k m g h
      simp only [Trustee.encryptShares, Res.bind_eq_err] at h
      rcases h with h | ⟨g', _, h⟩
      · exact expect_no_err h
      · exact ih _ _ _ h
  simp only [Trustee.generateShares, Res.bind_eq_err] at h
  rcases h with h | ⟨g, _, h⟩
  · exact h1 _ _ h
  · exact h2 _ _ _ _ h

end Server
end CB
