import Verif.Props.Sawtooth
import Verif.Props.E2eHonest
import Verif.Lemmas.Network
/-!
# C87: debug and release nodes
-/

namespace CB
open Spec

/-- The same program with the same primitives, compiled with or without overflow checks and debug assertions. -/
def Spec.build (E : Env) (checks asserts : Bool) : Env := { E with overflowChecks := checks, debugAssertions := asserts }

theorem verifyShares_build (E : Env) (c d : Bool) (proof : PubkeyProof) (l : List DecryptShare) (cs : List Ciphertext) :
    PartialDecryptionTx.verifyShares (build E c d) proof l cs = PartialDecryptionTx.verifyShares E proof l cs := by
  induction l generalizing cs with
  | nil => cases cs <;> rfl
  | cons s l ih =>
    cases cs with
    | nil => rfl
    | cons x cs => simp only [PartialDecryptionTx.verifyShares, ih]; rfl

theorem decryptVote_build (E : Env) (c d : Bool) (k : UInt8) (trs : List Trustee) (pks : List KeyGenPublicKeyTx) (ps : List PartialDecryptionTx) (n : Nat)
    (cs : List Ciphertext) : decryptVoteFrom (build E c d) k trs pks ps n cs = decryptVoteFrom E k trs pks ps n cs := by
  induction cs generalizing n with
  | nil => rfl
  | cons x cs ih => simp only [decryptVoteFrom, ih]; rfl

theorem build_other (E : Env) (c d : Bool) (S : Store) (t : SignedTx) (h : kindOf t ≠ .mix) : t.validate (build E c d) S = t.validate E S := by
  cases t <;> first | rfl | skip
  · exact absurd rfl h
  · simp only [SignedTx.validate, Signed.validate, CBTransaction.validateTx, PartialDecryptionTx.validateTx, verifyShares_build]; rfl
  · simp only [SignedTx.validate, Signed.validate, CBTransaction.validateTx, DecryptionTx.validateTx, decryptVote, decryptVote_build]; rfl

/-- Where the checking build stops with an overflow. -/
def Spec.OverflowCause (S : Store) (t : SignedTx) : Prop :=
  ∃ m : Signed MixTx, t = .mix m ∧
    ((∃ e tr, S.getTransaction m.tx.electionId = some (.election e) ∧ tr ∈ e.tx.trustees ∧ tr.index = 0) ∨
      ∃ pid prev, m.tx.prevMixId = some pid ∧ S.getTransaction pid = some (.mix prev) ∧ prev.tx.mixIndex = 255)

theorem bind_or {ε α β : Type} {x : Res ε α} {f g : α → Res ε β} {C : Prop} {p : Panic} (h : ∀ a, x = .ok a → f a = g a ∨ (f a = .panic p ∧ C)) :
    x.bind f = x.bind g ∨ (x.bind f = .panic p ∧ C) := by
  cases x with
  | ok a => exact h a rfl
  | err e => exact .inl rfl
  | panic q => exact .inl rfl

theorem bind_or' {ε α β : Type} {x y : Res ε α} {f : α → Res ε β} {C : Prop} {p : Panic} (h : x = y ∨ (x = .panic p ∧ C)) :
    x.bind f = y.bind f ∨ (x.bind f = .panic p ∧ C) := by
  rcases h with h | ⟨h, hc⟩
  · rw [h]; exact .inl rfl
  · rw [h]; exact .inr ⟨rfl, hc⟩

theorem mix_inputs_build (E : Env) (d d' : Bool) (S : Store) (t : MixTx) :
    t.inputs (build E true d) S = t.inputs (build E false d') S ∨ (t.inputs (build E true d) S = .panic .overflow ∧
      ∃ pid prev, t.prevMixId = some pid ∧ S.getTransaction pid = some (.mix prev) ∧ prev.tx.mixIndex = 255) := by
  unfold MixTx.inputs
  cases hp : t.prevMixId with
  | none => exact .inl rfl
  | some pid =>
    simp only [MixTx.inputsFromPrev, Res.bind_def]
    refine bind_or fun raw hraw => bind_or fun prev hprev => bind_or' ?_
    rw [Res.ofOption_eq_ok] at hraw
    rw [SignedTx.intoMix_ok] at hprev
    by_cases h : prev.tx.mixIndex = 255
    · exact .inr ⟨by rw [h]; rfl, pid, prev, rfl, hprev ▸ hraw, h⟩
    · left
      have : ¬ prev.tx.mixIndex.toNat + (1 : UInt8).toNat ≥ 256 := by
        intro hc
        have := prev.tx.mixIndex.toNat_lt
        exact h (UInt8.toNat_inj.1 (by simp at hc ⊢; omega))
      unfold Env.addU8
      rw [if_neg fun hc => this hc.1, if_neg fun hc => this hc.1]

theorem mix_build (E : Env) (d d' : Bool) (S : Store) (t : MixTx) :
    t.validateTx (build E true d) S = t.validateTx (build E false d') S ∨ (t.validateTx (build E true d) S = .panic .overflow ∧
      ((∃ e tr, S.getTransaction t.electionId = some (.election e) ∧ tr ∈ e.tx.trustees ∧ tr.index = 0) ∨
      ∃ pid prev, t.prevMixId = some pid ∧ S.getTransaction pid = some (.mix prev) ∧ prev.tx.mixIndex = 255)) := by
  simp only [MixTx.validateTx, Res.bind_def]
  refine bind_or fun _ _ => bind_or fun e he => bind_or fun _ _ => bind_or fun _ htr => ?_
  rw [Store.getElection_ok] at he
  rw [Res.failIf_eq_ok, Bool.not_eq_false', trusteeExists_iff] at htr
  obtain ⟨tr, htr, hi, _⟩ := htr
  by_cases h : t.trusteeIndex = 0
  · refine .inr ⟨?_, .inl ⟨e, tr, he, htr, hi.trans h⟩⟩
    rw [h]; rfl
  · have h1 : ¬ t.trusteeIndex < 1 := by
      intro hc
      rw [UInt8.lt_iff_toNat_lt] at hc
      exact h (UInt8.toNat_inj.1 (by simp at hc ⊢; omega))
    have hs : ∀ c d, ((build E c d).subU8 t.trusteeIndex 1 : VRes UInt8) = .ok (t.trusteeIndex - 1) := fun c d => by
      unfold Env.subU8
      rw [if_neg fun hc => h1 hc.1]
    rw [hs, hs, Res.ok_bind, Res.ok_bind]
    refine bind_or fun _ _ => bind_or fun _ _ => ?_
    rcases mix_inputs_build E d d' S t with hin | ⟨hin, hc⟩
    · rw [hin]; exact .inl rfl
    · rw [hin]; exact .inr ⟨rfl, .inr hc⟩

/-- **C87** On any store, a node compiled with overflow checks and one without come to the very same verdict on a transaction, except that the one with checks panics, and so refuses,
where the transaction is a mix and either the election lists a trustee of index 0, or the mix says it follows a stored mix of index 255.  In particular what the
checking node accepts the other accepts, with whatever debug assertions. -/
theorem C87_verdicts_differ_by_overflow (E : Env) (d d' : Bool) (S : Store) (t : SignedTx) :
    (t.validate (build E true d) S = t.validate (build E false d') S ∨
      (t.validate (build E true d) S = .panic .overflow ∧ OverflowCause S t)) ∧
    (t.validate (build E true d) S = .ok () → t.validate (build E false d') S = .ok ()) ∧
    ∀ c, t.validate (build E c d) S = t.validate (build E c d') S := by
  have key : t.validate (build E true d) S = t.validate (build E false d') S ∨
      (t.validate (build E true d) S = .panic .overflow ∧ OverflowCause S t) := by
    by_cases h : kindOf t = .mix
    · cases t <;> simp only [kindOf, reduceCtorEq] at h
      rename_i m
      simp only [SignedTx.validate_eq]
      refine bind_or fun _ _ => ?_
      have : (SignedTx.mix m).verifySignature (build E true d) = (SignedTx.mix m).verifySignature (build E false d') := rfl
      rw [this]
      refine bind_or fun _ _ => ?_
      rcases mix_build E d d' S m.tx with h | ⟨h, hc⟩
      · exact .inl h
      · exact .inr ⟨h, m, rfl, hc⟩
    · left; rw [build_other _ _ _ _ _ h, build_other _ _ _ _ _ h]
  refine ⟨key, fun h => ?_, fun c => ?_⟩
  · rcases key with k | ⟨k, _⟩
    · rw [← k]; exact h
    · rw [k] at h; cases h
  · by_cases h : kindOf t = .mix
    · cases t <;> simp only [kindOf, reduceCtorEq] at h
      rfl
    · rw [build_other _ _ _ _ _ h, build_other _ _ _ _ _ h]

/-- Without an overflow all builds come to the same verdict. -/
theorem build_agree {E : Env} {S : Store} {t : SignedTx} (h : ¬ OverflowCause S t) (c d c' d' : Bool) :
    t.validate (build E c d) S = t.validate (build E c' d') S := by
  have base : ∀ c d, t.validate (build E c d) S = t.validate (build E false false) S := by
    intro c d
    cases c with
    | false => exact (C87_verdicts_differ_by_overflow E d false S t).2.2 false
    | true =>
      rcases (C87_verdicts_differ_by_overflow E d false S t).1 with h' | ⟨_, h'⟩
      · exact h'
      · exact absurd h' h
  rw [base, base c' d']

namespace Exonum

/-- no stored election lists a trustee of index 0, and no stored mix has index 255 -/
structure Low (s : Schema) : Prop where
  elections : ∀ k x e, s.get k = some x → SignedTx.fromBytes x.data = .ok (.election e) → ∀ tr ∈ e.tx.trustees, tr.index ≠ 0
  mixes : ∀ k x m, s.get k = some x → SignedTx.fromBytes x.data = .ok (.mix m) → m.tx.mixIndex ≠ 255

theorem Low.no_overflow {s : Schema} (h : Low s) (t : SignedTx) : ¬ OverflowCause (toStore s) t := by
  rintro ⟨m, rfl, ⟨e, tr, he, htr, h0⟩ | ⟨pid, prev, _, hp, h255⟩⟩
  · obtain ⟨x, hx, hd⟩ := getTransaction_eq_some.1 he
    exact h.elections _ _ _ hx hd tr htr h0
  · obtain ⟨x, hx, hd⟩ := getTransaction_eq_some.1 hp
    exact h.mixes _ _ _ hx hd h255

theorem Low.mix_index {E : Env} {s : Schema} (h : Low s) {m : Signed MixTx} (hv : (SignedTx.mix m).validate E (toStore s) = .ok ()) : m.tx.mixIndex ≠ 255 := by
  have hv := (SignedTx.validate_ok.1 hv).2.2
  change m.tx.validateTx E (toStore s) = .ok () at hv
  simp only [MixTx.validateTx, Res.bind_def, Res.bind_eq_ok, Res.exists_unit, Res.failIf_eq_ok, Store.getElection_ok, bne_eq_false_iff_eq,
    Bool.not_eq_false', trusteeExists_iff, Env.subU8_ok] at hv
  obtain ⟨_, e, he, _, ⟨tr, htr, hi, _⟩, _, ⟨_, rfl⟩, hmi, _⟩ := hv
  obtain ⟨x, hx, hd⟩ := getTransaction_eq_some.1 he
  intro h255
  refine h.elections _ _ _ hx hd tr htr ?_
  rw [hi]
  rw [hmi] at h255
  have : m.tx.trusteeIndex = 255 + 1 := by rw [← h255]; simp
  rw [this]; rfl

theorem Low.deliver {E : Env} {s : Schema} (h : Low s) {x : Envelope}
    (hx : ∀ e, SignedTx.fromBytes x.data = .ok (.election e) → ∀ tr ∈ e.tx.trustees, tr.index ≠ 0) : Low (deliver E s x) := by
  constructor
  · intro k y e hy hd
    rcases get_deliver hy with h' | ⟨_, _, rfl, _⟩
    · exact h.elections _ _ _ h' hd
    · exact hx e hd
  · intro k y m hy hd
    rcases get_deliver hy with h' | ⟨_, _, rfl, t, h1, h2⟩
    · exact h.mixes _ _ _ h' hd
    · rw [hd] at h1
      cases h1
      exact h.mix_index h2

/-- **C87 (partial)** Nodes of all builds, given the same submissions in the same order, store the same, provided that no submitted election lists a trustee of index 0. -/
theorem C87_nodes_agree_partial (E : Env) (c d c' d' : Bool) (l : List Envelope)
    (hl : ∀ x ∈ l, ∀ e, SignedTx.fromBytes x.data = .ok (.election e) → ∀ tr ∈ e.tx.trustees, tr.index ≠ 0) :
    deliverAll (build E c d) OMap.empty l = deliverAll (build E c' d') OMap.empty l := by
  suffices ∀ s, Low s → deliverAll (build E c d) s l = deliverAll (build E c' d') s l from
    this _ ⟨fun k x e h => by simp [OMap.get_empty] at h, fun k x e h => by simp [OMap.get_empty] at h⟩
  induction l with
  | nil => intro s _; rfl
  | cons x l ih =>
    intro s hs
    have : Exonum.deliver (build E c d) s x = Exonum.deliver (build E c' d') s x := by
      unfold Exonum.deliver verifyAndStore
      simp only [build_agree (hs.no_overflow _) c d c' d']
    show deliverAll (build E c d) (Exonum.deliver (build E c d) s x) l = deliverAll (build E c' d') (Exonum.deliver (build E c' d') s x) l
    rw [this]
    exact ih (fun y hy => hl y (by simp [hy])) _ (hs.deliver (hl x (by simp)))

end Exonum

namespace Sawtooth

/-- **C87** On Sawtooth, which accepts no mixes, nodes of all builds store the same, without any proviso. -/
theorem C87_sawtooth_nodes_agree (E : Env) (c d c' d' : Bool) (pre : Str) (l : List Bytes) :
    applyAll (build E c d) pre OMap.empty l = applyAll (build E c' d') pre OMap.empty l := by
  induction l using List.reverseRecOn with
  | nil => rfl
  | append_singleton l p ih =>
    rw [applyAll_snoc, applyAll_snoc, ih]
    have hw := wf_applyAll (E := build E c' d') (l := l) (wf_empty pre)
    generalize applyAll (build E c' d') pre OMap.empty l = s at hw
    have key : ∀ c d c' d' s', apply (build E c d) pre s p = .ok s' → apply (build E c' d') pre s p = .ok s' := by
      intro c d c' d' s' h
      obtain ⟨t, h1, h2, h3, h4⟩ := apply_ok.1 h
      refine apply_ok.2 ⟨t, h1, h2, ?_, h4⟩
      have hk := validates_setup hw h3
      have hm : kindOf t ≠ .mix := by intro hm; rw [hm] at hk; simp [setupKinds] at hk
      rw [build_other _ _ _ _ _ hm] at h3 ⊢
      exact h3
    cases h : apply (build E c d) pre s p with
    | ok s' => rw [key _ _ _ _ _ h]
    | err e =>
      cases h' : apply (build E c' d') pre s p with
      | ok s' => rw [key _ _ c d _ h'] at h; cases h
      | err _ => rfl
      | panic _ => rfl
    | panic e =>
      cases h' : apply (build E c' d') pre s p with
      | ok s' => rw [key _ _ c d _ h'] at h; cases h
      | err _ => rfl
      | panic _ => rfl

end Sawtooth
/-- The hypotheses of C87 hold of the complete sample election, mixes included; all its submissions are stored by every build. -/
theorem toy_trustees : ∀ x ∈ Toy.complete.map Exonum.Envelope.ofTx, ∀ e, SignedTx.fromBytes x.data = .ok (.election e) → ∀ tr ∈ e.tx.trustees, tr.index ≠ 0 := by
  have h : (Toy.complete.map Exonum.Envelope.ofTx).all (fun x => match SignedTx.fromBytes x.data with
      | .ok (.election e) => e.tx.trustees.all fun tr => decide (tr.index ≠ 0)
      | _ => true) = true := by decide +kernel
  intro x hx e he tr htr
  have := List.all_eq_true.1 h x hx
  rw [he] at this
  simpa using List.all_eq_true.1 this tr htr

example : Exonum.deliverAll (build Toy.env true false) OMap.empty (Toy.complete.map Exonum.Envelope.ofTx) =
    Exonum.deliverAll (build Toy.env false true) OMap.empty (Toy.complete.map Exonum.Envelope.ofTx) :=
  Exonum.C87_nodes_agree_partial Toy.env true false false true _ toy_trustees

/-! ## A ledger with 256 trustees -/
namespace Wrap

/-- 256 trustees, numbered 0 to 255 -/
def election : ElectionTx :=
  { Toy.election with trustees := (List.range 256).map fun i => Toy.trustee (UInt8.ofNat i) 11, trusteesThreshold := 1 }
def elTx : SignedTx := .election ⟨election, Toy.sig 1⟩
def pk (i : Nat) : SignedTx := Toy.pkTx (UInt8.ofNat i) 11
def mixId (i : Nat) : Identifier := MixTx.buildId Toy.eid 0 0 (UInt8.ofNat (i + 1) - 1) (UInt8.ofNat (i + 1))
/-- the mix of index `i`, of no votes, by trustee `i + 1`; for `i = 255` that is trustee 0 -/
def mx (i : Nat) : SignedTx := Toy.mixTx (UInt8.ofNat (i + 1)) 11 (if i = 0 then none else some (mixId (i - 1))) [] []
def keyed (n : Nat) : List SignedTx := elTx :: (List.range n).map pk
def setup : List SignedTx := keyed 256 ++ [Toy.encTx]
/-- key generation and the first `n` mixes -/
def mixed (n : Nat) : List SignedTx := setup ++ (List.range n).map mx

theorem runLedger_append (E : Env) (l l' : List SignedTx) (m : MemStore) : runLedger E m (l ++ l') = (runLedger E m l).bind fun m' => runLedger E m' l' := by
  induction l generalizing m with
  | nil => rfl
  | cons t l ih =>
    simp only [List.cons_append, runLedger]
    split
    · exact ih _
    · rfl

structure Runs (E : Env) (l : List SignedTx) : Prop where
  run : (runLedger E .empty l).isSome = true
  nodup : (l.map SignedTx.id).Nodup

theorem Runs.ledger {E : Env} {l : List SignedTx} (h : Runs E l) : Ledger E (MemStore.ofList l) := ledger_of_run h.run

theorem Runs.get {E : Env} {l : List SignedTx} (h : Runs E l) {t : SignedTx} (ht : t ∈ l) : (MemStore.ofList l).getTransaction t.id = some t :=
  (Server.Network.stored_iff_mem h.nodup t).2 ht

theorem Runs.mem {E : Env} {l : List SignedTx} (h : Runs E l) {t : SignedTx} (ht : InStore (MemStore.ofList l).toStore t) : t ∈ l :=
  (Server.Network.stored_iff_mem h.nodup t).1 ht

theorem Runs.fresh {E : Env} {l : List SignedTx} (h : Runs E l) {t : SignedTx} (hf : t.id ∉ l.map SignedTx.id) : (MemStore.ofList l).getTransaction t.id = none := by
  cases hg : (MemStore.ofList l).getTransaction t.id with
  | none => rfl
  | some x => exact absurd ((Server.Network.get_isSome h.nodup).1 (by rw [hg]; rfl)) hf

theorem Runs.snoc {E : Env} {l : List SignedTx} (h : Runs E l) {t : SignedTx} (hf : t.id ∉ l.map SignedTx.id) (hv : t.validate E (MemStore.ofList l).toStore = .ok ()) :
    Runs E (l ++ [t]) := by
  constructor
  · obtain ⟨m, hm⟩ := Option.isSome_iff_exists.1 h.run
    have hm' : m = MemStore.ofList l := runLedger_eq hm
    rw [runLedger_append, hm, Option.bind_some, hm']
    simp only [runLedger]
    rw [if_pos ⟨by rw [h.fresh hf]; rfl, hv⟩]
    rfl
  · rw [List.map_append, List.map_singleton]
    exact List.nodup_append.2 ⟨h.nodup, by simp, fun a ha b hb => by simp at hb; subst hb; rintro rfl; exact hf ha⟩

theorem toyValid {b : Bool} {t : SignedTx} {l : List SignedTx} (ht : t.id.txType = t.transactionType)
    (hs : ∀ key, signerOf t = some key → (signatureOf t).val == key.val ++ key.val) (hv : t.validateInner (Toy.env b) (MemStore.ofList l).toStore = .ok ()) :
    t.validate (Toy.env b) (MemStore.ofList l).toStore = .ok () :=
  SignedTx.validate_ok.2 ⟨ht, hs, hv⟩

theorem sig11 : (Toy.sig 11).val == (Toy.key 11).val ++ (Toy.key 11).val := by decide +kernel

theorem ofNat_inj {i j : Nat} (hi : i < 256) (hj : j < 256) (h : UInt8.ofNat i = UInt8.ofNat j) : i = j := by
  have := congrArg UInt8.toNat h
  simp only [UInt8.toNat_ofNat'] at this
  omega

theorem pk_id {i j : Nat} (hi : i < 256) (hj : j < 256) (h : (pk i).id = (pk j).id) : i = j := by
  refine ofNat_inj hi hj ?_
  have := congrArg (fun x : Identifier => x.uniqueInfo.val.head?) h
  exact Option.some.inj this

theorem electionAt {b : Bool} {l : List SignedTx} (h : Runs (Toy.env b) l) (he : elTx ∈ l) : ElectionAt (MemStore.ofList l).toStore Toy.eid election :=
  ⟨Toy.sig 1, h.get he⟩

theorem isTrustee {i : Nat} (hi : i < 256) : IsTrustee election (UInt8.ofNat i) (Toy.key 11) :=
  ⟨Toy.trustee (UInt8.ofNat i) 11, List.mem_map.2 ⟨i, List.mem_range.2 hi, rfl⟩, rfl, rfl⟩

theorem keyed_runs (b : Bool) (n : Nat) (hn : n ≤ 256) : Runs (Toy.env b) (keyed n) := by
  induction n with
  | zero =>
    have : Runs (Toy.env b) ([] ++ [elTx]) := Runs.snoc ⟨rfl, by simp⟩ (by simp) (toyValid rfl (by
      intro k hk; cases hk; decide +kernel) (by
      show election.validateTx = _
      rw [ElectionTx.validateTx_ok]
      exact ⟨rfl, by simp [election], by decide⟩))
    exact this
  | succ n ih =>
    have hr := ih (by omega)
    have : keyed (n + 1) = keyed n ++ [pk n] := by simp [keyed, List.range_succ]
    rw [this]
    refine hr.snoc ?_ (toyValid rfl (by intro k hk; cases hk; exact sig11) ?_)
    · intro hm
      simp only [keyed, List.map_cons, List.mem_cons, List.map_map, List.mem_map, List.mem_range, Function.comp] at hm
      rcases hm with hm | ⟨i, hi, hm⟩
      · exact absurd (congrArg Identifier.txType hm) (by show TxType.keyGenPublicKey ≠ TxType.election; decide)
      · exact absurd (pk_id (by omega) (by omega) hm) (by omega)
    · exact KeyGenPublicKeyTx.validateTx_ok.2 ⟨election, electionAt hr (by simp [keyed]), isTrustee (by omega)⟩

def pkS (i : Nat) : Signed KeyGenPublicKeyTx := ⟨KeyGenPublicKeyTx.new Toy.eid (UInt8.ofNat i) (Toy.key 11) ⟨[5]⟩ ⟨[UInt8.ofNat i]⟩, Toy.sig 11⟩

theorem enc_valid {b : Bool} {k : List SignedTx} (hr : Runs (Toy.env b) k) (hk : ∀ t, t ∈ k ↔ t = elTx ∨ ∃ i < 256, pk i = t) :
    Toy.encTx.validateInner (Toy.env b) (MemStore.ofList k).toStore = .ok () := by
  have hel := electionAt hr ((hk _).2 (.inl rfl))
  show EncryptionKeyTx.validateTx _ _ = _
  refine EncryptionKeyTx.validateTx_ok.2 ⟨election, hel, rfl, ?_⟩
  obtain ⟨l, h1, h2, h3⟩ := hr.ledger.lawful.getMultiple Toy.eid .keyGenPublicKey
  have hmem : ∀ t, t ∈ l ↔ t ∈ (List.range 256).map pk := by
    intro t
    rw [h2]
    constructor
    · rintro ⟨a, _, c⟩
      rcases (hk t).1 (hr.mem a) with rfl | ⟨i, hi, rfl⟩
      · cases c
      · exact List.mem_map_of_mem (List.mem_range.2 hi)
    · intro ht
      obtain ⟨i, hi, rfl⟩ := List.mem_map.1 ht
      exact ⟨hr.get ((hk _).2 (.inr ⟨i, List.mem_range.1 hi, rfl⟩)), rfl, rfl⟩
  have hnd : ((List.range 256).map pk).Nodup := by
    refine List.Nodup.map_on ?_ List.nodup_range
    intro i hi j hj h
    exact pk_id (List.mem_range.1 hi) (List.mem_range.1 hj) (congrArg SignedTx.id h)
  have hlen : l.length = 256 := by
    have := ((List.perm_ext_iff_of_nodup (List.Nodup.of_map _ (idLt_nodup h3)) hnd).2 hmem).length_eq
    simpa using this
  have hpks : ∃ pks : List (Signed KeyGenPublicKeyTx), l = pks.map .keyGenPublicKey := by
    have : ∀ t ∈ l, ∃ s, t = SignedTx.keyGenPublicKey s := by
      intro t ht
      obtain ⟨i, _, rfl⟩ := List.mem_map.1 ((hmem t).1 ht)
      exact ⟨_, rfl⟩
    clear h1 h2 h3 hmem hlen
    induction l with
    | nil => exact ⟨[], rfl⟩
    | cons t l ih =>
      obtain ⟨ps, rfl⟩ := ih fun t ht => this t (by simp [ht])
      obtain ⟨s, rfl⟩ := this t (by simp)
      exact ⟨s :: ps, rfl⟩
  obtain ⟨pks, rfl⟩ := hpks
  have hin : ∀ p ∈ pks, ∃ i, p = pkS i := by
    intro p hp
    obtain ⟨i, _, h⟩ := List.mem_map.1 ((hmem _).1 (List.mem_map_of_mem hp))
    exact ⟨i, (SignedTx.keyGenPublicKey.inj h).symm⟩
  refine ⟨pks, h1, by simpa [election] using hlen, ?_, ?_⟩
  · intro tr htr
    obtain ⟨i, hi, rfl⟩ := List.mem_map.1 htr
    obtain ⟨p, hp, he⟩ := List.mem_map.1 ((hmem (pk i)).2 (List.mem_map_of_mem hi))
    have : p = pkS i := SignedTx.keyGenPublicKey.inj he
    subst this
    exact ⟨_, hp, rfl, rfl⟩
  · intro p hp
    obtain ⟨i, rfl⟩ := hin p hp
    rfl

theorem setup_runs (b : Bool) : Runs (Toy.env b) setup := by
  have hr := keyed_runs b 256 (by omega)
  refine hr.snoc ?_ (toyValid rfl (by intro k hk; cases hk; decide +kernel) ?_)
  · intro hm
    simp only [keyed, List.map_cons, List.mem_cons, List.map_map, List.mem_map, List.mem_range, Function.comp] at hm
    rcases hm with hm | ⟨i, hi, hm⟩
    · exact absurd (congrArg Identifier.txType hm) (by show TxType.encryptionKey ≠ TxType.election; decide)
    · exact absurd (congrArg Identifier.txType hm) (by show TxType.keyGenPublicKey ≠ TxType.encryptionKey; decide)
  · exact enc_valid hr fun t => by simp only [keyed, List.mem_cons, List.mem_map, List.mem_range]

theorem mixIndex_eq (i : Nat) : UInt8.ofNat (i + 1) - 1 = UInt8.ofNat i := by
  rw [UInt8.ofNat_add]; exact UInt8.add_sub_cancel _ _

theorem mx_id {i j : Nat} (hi : i < 256) (hj : j < 256) (h : mixId i = mixId j) : i = j := by
  refine ofNat_inj hi hj ?_
  have := congrArg (fun x : Identifier => x.uniqueInfo.val[8]?) h
  have := Option.some.inj this
  rwa [mixIndex_eq, mixIndex_eq] at this

theorem mx_id_eq (n : Nat) : (mx n).id = mixId n := rfl

theorem mixed_mem {n : Nat} {t : SignedTx} : t ∈ mixed n ↔ t = elTx ∨ (∃ i < 256, pk i = t) ∨ t = Toy.encTx ∨ ∃ i < n, mx i = t := by
  simp [mixed, setup, keyed]

theorem mix_valid {b : Bool} {n : Nat} (hr : Runs (Toy.env b) (mixed n)) (hn : n < 256) (hb : b = true → n < 255) :
    (mx n).validate (Toy.env b) (MemStore.ofList (mixed n)).toStore = .ok () := by
  have htype : ∀ t ∈ mixed n, t.id.txType ≠ .vote := by
    intro t ht
    rcases mixed_mem.1 ht with rfl | ⟨i, _, rfl⟩ | rfl | ⟨i, _, rfl⟩ <;> intro h <;> cases h
  refine toyValid rfl (by intro k hk; cases hk; exact sig11) ?_
  show MixTx.validateTx _ _ _ = _
  refine (MixTx.validateTx_ok hr.ledger.lawful).2 ⟨rfl, election, electionAt hr (mixed_mem.2 (.inl rfl)), by simp [election, Toy.election], ?_, ?_, rfl, rfl, [], ?_, ?_, ?_⟩
  · show IsTrustee election (UInt8.ofNat (n + 1)) (Toy.key 11)
    have := isTrustee (i := (n + 1) % 256) (Nat.mod_lt _ (by omega))
    have e : UInt8.ofNat ((n + 1) % 256) = UInt8.ofNat (n + 1) := UInt8.toNat_inj.1 (by simp)
    rwa [e] at this
  · rintro ⟨h0, h1⟩
    have : n < 255 := hb h1
    have h0 : UInt8.ofNat (n + 1) = UInt8.ofNat 0 := h0
    exact absurd (ofNat_inj (by omega) (by omega) h0) (by omega)
  · cases n with
    | zero =>
      refine MixInputs.first (votes := []) rfl rfl ⟨fun t => ?_, by simp⟩ rfl
      constructor
      · rintro ⟨a, _, c⟩
        exact absurd c (htype t (hr.mem a))
      · rintro ⟨v, hv, _⟩; cases hv
    | succ k =>
      have hp : mx k ∈ mixed (k + 1) := mixed_mem.2 (.inr (.inr (.inr ⟨k, by omega, rfl⟩)))
      refine MixInputs.next (prev := MixTx.new Toy.eid _ (Toy.trustee (UInt8.ofNat (k + 1)) 11) (UInt8.ofNat (k + 1) - 1) 0 0 [] [] ⟨[]⟩)
        (sig := Toy.sig 11) (prevId := mixId k) rfl (hr.get hp) ?_ rfl rfl rfl rfl
      show UInt8.ofNat (k + 1 + 1) - 1 = UInt8.ofNat (k + 1) - 1 + 1
      rw [mixIndex_eq]; simp
  · rintro pid prev sg hpid hg ⟨h255, h1⟩
    have hlt : n < 255 := hb h1
    cases n with
    | zero => cases hpid
    | succ k =>
      have hpid : mixId k = pid := Option.some.inj hpid
      subst hpid
      have hp : mx k ∈ mixed (k + 1) := mixed_mem.2 (.inr (.inr (.inr ⟨k, by omega, rfl⟩)))
      have hg' := hr.get hp
      have : (mx k).id = mixId k := rfl
      rw [this] at hg'
      change (MemStore.ofList (mixed (k + 1))).getTransaction (mixId k) = _ at hg
      rw [hg'] at hg
      have hx : UInt8.ofNat (k + 1) - 1 = prev.mixIndex := congrArg (fun t => match t with | some (SignedTx.mix m) => m.tx.mixIndex | _ => 0) hg
      rw [← hx, mixIndex_eq] at h255
      exact absurd (ofNat_inj (j := 255) (by omega) (by omega) h255) (by omega)
  · exact ⟨_, _, hr.get (mixed_mem.2 (.inr (.inr (.inl rfl)))), rfl⟩

theorem mixed_runs (b : Bool) (n : Nat) (hn : n ≤ 256) (hb : b = true → n ≤ 255) : Runs (Toy.env b) (mixed n) := by
  induction n with
  | zero => simpa [mixed] using setup_runs b
  | succ n ih =>
    have hr := ih (by omega) (fun h => by have := hb h; omega)
    have : mixed (n + 1) = mixed n ++ [mx n] := by simp [mixed, List.range_succ]
    rw [this]
    refine hr.snoc ?_ (mix_valid hr (by omega) fun h => by have := hb h; omega)
    intro hm
    obtain ⟨t, ht, hid⟩ := List.mem_map.1 hm
    rcases mixed_mem.1 ht with rfl | ⟨i, _, rfl⟩ | rfl | ⟨i, hi, rfl⟩
    · exact absurd (congrArg Identifier.txType hid) (by show TxType.election ≠ TxType.mix; decide)
    · exact absurd (congrArg Identifier.txType hid) (by show TxType.keyGenPublicKey ≠ TxType.mix; decide)
    · exact absurd (congrArg Identifier.txType hid) (by show TxType.encryptionKey ≠ TxType.mix; decide)
    · exact absurd (mx_id (by omega) (by omega) hid) (by omega)

set_option maxRecDepth 100000 in
theorem rustData : ∀ t ∈ mixed 256, RustData t := by
  have : (mixed 256).all (fun t => fitsCheck 127 t.toCbor) = true := by decide +kernel
  exact fun t ht => fits_of_check _ _ (List.all_eq_true.1 this t ht)

theorem forget_eq {n : Nat} : ∀ t ∈ mixed n, forget t = t := by
  intro t ht
  rcases mixed_mem.1 ht with rfl | ⟨i, _, rfl⟩ | rfl | ⟨i, _, rfl⟩
  · have : forgetElection election = election := by
      show ({ election with trustees := election.trustees.map forgetTrustee } : ElectionTx) = election
      have : election.trustees.map forgetTrustee = election.trustees := by
        show List.map forgetTrustee (List.map _ _) = List.map _ _
        rw [List.map_map]; rfl
      rw [this]
    show SignedTx.election ⟨forgetElection election, _⟩ = _
    rw [this]; rfl
  · rfl
  · rfl
  · rfl

theorem mixed_sub {n : Nat} (hn : n ≤ 256) {t : SignedTx} (ht : t ∈ mixed n) : t ∈ mixed 256 := by
  rcases mixed_mem.1 ht with h | h | h | ⟨i, hi, h⟩
  · exact mixed_mem.2 (.inl h)
  · exact mixed_mem.2 (.inr (.inl h))
  · exact mixed_mem.2 (.inr (.inr (.inl h)))
  · exact mixed_mem.2 (.inr (.inr (.inr ⟨i, by omega, h⟩)))

theorem delivered (b : Bool) (n : Nat) (hn : n ≤ 256) (hb : b = true → n ≤ 255) (id : Identifier) :
    Exonum.getTransaction (Exonum.deliverAll (Toy.env b) OMap.empty ((mixed n).map Exonum.Envelope.ofTx)) id = (MemStore.ofList (mixed n)).getTransaction id :=
  E2e.delivered (fun t ht => rustData t (mixed_sub hn ht)) forget_eq (mixed_runs b n hn hb).run id

/-- a build with overflow checks refuses a mix by trustee 0 on every store -/
theorem refused (n : Nat) (hn : UInt8.ofNat (n + 1) = 0) (S : Store) : (mx n).validate (Toy.env true) S ≠ .ok () := by
  intro hv
  have hv := (SignedTx.validate_ok.1 hv).2.2
  change MixTx.validateTx _ _ S = .ok () at hv
  simp only [MixTx.validateTx, Res.bind_def, Res.bind_eq_ok, Res.exists_unit, Env.subU8_ok] at hv
  obtain ⟨_, _, _, _, _, _, ⟨hov, _⟩, _⟩ := hv
  exact hov ⟨by show UInt8.ofNat (n + 1) < 1; rw [hn]; decide, rfl⟩

end Wrap

namespace Exonum

/-- **C87** is false without the proviso: there are 514 submissions, an election with trustees 0 to 255, its keys, and mixes by all of them (of no votes),
after which nodes built without overflow checks hold the last mix, by trustee 0, and nodes built with them do not. -/
theorem C87_nodes_agree_false : ∃ (E : Env) (l : List Envelope) (id : Identifier) (m : Signed MixTx), l.length = 514 ∧ m.tx.trusteeIndex = 0 ∧
    Exonum.getTransaction (deliverAll (build E false false) OMap.empty l) id = some (.mix m) ∧
    Exonum.getTransaction (deliverAll (build E true true) OMap.empty l) id = none := by
  refine ⟨Toy.env, (Wrap.mixed 256).map Envelope.ofTx, Wrap.mixId 255, _, ?_, ?_, (?_ : _ = some (Wrap.mx 255)), ?_⟩
  · simp [Wrap.mixed, Wrap.setup, Wrap.keyed]
  · rfl
  · show Exonum.getTransaction (deliverAll (Toy.env false) OMap.empty _) _ = _
    rw [Wrap.delivered false 256 (by omega) (by simp)]
    rw [← Wrap.mx_id_eq]
    exact (Wrap.mixed_runs false 256 (by omega) (by simp)).get (t := Wrap.mx 255) (Wrap.mixed_mem.2 (.inr (.inr (.inr ⟨255, by omega, rfl⟩))))
  · show Exonum.getTransaction (deliverAll (Toy.env true) OMap.empty _) _ = _
    have e : Wrap.mixed 256 = Wrap.mixed 255 ++ [Wrap.mx 255] := by
      unfold Wrap.mixed
      rw [List.range_succ (n := 255), List.map_append, List.append_assoc]; rfl
    rw [e, List.map_append, List.map_singleton, deliverAll_snoc]
    have hbefore : Exonum.getTransaction (deliverAll (Toy.env true) OMap.empty ((Wrap.mixed 255).map Envelope.ofTx)) (Wrap.mixId 255) = none := by
      rw [Wrap.delivered true 255 (by omega) (by simp)]
      cases hg : (MemStore.ofList (Wrap.mixed 255)).getTransaction (Wrap.mixId 255) with
      | none => rfl
      | some t =>
        have hr := Wrap.mixed_runs true 255 (by omega) (by simp)
        obtain ⟨ht, hid⟩ := (Server.Network.get_some hr.nodup).1 hg
        rcases Wrap.mixed_mem.1 ht with rfl | ⟨i, _, rfl⟩ | rfl | ⟨i, hi, rfl⟩
        · exact absurd (congrArg Identifier.txType hid) (by show TxType.election ≠ TxType.mix; decide)
        · exact absurd (congrArg Identifier.txType hid) (by show TxType.keyGenPublicKey ≠ TxType.mix; decide)
        · exact absurd (congrArg Identifier.txType hid) (by show TxType.encryptionKey ≠ TxType.mix; decide)
        · exact absurd (Wrap.mx_id (by omega) (by omega) hid) (by omega)
    rcases deliver_cases (Toy.env true) (deliverAll (Toy.env true) OMap.empty ((Wrap.mixed 255).map Envelope.ofTx)) (Envelope.ofTx (Wrap.mx 255)) with h | ⟨_, t, h1, h2, _⟩
    · rw [h]; exact hbefore
    · have hm : Wrap.mx 255 ∈ Wrap.mixed 256 := Wrap.mixed_mem.2 (.inr (.inr (.inr ⟨255, by omega, rfl⟩)))
      have := (C37_envelope_roundtrip (Wrap.mx 255) (Wrap.rustData _ hm)).1
      rw [Wrap.forget_eq _ hm] at this
      have h1' : (Envelope.ofTx (Wrap.mx 255)).toTx = .ok t := h1
      rw [this] at h1'
      cases h1'
      exact absurd h2 (Wrap.refused 255 rfl _)

end Exonum
end CB
