import Verif.Lemmas.ServerMix
import Verif.Spec.Mixing
/-!
# Lemmas about what the mixes of nodes depend on
-/

namespace CB
open Spec
namespace Server

theorem pushVote_keys {α : Type} (c : UInt32) (x : α) (m : List (UInt32 × List α)) :
    (pushVote c x m).map Prod.fst = if c ∈ m.map Prod.fst then m.map Prod.fst else m.map Prod.fst ++ [c] := by
  induction m with
  | nil => simp [pushVote]
  | cons e m ih =>
    obtain ⟨c0, xs⟩ := e
    by_cases h : c0 = c
    · subst h; simp [pushVote]
    · simp only [pushVote, if_neg h, List.map_cons, ih, List.mem_cons]
      have h' : ¬ c = c0 := fun e => h e.symm
      simp only [h', false_or]
      split <;> simp

theorem group_keys {α : Type} (xs xs' : List (UInt32 × α)) (h : xs.map Prod.fst = xs'.map Prod.fst) (m m' : List (UInt32 × List α)) (hm : m.map Prod.fst = m'.map Prod.fst) :
    (xs.foldl (fun m e => pushVote e.1 e.2 m) m).map Prod.fst = (xs'.foldl (fun m e => pushVote e.1 e.2 m) m').map Prod.fst := by
  induction xs generalizing xs' m m' with
  | nil =>
    cases xs' with
    | nil => exact hm
    | cons => cases h
  | cons x xs ih =>
    cases xs' with
    | nil => cases h
    | cons x' xs' =>
      simp only [List.map_cons, List.cons.injEq] at h
      rw [List.foldl_cons, List.foldl_cons]
      refine ih xs' h.2 _ _ ?_
      rw [pushVote_keys, pushVote_keys, hm, h.1]

/-- the same voters in the same contests -/
abbrev SameVoters (votes votes' : List VoteTx) : Prop :=
  List.Forall₂ (fun v v' => v'.id = v.id ∧ v'.encryptedVotes.map (·.contestIndex) = v.encryptedVotes.map (·.contestIndex)) votes votes'

theorem contestVotes_keys {votes votes' : List VoteTx} (h : SameVoters votes votes') : (contestVotes votes').map Prod.fst = (contestVotes votes).map Prod.fst := by
  unfold contestVotes
  refine group_keys _ _ ?_ _ _ rfl
  induction h with
  | nil => rfl
  | cons h _ ih =>
    simp only [List.flatMap_cons, List.map_append, ih]
    congr 1
    simpa [List.map_map, Function.comp_def] using h.2

theorem ids_eq (c : UInt32) {votes votes' : List VoteTx} (h : SameVoters votes votes') :
    (votes'.flatMap fun vt => (vt.encryptedVotes.filter fun ev => ev.contestIndex = c).map fun ev => (vt.id, ev.selections)).map Prod.fst =
    (votes.flatMap fun vt => (vt.encryptedVotes.filter fun ev => ev.contestIndex = c).map fun ev => (vt.id, ev.selections)).map Prod.fst := by
  induction h with
  | nil => rfl
  | @cons v v' _ _ h _ ih =>
    simp only [List.flatMap_cons, List.map_append, ih]
    congr 1
    rw [List.map_map, List.map_map]
    have h1 : ∀ v : VoteTx, (v.encryptedVotes.filter fun ev => ev.contestIndex = c).map (Prod.fst ∘ fun ev => (v.id, ev.selections)) =
        List.replicate ((v.encryptedVotes.map (·.contestIndex)).filter fun x => x = c).length v.id := by
      intro v
      rw [List.filter_map, List.length_map]
      exact List.map_const' ..
    rw [h1, h1, h.1, h.2]

theorem rows_eq (c : UInt32) (votes : List VoteTx) :
    (votes.flatMap fun vt => (vt.encryptedVotes.filter fun ev => ev.contestIndex = c).map fun ev => (vt.id, ev.selections)).map Prod.snd = rowsOf c votes := by
  unfold rowsOf
  rw [List.map_flatMap]
  congr 1
  funext vt
  rw [List.map_map]
  rfl

/-- contest by contest -/
theorem contestVotes_same {votes votes' : List VoteTx} (h : SameVoters votes votes') (i : Nat) (c : UInt32) (vs : List (Identifier × List Ciphertext))
    (hi : (contestVotes votes)[i]? = some (c, vs)) : ∃ vs', (contestVotes votes')[i]? = some (c, vs') ∧ vs'.map Prod.fst = vs.map Prod.fst ∧
      vs.map Prod.snd = rowsOf c votes ∧ vs'.map Prod.snd = rowsOf c votes' := by
  have hk := congrArg (fun l => l[i]?) (contestVotes_keys h)
  simp only [List.getElem?_map, hi, Option.map_some] at hk
  cases hi' : (contestVotes votes')[i]? with
  | none => rw [hi'] at hk; cases hk
  | some e =>
    obtain ⟨c', vs'⟩ := e
    rw [hi'] at hk
    simp only [Option.map_some, Option.some.injEq] at hk
    subst hk
    have e1 := (((contestVotes_spec votes).2 c' vs).1 (List.mem_of_getElem? hi)).2
    have e2 := (((contestVotes_spec votes').2 c' vs').1 (List.mem_of_getElem? hi')).2
    refine ⟨vs', rfl, ?_, ?_, ?_⟩
    · rw [e1, e2, ids_eq c' h]
    · rw [e1, rows_eq]
    · rw [e2, rows_eq]

/-- a mix apart from its proof depends only on the outputs of the shuffle -/
theorem submits_mix {α : Type} {N : NodeEnv} {sk : SecretKey} {e : Identifier} {tr : Trustee} {i : UInt8} {c : UInt32} {ids : List Identifier} {r r' : SRes (List (List Ciphertext) × ShuffleProof)}
    (h : (r'.bind fun x => .ok x.1) = (r.bind fun x => .ok x.1)) {k k' : SRes α} {f : SignedTx → α → List SignedTx}
    (hk : ∀ t t' : SignedTx, withoutProof t' = withoutProof t →
      submits (k'.bind fun a => .ok (f t' a)) = submits (k.bind fun a => .ok (f t a))) :
    submits (r'.bind fun x => (sign N sk (MixTx.new e none tr i c 0 ids x.1 x.2)).bind fun s => k'.bind fun a => .ok (f (.mix s) a)) =
    submits (r.bind fun x => (sign N sk (MixTx.new e none tr i c 0 ids x.1 x.2)).bind fun s => k.bind fun a => .ok (f (.mix s) a)) := by
  have hs : ∀ out proof, sign N sk (MixTx.new e none tr i c 0 ids out proof) =
      if N.edPublic sk ≠ tr.publicKey then .err (.sign .mismatchedPublicKeys) else
        .ok ⟨MixTx.new e none tr i c 0 ids out proof, N.edSign sk (CBTransaction.asBytes (MixTx.new e none tr i c 0 ids out proof))⟩ := by
    intro out proof
    simp only [sign, Signed.sign, CBTransaction.pub, MixTx.new]
    split <;> rfl
  cases r with
  | err x => cases r' <;> simp_all [Res.bind]
  | panic x => cases r' <;> simp_all [Res.bind]
  | ok x =>
    cases r' with
    | err x => simp_all [Res.bind]
    | panic x => simp_all [Res.bind]
    | ok x' =>
      obtain ⟨out, proof⟩ := x
      obtain ⟨out', proof'⟩ := x'
      simp only [Res.bind, Res.ok.injEq] at h
      subst h
      simp only [Res.bind, hs]
      by_cases hp : N.edPublic sk ≠ tr.publicKey
      · rw [if_pos hp, if_pos hp]
      · rw [if_neg hp, if_neg hp]
        exact hk _ _ rfl

end Server
end CB
