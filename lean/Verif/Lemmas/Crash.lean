import Verif.Spec.Crash
import Verif.Lemmas.Blocks
/-!
# A hook that is cut off is a hook whose last submissions get lost
-/

namespace CB.Server.Chain
open Spec

variable {N : NodeEnv} {P : Event → Prop}

/-- the same event without crashes -/
def uncrash (N : NodeEnv) (c : Chain) : CrashEvent → List BlockEvent
  | .block ev => [ev]
  | .crash key rng height sent =>
    match height with
    | 0 => []
    | h + 1 =>
      if h + 1 < c.blocks.length then
        .afterCommit key rng (h + 1) ::
          List.replicate (((processBlock N rng key (c.schemaAt N.toEnv (h + 1)) 0 (c.blocks.getD h [])).1).length - sent) (.lose (c.pool.length + sent))
      else []

/-- equal but for the record of completed hooks -/
structure Same (c d : Chain) : Prop where
  blocks : d.blocks = c.blocks
  pool : d.pool = c.pool
  lost : d.lost = c.lost
  processed : ∀ p ∈ c.processed, p ∈ d.processed

theorem lose_tail (p r l : List Exonum.Envelope) (b : List (List Exonum.Envelope)) (q : List (SecretKey × Nat)) (sent : Nat) :
    (List.replicate (r.length - sent) (BlockEvent.lose (p.length + sent))).foldl (step N) ⟨b, p ++ r, l, q⟩ = ⟨b, p ++ r.take sent, l ++ r.drop sent, q⟩ := by
  generalize hn : r.length - sent = n
  induction n generalizing r l with
  | zero =>
    rw [List.take_of_length_le (by omega), List.drop_of_length_le (by omega), List.append_nil]
    rfl
  | succ n ih =>
    have hlt : sent < r.length := by omega
    rw [List.replicate_succ, List.foldl_cons]
    have hget : (p ++ r)[p.length + sent]? = some r[sent] := by
      rw [List.getElem?_append_right (by omega), Nat.add_sub_cancel_left, List.getElem?_eq_getElem hlt]
    have hstep : step N ⟨b, p ++ r, l, q⟩ (.lose (p.length + sent)) = ⟨b, p ++ r.eraseIdx sent, l ++ [r[sent]], q⟩ := by
      simp only [step, hget]
      rw [List.eraseIdx_append_of_length_le (by omega), Nat.add_sub_cancel_left]
    rw [hstep, ih (r.eraseIdx sent) _ (by rw [List.length_eraseIdx, if_pos hlt]; omega)]
    have h1 : (r.eraseIdx sent).take sent = r.take sent := by
      rw [List.eraseIdx_eq_take_drop_succ, List.take_append_of_le_length (by rw [List.length_take]; omega), List.take_take, Nat.min_self]
    have h2 : (r.eraseIdx sent).drop sent = r.drop (sent + 1) := by
      rw [List.eraseIdx_eq_take_drop_succ, List.drop_append_of_le_length (by rw [List.length_take]; omega), List.drop_of_length_le (by rw [List.length_take]; omega), List.nil_append]
    rw [h1, h2, List.append_assoc, List.singleton_append, List.getElem_cons_drop]

theorem ite_mono {α : Type} {p : Prop} [Decidable p] {a x : α} {q q' : List α} (hq : ∀ y ∈ q, y ∈ q') (h : x ∈ if p then a :: q else q) : x ∈ if p then a :: q' else q' := by
  by_cases hp : p
  · rw [if_pos hp] at h ⊢
    rcases List.mem_cons.1 h with rfl | h
    · exact List.mem_cons_self
    · exact List.mem_cons_of_mem _ (hq x h)
  · rw [if_neg hp] at h ⊢
    exact hq x h

theorem ite_sub {α : Type} {p : Prop} [Decidable p] {a x : α} {q : List α} (h : x ∈ q) : x ∈ if p then a :: q else q := by
  by_cases hp : p
  · rw [if_pos hp]
    exact List.mem_cons_of_mem _ h
  · rw [if_neg hp]
    exact h

theorem step_same {c d : Chain} (h : Same c d) (ev : BlockEvent) : Same (step N c ev) (step N d ev) := by
  obtain ⟨b, p, l, q⟩ := c
  obtain ⟨b', p', l', q'⟩ := d
  obtain ⟨rfl, rfl, rfl, hq⟩ := h
  cases ev with
  | submit x => exact ⟨rfl, rfl, rfl, hq⟩
  | commit is => exact ⟨rfl, rfl, rfl, hq⟩
  | lose i =>
    dsimp only [step]
    split <;> exact ⟨rfl, rfl, rfl, hq⟩
  | afterCommit k rng height =>
    cases height with
    | zero => exact ⟨rfl, rfl, rfl, hq⟩
    | succ h =>
      dsimp only [step]
      split
      · refine ⟨rfl, rfl, rfl, fun r hr => ?_⟩
        exact ite_mono hq hr
      · exact ⟨rfl, rfl, rfl, hq⟩

theorem uncrash_same {c d : Chain} (h : Same c d) (ev : CrashEvent) : Same (stepC N c ev) ((uncrash N c ev).foldl (step N) d) := by
  cases ev with
  | block ev => exact step_same h ev
  | crash k rng height sent =>
    cases height with
    | zero => exact h
    | succ j =>
      dsimp only [stepC, uncrash]
      split
      · rename_i hlt
        obtain ⟨b, p, l, q⟩ := c
        obtain ⟨b', p', l', q'⟩ := d
        obtain ⟨rfl, rfl, rfl, hq⟩ := h
        rw [List.foldl_cons]
        dsimp only at hlt ⊢
        rw [show step N ⟨b', p', l', q'⟩ (.afterCommit k rng (j + 1)) = _ from if_pos hlt]
        dsimp only [schemaAt]
        rw [lose_tail]
        refine ⟨rfl, rfl, rfl, fun r hr => ?_⟩
        exact ite_sub (hq r hr)
      · exact h

theorem prefix_snoc {α : Type} {a b pre : List α} {x : α} (h : pre ++ [x] <+: a ++ b) : pre ++ [x] <+: a ∨ ∃ m, pre = a ++ m ∧ m ++ [x] <+: b := by
  obtain ⟨post, h⟩ := h
  rcases Nat.lt_or_ge pre.length a.length with hl | hl
  · left
    exact List.prefix_of_prefix_length_le ⟨post, h⟩ (List.prefix_append a b) (by simp; omega)
  · right
    obtain ⟨m, rfl⟩ : a <+: pre := List.prefix_of_prefix_length_le (List.prefix_append a b) ⟨[x] ++ post, by rw [← List.append_assoc, h]⟩ hl
    refine ⟨m, rfl, post, ?_⟩
    simp only [List.append_assoc, List.append_cancel_left_eq] at h ⊢
    exact h

/-- Every schedule with crashes leads to where some schedule without crashes, but with losses, leads. -/
theorem uncrashed (evs : List CrashEvent) (hev : ∀ ev ∈ evs, OnCrashes P ev) (hrust : RustCrashes N evs) :
    ∃ evs' : List BlockEvent, (∀ ev ∈ evs', OnBlocks P ev) ∧ RustRun N evs' ∧ Same (runC N evs) (run N evs') := by
  induction evs using List.reverseRecOn with
  | nil =>
    refine ⟨[], by simp, fun pre k rng h hp => ?_, rfl, rfl, rfl, fun _ h => h⟩
    obtain ⟨post, hp⟩ := hp
    simp at hp
  | append_singleton evs ev ih =>
    obtain ⟨l, hl, hr, hs⟩ := ih (fun x hx => hev x (by simp [hx])) fun pre x hp => hrust pre x (hp.trans (List.prefix_append _ _))
    have hrun : runC N (evs ++ [ev]) = stepC N (runC N evs) ev := List.foldl_append
    refine ⟨l ++ uncrash N (runC N evs) ev, fun x hx => ?_, fun pre k rng h hp => ?_, ?_⟩
    · rcases List.mem_append.1 hx with hx | hx
      · exact hl x hx
      · have hev := hev ev (by simp)
        cases ev with
        | block b =>
          rw [List.mem_singleton.1 hx]
          exact hev
        | crash k rng height sent =>
          cases height with
          | zero => cases hx
          | succ j =>
            dsimp only [uncrash] at hx
            split at hx
            · rcases List.mem_cons.1 hx with rfl | hx
              · exact hev
              · rw [List.eq_of_mem_replicate hx]
                trivial
            · cases hx
    · rcases prefix_snoc hp with hp | ⟨m, rfl, hm⟩
      · exact hr pre k rng h hp
      · have hhook : m = [] ∧ HookAt k rng (h + 1) ev := by
          cases ev with
          | block b =>
            obtain ⟨post, hm⟩ := hm
            cases m with
            | nil =>
              simp only [uncrash, List.nil_append, List.cons_append, List.cons.injEq] at hm
              exact ⟨rfl, .inl (by rw [hm.1])⟩
            | cons a m => simp [uncrash] at hm
          | crash k' rng' height sent =>
            cases height with
            | zero => exact absurd hm.length_le (by simp [uncrash])
            | succ j =>
              dsimp only [uncrash] at hm
              split at hm
              · cases m with
                | nil =>
                  obtain ⟨post, hm⟩ := hm
                  simp only [List.nil_append, List.cons_append, List.cons.injEq, BlockEvent.afterCommit.injEq] at hm
                  obtain ⟨⟨rfl, rfl, hj⟩, -⟩ := hm
                  cases hj
                  exact ⟨rfl, .inr ⟨sent, rfl⟩⟩
                | cons a m =>
                  rw [List.cons_append] at hm
                  have := List.eq_of_mem_replicate ((List.cons_prefix_cons.1 hm).2.subset (List.mem_append_right m (List.mem_singleton_self _)))
                  cases this
              · exact absurd hm.length_le (by simp)
        obtain ⟨rfl, hk⟩ := hhook
        have := hrust evs ev (List.prefix_refl _) k rng h hk
        rw [List.append_nil]
        unfold schemaAt at this ⊢
        rw [hs.blocks]
        exact this
    · rw [hrun, show run N (l ++ uncrash N (runC N evs) ev) = (uncrash N (runC N evs) ev).foldl (step N) (run N l) from List.foldl_append]
      exact uncrash_same hs ev

theorem Same.schema {c d : Chain} (h : Same c d) : d.schema N.toEnv = c.schema N.toEnv := by
  unfold Chain.schema
  rw [h.blocks]

theorem Same.quiet {c d : Chain} (h : Same c d) {K : List SecretKey} {e : ElectionTx} (hq : Quiet N K e c) : Quiet N K e d where
  delivered := by
    rw [h.pool, h.lost, h.schema]
    exact hq.delivered
  processed := by
    rw [h.blocks]
    intro j x hx ha k hk
    obtain ⟨h', hh, y, hy, hyx, hp⟩ := hq.processed j x hx ha k hk
    exact ⟨h', hh, y, hy, hyx, h.processed _ hp⟩

end CB.Server.Chain
