import Verif.Lemmas.Network
/-!
# Where the transactions of a network come from

Everything on the ledger or on its way was submitted by someone or is a node's reaction to an earlier part of the ledger; and whatever a node made in a reaction is on the
ledger, on its way, or was refused.
-/

namespace CB.Server.Network
open Spec

/-- Node `k` makes `d` on seeing the first `w` transactions of `L`, in reaction to `x`. -/
def MadeFrom (N : NodeEnv) (L : List SignedTx) (w : Nat) (k : SecretKey) (x d : SignedTx) : Prop :=
  ∃ rng l, x ∈ L.take w ∧ generateTransactions N rng k (MemStore.ofList (L.take w)).toStore x = .ok l ∧ d ∈ l

/-- Some event of the kind `Q` submits `d`, or lets a node make it on seeing the first `w ≤ n` transactions. -/
def Origin (N : NodeEnv) (Q : Event → Prop) (L : List SignedTx) (n : Nat) (d : SignedTx) : Prop :=
  Q (.submit d) ∨ ∃ k rng m v, Q (.react k rng m v) ∧ ∃ w ≤ n, ∃ x, MadeFrom N L w k x d

structure History (N : NodeEnv) (Q : Event → Prop) (s : Network) : Prop where
  sound : Sound N.toEnv s.ledger
  accepted : ∀ i (t : SignedTx), s.ledger[i]? = some t → t.validate N.toEnv (MemStore.ofList (s.ledger.take i)).toStore = .ok ()
  listed : ∀ i (t : SignedTx), s.ledger[i]? = some t → Origin N Q s.ledger i t
  pending : ∀ t ∈ s.pending, Origin N Q s.ledger s.ledger.length t
  /-- what became of a reaction -/
  reacted : ∀ k m, (k, m) ∈ s.reacted → (∃ rng m v, Q (.react k rng m v)) ∧ ∃ w rng x l, m < w ∧ w ≤ s.ledger.length ∧ s.ledger[m]? = some x ∧
    generateTransactions N rng k (MemStore.ofList (s.ledger.take w)).toStore x = .ok l ∧
    ∀ d ∈ l, d.id ∈ s.ledger.map SignedTx.id ∨ d ∈ s.pending ∨
      ∃ w', w ≤ w' ∧ w' ≤ s.ledger.length ∧ d.validate N.toEnv (MemStore.ofList (s.ledger.take w')).toStore ≠ .ok ()

variable {N : NodeEnv} {Q : Event → Prop}

theorem Origin.grow {L : List SignedTx} {n : Nat} {d : SignedTx} (h : Origin N Q L n d) (hn : n ≤ L.length) (M : List SignedTx) {n' : Nat} (hn' : n ≤ n') :
    Origin N Q (L ++ M) n' d := by
  rcases h with h | ⟨k, rng, m, v, hq, w, hw, x, rng', l, hx, hl, hd⟩
  · exact .inl h
  · refine .inr ⟨k, rng, m, v, hq, w, by omega, x, rng', l, ?_⟩
    rw [List.take_append_of_le_length (by omega)]
    exact ⟨hx, hl, hd⟩

theorem History.empty : History N Q Network.empty where
  sound := .nil
  accepted := by simp [Network.empty]
  listed := by simp [Network.empty]
  pending := by simp [Network.empty]
  reacted := by simp [Network.empty]

theorem History.step {s : Network} (h : History N Q s) {ev : Event} (hq : Q ev) : History N Q (step N s ev) := by
  have hsound := sound_step h.sound ev
  cases ev with
  | submit t =>
    refine ⟨h.sound, h.accepted, h.listed, ?_, ?_⟩
    · intro d hd
      rcases List.mem_append.1 hd with h1 | h1
      · exact h.pending d h1
      · rw [List.mem_singleton] at h1
        subst h1
        exact .inl hq
    · intro k m hkm
      obtain ⟨h0, w, rng, x, l, h1, h2, h3, h4, h5⟩ := h.reacted k m hkm
      refine ⟨h0, w, rng, x, l, h1, h2, h3, h4, fun d hd => ?_⟩
      rcases h5 d hd with h6 | h6 | h6
      · exact .inl h6
      · exact .inr (.inl (List.mem_append_left _ h6))
      · exact .inr (.inr h6)
  | deliver i =>
    cases hi : s.pending[i]? with
    | none =>
      have : Network.step N s (.deliver i) = s := by simp only [Network.step, hi]
      rw [this]
      exact h
    | some t =>
      have ht : t ∈ s.pending := List.mem_of_getElem? hi
      by_cases hc : (s.store.getTransaction t.id).isNone ∧ t.validate N.toEnv s.store.toStore = .ok ()
      · have hs : Network.step N s (.deliver i) = { s with ledger := s.ledger ++ [t], pending := s.pending.eraseIdx i } := by
          simp only [Network.step, hi, if_pos hc]
        rw [hs] at hsound ⊢
        have hnew : ∀ {P : Prop} {j : Nat} {u : SignedTx}, (s.ledger ++ [t])[j]? = some u → (j < s.ledger.length → s.ledger[j]? = some u → P) →
            (j = s.ledger.length → u = t → P) → P := by
          intro P j u hu h1 h2
          by_cases hj : j < s.ledger.length
          · rw [List.getElem?_append_left hj] at hu
            exact h1 hj hu
          · rw [List.getElem?_append_right (by omega)] at hu
            have hj0 : j - s.ledger.length = 0 := by
              apply Nat.le_antisymm _ (Nat.zero_le _)
              apply Nat.le_of_not_lt
              intro hlt
              rw [List.getElem?_eq_none (by simp only [List.length_singleton]; omega)] at hu
              cases hu
            rw [hj0] at hu
            simp only [List.getElem?_cons_zero, Option.some.injEq] at hu
            exact h2 (by omega) hu.symm
        refine ⟨hsound, ?_, ?_, ?_, ?_⟩
        · intro j u hu
          refine hnew hu (fun hj hu => ?_) fun hj hut => ?_
          · simp only
            rw [List.take_append_of_le_length (by omega)]
            exact h.accepted j u hu
          · subst hj hut
            simp only
            rw [List.take_left]
            exact hc.2
        · intro j u hu
          refine hnew hu (fun hj hu => ?_) fun hj hut => ?_
          · exact (h.listed j u hu).grow (by omega) _ (Nat.le_refl _)
          · subst hj hut
            exact (h.pending u ht).grow (Nat.le_refl _) _ (Nat.le_refl _)
        · intro d hd
          exact (h.pending d (List.mem_of_mem_eraseIdx hd)).grow (Nat.le_refl _) _ (by simp)
        · intro k m hkm
          obtain ⟨h0, w, rng, x, l, h1, h2, h3, h4, h5⟩ := h.reacted k m hkm
          refine ⟨h0, w, rng, x, l, h1, by simp; omega, ?_, ?_, fun d hd => ?_⟩
          · show (s.ledger ++ [t])[m]? = some x
            rw [List.getElem?_append_left (by omega)]
            exact h3
          · simp only
            rw [List.take_append_of_le_length h2]
            exact h4
          · rcases h5 d hd with h6 | h6 | ⟨w', h7, h8, h9⟩
            · exact .inl (by simp only [List.map_append]; exact List.mem_append_left _ h6)
            · rcases mem_eraseIdx_or hi h6 with rfl | h6
              · exact .inl (by simp)
              · exact .inr (.inl h6)
            · refine .inr (.inr ⟨w', h7, by simp; omega, ?_⟩)
              simp only
              rw [List.take_append_of_le_length h8]
              exact h9
      · have hs : Network.step N s (.deliver i) = { s with pending := s.pending.eraseIdx i } := by
          simp only [Network.step, hi, if_neg hc]
        rw [hs] at hsound ⊢
        refine ⟨h.sound, h.accepted, h.listed, fun d hd => h.pending d (List.mem_of_mem_eraseIdx hd), ?_⟩
        intro k m hkm
        obtain ⟨h0, w, rng, x, l, h1, h2, h3, h4, h5⟩ := h.reacted k m hkm
        refine ⟨h0, w, rng, x, l, h1, h2, h3, h4, fun d hd => ?_⟩
        rcases h5 d hd with h6 | h6 | h6
        · exact .inl h6
        · rcases mem_eraseIdx_or hi h6 with rfl | h6
          · by_cases hst : (s.store.getTransaction d.id).isNone
            · refine .inr (.inr ⟨s.ledger.length, h2, Nat.le_refl _, fun hv => hc ⟨hst, ?_⟩⟩)
              simpa [store] using hv
            · refine .inl ((get_isSome h.sound.nodup).1 ?_)
              have : (s.store.getTransaction d.id).isSome := by
                cases hg : s.store.getTransaction d.id with
                | none => rw [hg] at hst; exact absurd rfl hst
                | some _ => rfl
              exact this
          · exact .inr (.inl h6)
        · exact .inr (.inr h6)
  | react k rng m v =>
    cases hx : (s.ledger.take v)[m]? with
    | none =>
      have : Network.step N s (.react k rng m v) = s := by simp only [Network.step, hx]
      rw [this]
      exact h
    | some x =>
      have hxm : x ∈ s.ledger.take v := List.mem_of_getElem? hx
      have hlm : s.ledger[m]? = some x ∧ m < v := by
        rw [List.getElem?_take] at hx
        split at hx
        · rename_i hlt; exact ⟨hx, hlt⟩
        · cases hx
      have hml : m < s.ledger.length := (List.getElem?_eq_some_iff.1 hlm.1).1
      have htake : s.ledger.take (min v s.ledger.length) = s.ledger.take v := by
        rcases Nat.le_total v s.ledger.length with hle | hle
        · rw [Nat.min_eq_left hle]
        · rw [Nat.min_eq_right hle, List.take_of_length_le hle, List.take_length]
      cases hg : generateTransactions N rng k (s.storeAt v).toStore x with
      | ok l =>
        have hs : Network.step N s (.react k rng m v) = { s with
            pending := s.pending ++ l.filter fun d => ((s.storeAt v).getTransaction d.id).isNone
            reacted := (k, m) :: s.reacted } := by
          simp only [Network.step, hx, hg]
        rw [hs] at hsound ⊢
        refine ⟨h.sound, h.accepted, h.listed, ?_, ?_⟩
        · intro d hd
          rcases List.mem_append.1 hd with h1 | h1
          · exact h.pending d h1
          · refine .inr ⟨k, rng, m, v, hq, min v s.ledger.length, Nat.min_le_right _ _, x, rng, l, ?_⟩
            show x ∈ s.ledger.take (min v s.ledger.length) ∧ generateTransactions N rng k (MemStore.ofList (s.ledger.take (min v s.ledger.length))).toStore x = .ok l ∧ d ∈ l
            rw [htake]
            exact ⟨hxm, hg, List.mem_of_mem_filter h1⟩
        · intro k' m' hkm
          rcases List.mem_cons.1 hkm with heq | hkm
          · cases heq
            refine ⟨⟨rng, m, v, hq⟩, min v s.ledger.length, rng, x, l, Nat.lt_min.2 ⟨hlm.2, hml⟩, Nat.min_le_right _ _, hlm.1, ?_, fun d hd => ?_⟩
            · show generateTransactions N rng k (MemStore.ofList (s.ledger.take (min v s.ledger.length))).toStore x = .ok l
              rw [htake]
              exact hg
            · cases hst : (s.storeAt v).getTransaction d.id with
              | none => exact .inr (.inl (List.mem_append_right _ (List.mem_filter.2 ⟨hd, by rw [hst]; rfl⟩)))
              | some y =>
                left
                have : d.id ∈ (s.ledger.take v).map SignedTx.id := by
                  rw [← get_isSome (nodup_take h.sound.nodup v)]
                  show ((s.storeAt v).getTransaction d.id).isSome
                  rw [hst]
                  rfl
                rw [List.map_take] at this
                exact List.mem_of_mem_take this
          · obtain ⟨h0, w, rng', x', l', h1, h2, h3, h4, h5⟩ := h.reacted k' m' hkm
            refine ⟨h0, w, rng', x', l', h1, h2, h3, h4, fun d hd => ?_⟩
            rcases h5 d hd with h6 | h6 | h6
            · exact .inl h6
            · exact .inr (.inl (List.mem_append_left _ h6))
            · exact .inr (.inr h6)
      | err er =>
        have : Network.step N s (.react k rng m v) = s := by simp only [Network.step, hx, hg]
        rw [this]
        exact h
      | panic p =>
        have : Network.step N s (.react k rng m v) = s := by simp only [Network.step, hx, hg]
        rw [this]
        exact h

theorem history_run (evs : List Event) (hq : ∀ ev ∈ evs, Q ev) : History N Q (run N evs) :=
  run_induction (P := History N Q) (Q := Q) .empty (fun _ _ hev _ h => h.step hev) evs hq

/-- Everything on its way can be delivered. -/
theorem flush (N : NodeEnv) (s : Network) : ∃ n, ((List.replicate n (Event.deliver 0)).foldl (step N) s).pending = [] := by
  generalize hn : s.pending.length = n
  induction n generalizing s with
  | zero => exact ⟨0, List.length_eq_zero_iff.1 hn⟩
  | succ n ih =>
    obtain ⟨m, hm⟩ := ih (step N s (.deliver 0)) (by
      simp only [step]
      cases hp : s.pending with
      | nil => rw [hp] at hn; cases hn
      | cons t l =>
        rw [hp] at hn
        simp only [List.getElem?_cons_zero]
        split <;> simpa using hn)
    exact ⟨m + 1, by rw [List.replicate_succ, List.foldl_cons]; exact hm⟩

/-- Transactions whose id is taken can be got out of the way. -/
theorem drain (N : NodeEnv) (b : Identifier) (s : Network) (h : ∀ t ∈ s.pending, t.id.electionId = b.electionId → (s.store.getTransaction t.id).isSome) :
    ∃ is : List Nat, ((is.map Event.deliver).foldl (step N) s).ledger = s.ledger ∧ ((is.map Event.deliver).foldl (step N) s).reacted = s.reacted ∧
      ∀ t ∈ ((is.map Event.deliver).foldl (step N) s).pending, t.id.electionId ≠ b.electionId := by
  generalize hn : s.pending.length = n
  induction n generalizing s with
  | zero =>
    refine ⟨[], rfl, rfl, fun t ht => ?_⟩
    rw [show ((([] : List Nat).map Event.deliver).foldl (step N) s).pending = [] from List.length_eq_zero_iff.1 hn] at ht
    cases ht
  | succ n ih =>
    by_cases hc : ∃ t ∈ s.pending, t.id.electionId = b.electionId
    · obtain ⟨t, ht, hb⟩ := hc
      obtain ⟨i, hi⟩ := List.getElem?_of_mem ht
      have hst : step N s (.deliver i) = { s with pending := s.pending.eraseIdx i } := by
        simp only [step, hi]
        rw [if_neg]
        intro hx
        have := h t ht hb
        rw [Option.isNone_iff_eq_none.1 hx.1] at this
        cases this
      have hlt := (List.getElem?_eq_some_iff.1 hi).1
      obtain ⟨is, h1, h2, h3⟩ := ih (step N s (.deliver i)) (by
          rw [hst]
          exact fun u hu => h u (List.mem_of_mem_eraseIdx hu)) (by
          rw [hst]
          show (s.pending.eraseIdx i).length = n
          rw [List.length_eraseIdx, if_pos hlt]
          omega)
      refine ⟨i :: is, ?_, ?_, h3⟩
      · rw [List.map_cons, List.foldl_cons, h1, hst]
      · rw [List.map_cons, List.foldl_cons, h2, hst]
    · exact ⟨[], rfl, rfl, fun t ht hb => hc ⟨t, ht, hb⟩⟩

end CB.Server.Network
