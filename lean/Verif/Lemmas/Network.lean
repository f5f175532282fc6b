import Verif.Model.Network
import Verif.Lemmas.Server
/-!
# Networks: general facts
-/

namespace CB.Server.Network
open Spec

theorem ofList_append (l : List SignedTx) (t : SignedTx) : MemStore.ofList (l ++ [t]) = (MemStore.ofList l).set t := by
  simp [MemStore.ofList]

/-- Every prefix of the ledger list is a history of accepted transactions, and ids occur once. -/
structure Sound (E : Env) (l : List SignedTx) : Prop where
  ledger : ∀ v, Ledger E (MemStore.ofList (l.take v))
  nodup : (l.map SignedTx.id).Nodup

theorem Sound.nil {E : Env} : Sound E [] := ⟨fun v => by simpa [MemStore.ofList] using Ledger.empty, by simp⟩

/-- Without repeated ids, stored is the same as listed. -/
theorem stored_iff_mem {l : List SignedTx} (h : (l.map SignedTx.id).Nodup) (t : SignedTx) : (MemStore.ofList l).getTransaction t.id = some t ↔ t ∈ l := by
  rw [MemStore.stored_iff]
  constructor
  · rintro ⟨b, a, rfl, _⟩; simp
  · intro hm
    obtain ⟨b, a, rfl⟩ := List.append_of_mem hm
    refine ⟨b, a, rfl, fun u hu heq => ?_⟩
    simp only [List.map_append, List.map_cons] at h
    have := (List.nodup_append.1 h).2.1
    rw [List.nodup_cons] at this
    exact this.1 (heq ▸ List.mem_map_of_mem hu)

theorem get_some {l : List SignedTx} (h : (l.map SignedTx.id).Nodup) {id : Identifier} {t : SignedTx} :
    (MemStore.ofList l).getTransaction id = some t ↔ t ∈ l ∧ t.id = id := by
  constructor
  · intro hg
    have := MemStore.get_id (MemStore.wf_ofList l) hg
    subst this
    exact ⟨(stored_iff_mem h t).1 hg, rfl⟩
  · rintro ⟨hm, rfl⟩
    exact (stored_iff_mem h t).2 hm

theorem get_isSome {l : List SignedTx} (h : (l.map SignedTx.id).Nodup) {id : Identifier} :
    ((MemStore.ofList l).getTransaction id).isSome ↔ id ∈ l.map SignedTx.id := by
  rw [Option.isSome_iff_exists, List.mem_map]
  exact ⟨fun ⟨t, ht⟩ => ⟨t, (get_some h).1 ht⟩, fun ⟨t, ht⟩ => ⟨t, (get_some h).2 ht⟩⟩

theorem nodup_take {l : List SignedTx} (h : (l.map SignedTx.id).Nodup) (v : Nat) : ((l.take v).map SignedTx.id).Nodup := by
  rw [List.map_take]
  exact List.Nodup.sublist (List.take_sublist _ _) h

theorem Sound.append {E : Env} {l : List SignedTx} (h : Sound E l) {t : SignedTx} (hf : (MemStore.ofList l).getTransaction t.id = none)
    (hv : t.validate E (MemStore.ofList l).toStore = .ok ()) : Sound E (l ++ [t]) := by
  refine ⟨fun v => ?_, ?_⟩
  · by_cases hle : v ≤ l.length
    · rw [List.take_append_of_le_length hle]; exact h.ledger v
    · rw [List.take_of_length_le (by simp; omega), ofList_append]
      refine .append ?_ hf hv
      simpa using h.ledger l.length
  · rw [List.map_append, List.nodup_append]
    refine ⟨h.nodup, by simp, ?_⟩
    rintro a ha b hb rfl
    simp only [List.map_cons, List.map_nil, List.mem_singleton] at hb
    subst hb
    have := (get_isSome h.nodup).2 ha
    rw [hf] at this
    cases this

theorem Sound.whole {E : Env} {l : List SignedTx} (h : Sound E l) : Ledger E (MemStore.ofList l) := by simpa using h.ledger l.length

/-- longer prefixes store more -/
theorem extends_prefix {l l' : List SignedTx} (h : (l'.map SignedTx.id).Nodup) (hp : l <+: l') : Extends (MemStore.ofList l) (MemStore.ofList l') := by
  intro id t ht
  have hn : (l.map SignedTx.id).Nodup := List.Nodup.sublist (hp.sublist.map _) h
  obtain ⟨hm, hi⟩ := (get_some hn).1 ht
  exact (get_some h).2 ⟨hp.subset hm, hi⟩

/-- the ledger is sound after every schedule -/
theorem sound_step {N : NodeEnv} {s : Network} (h : Sound N.toEnv s.ledger) (ev : Event) : Sound N.toEnv (step N s ev).ledger := by
  cases ev with
  | submit t => exact h
  | deliver i =>
    simp only [step]
    split
    · exact h
    · split
      · rename_i hc
        exact h.append (by simpa [store] using hc.1) hc.2
      · exact h
  | react k rng p v =>
    simp only [step]
    split
    · exact h
    · split <;> exact h

theorem run_append (N : NodeEnv) (evs : List Event) (ev : Event) : run N (evs ++ [ev]) = step N (run N evs) ev := by simp [run]

/-- induction over schedules -/
theorem run_induction {N : NodeEnv} {P : Network → Prop} {Q : Event → Prop} (h0 : P empty) (hs : ∀ s ev, Q ev → Sound N.toEnv s.ledger → P s → P (step N s ev))
    (evs : List Event) (hq : ∀ ev ∈ evs, Q ev) : P (run N evs) := by
  suffices ∀ s, Sound N.toEnv s.ledger → P s → P (evs.foldl (step N) s) from this _ .nil h0
  induction evs with
  | nil => exact fun s _ h => h
  | cons ev evs ih => exact fun s hsound h => ih (fun e he => hq e (by simp [he])) _ (sound_step hsound ev) (hs s ev (hq ev (by simp)) hsound h)

theorem sound_run (N : NodeEnv) (evs : List Event) : Sound N.toEnv (run N evs).ledger :=
  run_induction (P := fun s => Sound N.toEnv s.ledger) (Q := fun _ => True) .nil (fun _ ev _ _ h => sound_step h ev) evs (by simp)

/-- the ledger only grows -/
theorem ledger_prefix (N : NodeEnv) (s : Network) (ev : Event) : s.ledger <+: (step N s ev).ledger := by
  cases ev with
  | submit t => exact List.prefix_refl _
  | deliver i =>
    simp only [step]
    split
    · exact List.prefix_refl _
    · split
      · exact List.prefix_append _ _
      · exact List.prefix_refl _
  | react k rng p v =>
    simp only [step]
    split
    · exact List.prefix_refl _
    · split <;> exact List.prefix_refl _

/-- Of finitely many listed ids there is a last one. -/
theorem exists_last {l : List SignedTx} (ids : List Identifier) (hne : ids ≠ []) (h : ∀ i ∈ ids, i ∈ l.map SignedTx.id) :
    ∃ m t, l[m]? = some t ∧ t.id ∈ ids ∧ ∀ i ∈ ids, i ∈ (l.take (m + 1)).map SignedTx.id := by
  have hmain : ∀ n, (∀ i ∈ ids, i ∈ (l.take n).map SignedTx.id) → ∃ m t, l[m]? = some t ∧ t.id ∈ ids ∧ ∀ i ∈ ids, i ∈ (l.take (m + 1)).map SignedTx.id := by
    intro n
    induction n with
    | zero =>
      intro h
      obtain ⟨i, hi⟩ := List.exists_mem_of_ne_nil ids hne
      have := h i hi
      simp at this
    | succ n ih =>
      intro h
      by_cases hlt : n < l.length
      · by_cases hid : l[n].id ∈ ids
        · exact ⟨n, l[n], List.getElem?_eq_getElem hlt, hid, h⟩
        · refine ih fun i hi => ?_
          have := h i hi
          rw [List.take_succ_eq_append_getElem hlt, List.map_append, List.mem_append] at this
          rcases this with h' | h'
          · exact h'
          · simp only [List.map_cons, List.map_nil, List.mem_singleton] at h'
            exact absurd (h' ▸ hi) hid
      · refine ih fun i hi => ?_
        have := h i hi
        rwa [List.take_of_length_le (by omega)] at this ⊢
  exact hmain l.length (by simpa using h)

theorem mem_eraseIdx_or {α : Type} {l : List α} {i : Nat} {t d : α} (hi : l[i]? = some t) (hd : d ∈ l) : d = t ∨ d ∈ l.eraseIdx i := by
  obtain ⟨j, hj⟩ := List.mem_iff_getElem?.1 hd
  by_cases hij : j = i
  · subst hij
    rw [hi] at hj
    exact .inl (Option.some.inj hj).symm
  · right
    rw [List.mem_eraseIdx_iff_getElem?]
    exact ⟨j, hij, hj⟩

end CB.Server.Network
