import Verif.Lemmas.Crash
import Verif.Lemmas.NetDone
import Verif.Props.Serialization
/-!
# What happens when a trustee's node misses the election
-/

namespace CB.Server.Chain
open Spec

variable {N : NodeEnv} {K : List SecretKey} {e : ElectionTx} {sk : UInt8 → SecretKey}

/-- where the submissions of the hook come from -/
theorem processBlock_made {rng : Nat → Rng} {k : SecretKey} {s : Exonum.Schema} {xs : List Exonum.Envelope} {i : Nat} {y : Exonum.Envelope}
    (hy : y ∈ (processBlock N rng k s i xs).1) :
    ∃ x ∈ xs, ∃ t j l, Identifier.fromStr x.id = .ok t ∧ ∃ u, Exonum.getTransaction s t = some u ∧ generateTransactions N (rng j) k (Exonum.toStore s) u = .ok l ∧
      ∃ d ∈ l, y = .ofTx d := by
  induction xs generalizing i with
  | nil => cases hy
  | cons x xs ih =>
    simp only [processBlock] at hy
    cases hr : react N (rng i) k s x with
    | ok out =>
      rw [hr] at hy
      rcases List.mem_append.1 hy with hy | hy
      · unfold react at hr
        split at hr
        · rename_i id hid
          split at hr
          · rename_i u hu
            split at hr
            · rename_i l hl
              cases hr
              obtain ⟨d, hd, rfl⟩ := List.mem_map.1 hy
              exact ⟨x, by simp, id, i, l, hid, u, hu, hl, d, List.mem_of_mem_filter hd, rfl⟩
            · cases hr
            · cases hr
          · cases hr
            cases hy
        · cases hr
          cases hy
        · cases hr
      · obtain ⟨x', hx', h⟩ := ih hy
        exact ⟨x', by simp [hx'], h⟩
    | err er => cases er
    | panic p =>
      rw [hr] at hy
      cases hy

/-- no commitment of this trustee -/
def Without (e : ElectionTx) (pk : PublicKey) (x : Exonum.Envelope) : Prop :=
  ∀ t, SignedTx.fromBytes x.data = .ok t → t.id.electionId = e.id.electionId → kindOf t = .keyGenCommitment → ∀ i, trusteeOf t ≠ some (i, pk)

theorem mem_pick {α : Type} {pool : List α} {is : List Nat} {x : α} (h : x ∈ (pick pool is).1 ∨ x ∈ (pick pool is).2) : x ∈ pool := by
  induction is generalizing pool with
  | nil => rcases h with h | h; cases h; exact h
  | cons i is ih =>
    unfold pick at h
    cases hi : pool[i]? with
    | none => rw [hi] at h; exact ih h
    | some y =>
      rw [hi] at h
      rcases h with h | h
      · rcases List.mem_cons.1 h with rfl | h
        · exact List.mem_of_getElem? hi
        · exact List.mem_of_mem_eraseIdx (ih (.inl h))
      · exact List.mem_of_mem_eraseIdx (ih (.inr h))

/-- what a hook makes -/
theorem hook_without (hN : Nodes N K e sk) (hw : e.id = ⟨e.id.electionId, .election, zero16⟩) {tr : Trustee} (htr : tr ∈ e.trustees) {c : Chain}
    (hlab : ∀ x ∈ c.blocks.flatten, Labelled x) {k : SecretKey} (hk : k ∈ K) {rng : Nat → Rng} {h : Nat}
    (hmiss : k = sk tr.index → ∀ x ∈ c.blocks.getD h [], Identifier.fromStr x.id ≠ .ok e.id)
    (hrust : ∀ x ∈ c.blocks.getD h [], ∀ t : SignedTx, Identifier.fromStr x.id = .ok t.id → InStore (Exonum.toStore (c.schemaAt N.toEnv (h + 1))) t →
      ∀ i l, generateTransactions N (rng i) k (Exonum.toStore (c.schemaAt N.toEnv (h + 1))) t = .ok l → ∀ d ∈ l, RustData d) {y : Exonum.Envelope}
    (hy : y ∈ (processBlock N rng k (c.schemaAt N.toEnv (h + 1)) 0 (c.blocks.getD h [])).1) : Without e tr.publicKey y := by
  obtain ⟨x, hx, id, i, l, hid, u, hu, hl, d, hd, rfl⟩ := processBlock_made hy
  have hsub : ∀ x ∈ (c.blocks.take (h + 1 + 1)).flatten, Labelled x := fun x hx => by
    obtain ⟨b, hb, hx⟩ := List.mem_flatten.1 hx
    exact hlab x (List.mem_flatten.2 ⟨b, List.mem_of_mem_take hb, hx⟩)
  have hL := Exonum.lawful (Exonum.wf_deliverAll (E := N.toEnv) hsub)
  have huid : u.id = id := hL.keyed id u hu
  subst huid
  have hin : InStore (Exonum.toStore (c.schemaAt N.toEnv (h + 1))) u := hu
  have hrd := hrust x hx u hid hin i l hl d hd
  intro t ht hf hkind j htj
  have hdec : SignedTx.fromBytes (Exonum.Envelope.ofTx d).data = .ok (forget d) := (Exonum.C37_envelope_roundtrip d hrd).1
  rw [hdec] at ht
  have ht : forget d = t := by injection ht
  have hd' : forget d = d := by
    subst ht
    cases d <;> first | rfl | simp [forget, kindOf] at hkind
  rw [hd'] at ht
  subst ht
  obtain ⟨-, h1, h2⟩ := Setup.emitted hL hin hl hd
  obtain ⟨-, h3⟩ := Setup.emitted_own hL hin hl hd (by rw [hkind]; simp [SetupKind])
  have hkk : k = sk tr.index := hN.only k hk tr htr (h3 j _ htj).symm
  rw [hkind] at h2
  have hku : kindOf u = .election := by
    cases u <;> simp [Setup.follows, kindOf] at h2 ⊢
  refine hmiss hkk x hx ?_
  rw [hid]
  cases u with
  | election s =>
    obtain ⟨hs, hg⟩ := Exonum.accepted_spec N.toEnv _ hsub
    have hu' : (MemStore.ofList (Exonum.accepted N.toEnv OMap.empty (c.blocks.take (h + 1 + 1)).flatten)).toStore.getTransaction (SignedTx.election s).id = some (.election s) :=
      (hg _).symm.trans hu
    obtain ⟨m0, -, -, hv, -⟩ := hs.whole.accepted hu'
    have hsid := (ElectionTx.validateTx_ok.1 (SignedTx.validate_ok.1 hv).2.2).1
    have : s.tx.id = e.id := by
      rw [hsid, hw]
      have h1 : d.id.electionId = s.tx.id.electionId := h1
      rw [← h1, hf]
    show Res.ok s.tx.id = _
    rw [this]
  | _ => simp [kindOf] at hku

/-- Nothing that is submitted or committed is a commitment of the trustee. -/
theorem without_commitment (hN : Nodes N K e sk) (hw : e.id = ⟨e.id.electionId, .election, zero16⟩) {tr : Trustee} (htr : tr ∈ e.trustees) (evs : List CrashEvent)
    (hev : ∀ ev ∈ evs, OnCrashes (Permitted K e) ev) (hrust : RustCrashes N evs) (hmiss : NeverAfter N evs (sk tr.index) e.id) :
    ∀ x, x ∈ (runC N evs).blocks.flatten ∨ x ∈ (runC N evs).pool → Without e tr.publicKey x := by
  induction evs using List.reverseRecOn with
  | nil => intro x hx; rcases hx with hx | hx <;> simp [runC, genesis] at hx
  | append_singleton evs ev ih =>
    have hev' : ∀ x ∈ evs, OnCrashes (Permitted K e) x := fun x hx => hev x (by simp [hx])
    have hrust' : RustCrashes N evs := fun pre x hp => hrust pre x (hp.trans (List.prefix_append _ _))
    have ih := ih hev' hrust' fun pre x hp => hmiss pre x (hp.trans (List.prefix_append _ _))
    obtain ⟨l, hl, hr, hs⟩ := uncrashed evs hev' hrust'
    obtain ⟨_, _, hR⟩ := run_sim (P := Permitted K e) (fun _ => trivial) l hl hr
    have hlab : ∀ x ∈ (runC N evs).blocks.flatten, Labelled x := fun x hx => hR.labelled x (List.mem_append_left _ (by rw [hs.blocks]; exact hx))
    rw [show runC N (evs ++ [ev]) = stepC N (runC N evs) ev from List.foldl_append]
    have hev := hev ev (by simp)
    have hrust := hrust evs ev (List.prefix_refl _)
    have hmiss := hmiss evs ev (List.prefix_refl _)
    generalize runC N evs = c at *
    intro x hx
    cases ev with
    | block b =>
      cases b with
      | submit y =>
        rcases hx with hx | hx
        · exact ih x (.inl hx)
        · rcases List.mem_append.1 hx with hx | hx
          · exact ih x (.inr hx)
          · rw [List.mem_singleton] at hx
            subst hx
            intro t ht hf hkind
            exact absurd (by rw [hkind]; simp [SetupKind]) (hev.2 t ht hf)
      | commit is =>
        have hx : x ∈ (c.blocks ++ [(pick c.pool is).1]).flatten ∨ x ∈ (pick c.pool is).2 := hx
        rcases hx with hx | hx
        · rw [List.flatten_append] at hx
          rcases List.mem_append.1 hx with hx | hx
          · exact ih x (.inl hx)
          · exact ih x (.inr (mem_pick (.inl (by simpa using hx))))
        · exact ih x (.inr (mem_pick (.inr hx)))
      | lose i =>
        dsimp only [stepC, step] at hx
        split at hx
        · rcases hx with hx | hx
          · exact ih x (.inl hx)
          · exact ih x (.inr (List.mem_of_mem_eraseIdx hx))
        · exact ih x hx
      | afterCommit k rng height =>
        cases height with
        | zero => exact ih x hx
        | succ h =>
          dsimp only [stepC, step] at hx
          split at hx
          · rcases hx with hx | hx
            · exact ih x (.inl hx)
            · rcases List.mem_append.1 hx with hx | hx
              · exact ih x (.inr hx)
              · exact hook_without hN hw htr hlab (hev 0 0 0) (fun hk => by subst hk; exact hmiss rng h (.inl rfl)) (hrust k rng h (.inl rfl)) hx
          · exact ih x hx
    | crash k rng height sent =>
      cases height with
      | zero => exact ih x hx
      | succ h =>
        dsimp only [stepC] at hx
        split at hx
        · rcases hx with hx | hx
          · exact ih x (.inl hx)
          · rcases List.mem_append.1 hx with hx | hx
            · exact ih x (.inr hx)
            · cases sent with
              | zero => simp at hx
              | succ sent =>
                exact hook_without hN hw htr hlab (hev 0 0 0) (fun hk => by subst hk; exact hmiss rng h (.inr ⟨sent, rfl⟩)) (hrust k rng h (.inr ⟨_, rfl⟩)) (List.mem_of_mem_take hx)
        · exact ih x hx

end CB.Server.Chain
