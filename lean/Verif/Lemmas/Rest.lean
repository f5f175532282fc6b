import Verif.Spec.Rest
import Verif.Lemmas.Blocks
/-!
# Endless schedules come to rest

The ids that are ever filed are finitely many, so from some time on no new ones are.  What nodes submit from then on is never filed, and nobody reacts to it.
-/

namespace CB
open Spec Server

namespace Rest

/-- what holds from some time on for each of a list, holds from some time on for all of them -/
theorem eventually_all {α : Type} {p : α → Nat → Prop} (l : List α) (h : ∀ x ∈ l, ∃ n₀, ∀ n, n₀ ≤ n → p x n) : ∃ n₀, ∀ n, n₀ ≤ n → ∀ x ∈ l, p x n := by
  induction l with
  | nil => exact ⟨0, by simp⟩
  | cons a l ih =>
    obtain ⟨n₁, h1⟩ := h a List.mem_cons_self
    obtain ⟨n₂, h2⟩ := ih fun x hx => h x (List.mem_cons_of_mem _ hx)
    refine ⟨max n₁ n₂, fun n hn x hx => ?_⟩
    rcases List.mem_cons.1 hx with rfl | hx
    · exact h1 n (by omega)
    · exact h2 n (by omega) x hx

theorem all_bytes (n : Nat) : ∃ l : List Bytes, ∀ b : Bytes, b.length = n → b ∈ l := by
  induction n with
  | zero => exact ⟨[[]], fun b hb => by simp [List.length_eq_zero_iff.1 hb]⟩
  | succ n ih =>
    obtain ⟨l, hl⟩ := ih
    refine ⟨(List.range 256).flatMap fun c => l.map (UInt8.ofNat c :: ·), fun b hb => ?_⟩
    cases b with
    | nil => cases hb
    | cons c b =>
      refine List.mem_flatMap.2 ⟨c.toNat, List.mem_range.2 c.toNat_lt, List.mem_map.2 ⟨b, hl b (by simpa using hb), ?_⟩⟩
      simp

theorem all_arrays (n : Nat) : ∃ l : List (BArr n), ∀ b, b ∈ l := by
  obtain ⟨l, hl⟩ := all_bytes n
  refine ⟨l.filterMap fun b => if h : b.length = n then some ⟨b, h⟩ else none, fun b => ?_⟩
  exact List.mem_filterMap.2 ⟨b.val, hl _ b.property, by simp [b.property]⟩

/-- there are finitely many ids -/
theorem all_identifiers : ∃ l : List Identifier, ∀ id, id ∈ l := by
  obtain ⟨l1, h1⟩ := all_arrays 15
  obtain ⟨l2, h2⟩ := all_arrays 16
  refine ⟨l1.flatMap fun a => [TxType.election, .keyGenCommitment, .keyGenShare, .keyGenPublicKey, .encryptionKey, .vote, .votingEnd, .mix, .partialDecryption, .decryption].flatMap fun t =>
    l2.map fun b => ⟨a, t, b⟩, fun id => ?_⟩
  refine List.mem_flatMap.2 ⟨id.electionId, h1 _, List.mem_flatMap.2 ⟨id.txType, ?_, List.mem_map.2 ⟨id.uniqueInfo, h2 _, rfl⟩⟩⟩
  cases id.txType <;> simp

end Rest

namespace Exonum

theorem getTransaction_keeps {E : Env} {s : Schema} {l : List Envelope} {id : Identifier} {t : SignedTx} (h : getTransaction s id = some t) :
    getTransaction (deliverAll E s l) id = some t := by
  obtain ⟨x, hx, hd⟩ := getTransaction_eq_some.1 h
  exact getTransaction_eq_some.2 ⟨x, deliverAll_keeps hx, hd⟩

end Exonum

namespace Server.Chain

variable {N : NodeEnv} {K : List SecretKey}

theorem after_succ (N : NodeEnv) (evs : Nat → BlockEvent) (n : Nat) : after N evs (n + 1) = step N (after N evs n) (evs n) := by
  unfold after
  rw [List.range_succ, List.map_append, List.map_singleton, run_snoc]

/-- what nodes submit is not filed where they look -/
theorem processBlock_new {rng : Nat → Rng} {sk : SecretKey} {s : Exonum.Schema} {i : Nat} {xs : List Exonum.Envelope} {y : Exonum.Envelope}
    (h : y ∈ (processBlock N rng sk s i xs).1) : ∃ d : SignedTx, y = .ofTx d ∧ Exonum.getTransaction s d.id = none := by
  induction xs generalizing i with
  | nil => cases h
  | cons x xs ih =>
    unfold processBlock at h
    split at h
    · rename_i l hl
      rcases List.mem_append.1 h with h | h
      · unfold react at hl
        split at hl
        · split at hl
          · split at hl
            · cases hl
              obtain ⟨d, hd, rfl⟩ := List.mem_map.1 h
              exact ⟨d, rfl, Option.isNone_iff_eq_none.1 (List.mem_filter.1 hd).2⟩
            · cases hl
            · cases hl
          · cases hl; cases h
        · cases hl; cases h
        · cases hl
      · exact ih h
    · cases h

/-- the envelope carries an id that is not filed -/
def Unfiled (s : Exonum.Schema) (x : Exonum.Envelope) : Prop := ∃ id, Identifier.fromStr x.id = .ok id ∧ Exonum.getTransaction s id = none

/-- nobody reacts to that -/
theorem processBlock_unfiled {rng : Nat → Rng} {sk : SecretKey} {s : Exonum.Schema} {i : Nat} {xs : List Exonum.Envelope} (h : ∀ x ∈ xs, Unfiled s x) :
    processBlock N rng sk s i xs = ([], true) := by
  induction xs generalizing i with
  | nil => rfl
  | cons x xs ih =>
    obtain ⟨id, h1, h2⟩ := h x List.mem_cons_self
    have : react N (rng i) sk s x = .ok [] := by
      unfold react
      rw [h1]
      simp only
      rw [h2]
    unfold processBlock
    rw [this, ih fun x hx => h x (List.mem_cons_of_mem _ hx)]
    rfl

theorem blocks_step (N : NodeEnv) (c : Chain) (ev : BlockEvent) : c.blocks <+: (step N c ev).blocks := by
  cases ev with
  | submit x => exact List.prefix_refl _
  | commit is => exact List.prefix_append _ _
  | lose i =>
    unfold step
    dsimp only
    split <;> exact List.prefix_refl _
  | afterCommit k rng h =>
    unfold step
    dsimp only
    split
    · exact List.prefix_refl _
    · split <;> exact List.prefix_refl _

theorem processed_step (N : NodeEnv) (c : Chain) (ev : BlockEvent) : ∀ p ∈ c.processed, p ∈ (step N c ev).processed := by
  intro p hp
  cases ev with
  | submit x => exact hp
  | commit is => exact hp
  | lose i =>
    unfold step
    dsimp only
    split <;> exact hp
  | afterCommit k rng h =>
    unfold step
    dsimp only
    split
    · exact hp
    · split
      · dsimp only
        split
        · exact List.mem_cons_of_mem _ hp
        · exact hp
      · exact hp

theorem blocks_mono (N : NodeEnv) (evs : Nat → BlockEvent) {n m : Nat} (h : n ≤ m) : (after N evs n).blocks <+: (after N evs m).blocks := by
  induction m, h using Nat.le_induction with
  | base => exact List.prefix_refl _
  | succ m _ ih => rw [after_succ]; exact ih.trans (blocks_step _ _ _)

theorem processed_mono (N : NodeEnv) (evs : Nat → BlockEvent) {n m : Nat} (h : n ≤ m) {p : SecretKey × Nat} (hp : p ∈ (after N evs n).processed) :
    p ∈ (after N evs m).processed := by
  induction m, h using Nat.le_induction with
  | base => exact hp
  | succ m _ ih => rw [after_succ]; exact processed_step _ _ _ _ ih

/-- what is filed stays filed, also in the nodes' views -/
theorem schemaAt_keeps {c c' : Chain} {h : Nat} (hb : c.blocks <+: c'.blocks) (hh : c.blocks.length ≤ h + 1) {id : Identifier} {t : SignedTx}
    (ht : Exonum.getTransaction (c.schema N.toEnv) id = some t) : Exonum.getTransaction (c'.schemaAt N.toEnv h) id = some t := by
  obtain ⟨rest, hr⟩ := hb
  unfold schemaAt
  rw [← hr, List.take_append, List.take_of_length_le hh, List.flatten_append, Exonum.deliverAll_append]
  exact Exonum.getTransaction_keeps ht

theorem schema_of_schemaAt {c : Chain} {h : Nat} {id : Identifier} {t : SignedTx} (ht : Exonum.getTransaction (c.schemaAt N.toEnv h) id = some t) :
    Exonum.getTransaction (c.schema N.toEnv) id = some t := by
  unfold schema
  rw [← List.take_append_drop (h + 1) c.blocks, List.flatten_append, Exonum.deliverAll_append]
  exact Exonum.getTransaction_keeps ht

theorem schema_mono (N : NodeEnv) (evs : Nat → BlockEvent) {n m : Nat} (h : n ≤ m) {id : Identifier} {t : SignedTx}
    (ht : Exonum.getTransaction ((after N evs n).schema N.toEnv) id = some t) : Exonum.getTransaction ((after N evs m).schema N.toEnv) id = some t := by
  obtain ⟨rest, hr⟩ := blocks_mono N evs h
  unfold schema
  rw [← hr, List.flatten_append, Exonum.deliverAll_append]
  exact Exonum.getTransaction_keeps ht

/-- from some time on, no new id is filed -/
theorem filed_stable (N : NodeEnv) (evs : Nat → BlockEvent) : ∃ n₁, ∀ id, Exonum.getTransaction ((after N evs n₁).schema N.toEnv) id = none →
    ∀ n, Exonum.getTransaction ((after N evs n).schema N.toEnv) id = none := by
  obtain ⟨l, hl⟩ := Rest.all_identifiers
  obtain ⟨n₁, h⟩ := Rest.eventually_all (p := fun id n₁ => Exonum.getTransaction ((after N evs n₁).schema N.toEnv) id = none →
    ∀ n, Exonum.getTransaction ((after N evs n).schema N.toEnv) id = none) l (by
    intro id _
    by_cases hex : ∃ m, Exonum.getTransaction ((after N evs m).schema N.toEnv) id ≠ none
    · obtain ⟨m, hm⟩ := hex
      obtain ⟨t, ht⟩ := Option.ne_none_iff_exists'.1 hm
      exact ⟨m, fun n hn hnone => by rw [schema_mono N evs hn ht] at hnone; cases hnone⟩
    · exact ⟨0, fun _ _ _ n => Classical.not_not.1 fun h => hex ⟨n, h⟩⟩)
  exact ⟨n₁, fun id => h n₁ (Nat.le_refl _) id (hl id)⟩

/-- no hook runs any more for the first heights -/
theorem no_hooks {evs : Nat → BlockEvent} (D : Dutiful N K evs) (H : Nat) : ∃ n₀, ∀ n, n₀ ≤ n → ∀ k rng h, evs n = .afterCommit k rng h → H < h := by
  obtain ⟨n₀, h⟩ := Rest.eventually_all (p := fun (x : SecretKey × Nat) n => ∀ rng, evs n ≠ .afterCommit x.1 rng x.2)
    (K.flatMap fun k => (List.range (H + 1)).map fun h => (k, h)) (by
      intro x hx
      obtain ⟨k, hk, hx⟩ := List.mem_flatMap.1 hx
      obtain ⟨h, -, rfl⟩ := List.mem_map.1 hx
      exact D.finitely k hk h)
  refine ⟨n₀, fun n hn k rng j he => Nat.lt_of_not_le fun hle => ?_⟩
  exact h n hn (k, j) (List.mem_flatMap.2 ⟨k, D.members n k rng j he, List.mem_map.2 ⟨j, List.mem_range.2 (by omega), rfl⟩⟩) rng he

/-- the events of a dutiful schedule, once everybody else is silent -/
theorem step_dutiful {evs : Nat → BlockEvent} (D : Dutiful N K evs) {n : Nat} (hs : ∀ x, evs n ≠ .submit x) :
    (∃ is, (after N evs (n + 1)).blocks = (after N evs n).blocks ++ [(pick (after N evs n).pool is).1] ∧ (after N evs (n + 1)).pool = (pick (after N evs n).pool is).2) ∨
    ((after N evs (n + 1)).blocks = (after N evs n).blocks ∧ (after N evs (n + 1)).pool = (after N evs n).pool) ∨
    ∃ k rng h, evs n = .afterCommit k rng (h + 1) ∧ h + 1 < (after N evs n).blocks.length ∧ (after N evs (n + 1)).blocks = (after N evs n).blocks ∧
      (after N evs (n + 1)).pool = (after N evs n).pool ++ (processBlock N rng k ((after N evs n).schemaAt N.toEnv (h + 1)) 0 ((after N evs n).blocks.getD h [])).1 := by
  rw [after_succ]
  cases hev : evs n with
  | submit x => exact absurd hev (hs x)
  | commit is => exact .inl ⟨is, rfl, rfl⟩
  | lose i => exact absurd hev (D.lossless n i)
  | afterCommit k rng h =>
    cases h with
    | zero => exact .inr (.inl ⟨rfl, rfl⟩)
    | succ h =>
      by_cases hlt : h + 1 < (after N evs n).blocks.length
      · refine .inr (.inr ⟨k, rng, h, rfl, hlt, ?_⟩)
        simp only [step, if_pos hlt, and_self]
      · refine .inr (.inl ?_)
        simp only [step, if_neg hlt, and_self]

theorem pick_mem {α : Type} {pool : List α} {is : List Nat} {x : α} (h : x ∈ (pick pool is).1 ∨ x ∈ (pick pool is).2) : x ∈ pool :=
  (pick_perm pool is).mem_iff.1 (List.mem_append.2 h)

theorem getD_append_one {α : Type} {bs : List (List α)} {b : List α} {h : Nat} {x : α} (hx : x ∈ (bs ++ [b]).getD h []) : x ∈ bs.getD h [] ∨ (h = bs.length ∧ x ∈ b) := by
  rw [List.getD_eq_getElem?_getD] at hx
  rcases Nat.lt_trichotomy h bs.length with hlt | heq | hgt
  · rw [List.getElem?_append_left hlt] at hx
    exact .inl (by rwa [List.getD_eq_getElem?_getD])
  · subst heq
    rw [List.getElem?_append_right (Nat.le_refl _)] at hx
    simp only [Nat.sub_self, List.getElem?_cons_zero, Option.getD_some] at hx
    exact .inr ⟨rfl, hx⟩
  · rw [List.getElem?_eq_none (by simp; omega)] at hx
    cases hx

/-- **dutiful schedules come to rest** -/
theorem comes_to_rest {evs : Nat → BlockEvent} (D : Dutiful N K evs) :
    ∃ n₀, ∀ n, n₀ ≤ n → (after N evs n).pool = [] ∧ (after N evs n).blocks.flatten = (after N evs n₀).blocks.flatten ∧
      ∀ h, ∀ x ∈ (after N evs n).blocks.getD h [], ∀ k ∈ K, (k, h + 1) ∈ (after N evs n).processed := by
  obtain ⟨n₀, hs⟩ := D.silent
  obtain ⟨n₁, hst⟩ := filed_stable N evs
  -- never filed
  let dead : Exonum.Envelope → Prop := fun x => ∃ id, Identifier.fromStr x.id = .ok id ∧ ∀ n, Exonum.getTransaction ((after N evs n).schema N.toEnv) id = none
  have hdead : ∀ {x n h}, dead x → Unfiled ((after N evs n).schemaAt N.toEnv h) x := by
    rintro x n h ⟨id, hid, hn⟩
    refine ⟨id, hid, ?_⟩
    cases hg : Exonum.getTransaction ((after N evs n).schemaAt N.toEnv h) id with
    | none => rfl
    | some t =>
      have := schema_of_schemaAt hg
      rw [hn n] at this
      cases this
  obtain ⟨n₂, hh⟩ := no_hooks D (after N evs n₁).blocks.length
  obtain ⟨n₃, e3⟩ : ∃ n₃, n₃ = max n₀ (max n₁ n₂) := ⟨_, rfl⟩
  -- what enters the pool from now on is never filed
  have hpool : ∀ n, n₃ ≤ n → ∀ x ∈ (after N evs (n + 1)).pool, x ∈ (after N evs n).pool ∨ dead x := by
    intro n hn x hx
    rcases step_dutiful D (hs n (by omega)) with ⟨is, -, hp⟩ | ⟨-, hp⟩ | ⟨k, rng, h, hev, hlt, -, hp⟩
    · rw [hp] at hx; exact .inl (pick_mem (.inr hx))
    · rw [hp] at hx; exact .inl hx
    · rw [hp] at hx
      rcases List.mem_append.1 hx with hx | hx
      · exact .inl hx
      · obtain ⟨d, rfl, hd⟩ := processBlock_new hx
        refine .inr ⟨d.id, Identifier.fromStr_of_decode (hexDecode_hexEncode _), hst _ ?_⟩
        cases hg : Exonum.getTransaction ((after N evs n₁).schema N.toEnv) d.id with
        | none => rfl
        | some t =>
          have := hh n (by omega) k rng _ hev
          rw [schemaAt_keeps (blocks_mono N evs (show n₁ ≤ n by omega)) (by omega) hg] at hd
          cases hd
  have hpool' : ∀ m, n₃ ≤ m → ∀ n, m ≤ n → ∀ x ∈ (after N evs n).pool, x ∈ (after N evs m).pool ∨ dead x := by
    intro m hm n hn
    induction n, hn using Nat.le_induction with
    | base => exact fun x hx => .inl hx
    | succ n hn ih =>
      intro x hx
      rcases hpool n (by omega) x hx with h | h
      · exact ih x h
      · exact .inr h
  -- the rest leaves it
  obtain ⟨n₄', hp4⟩ := Rest.eventually_all (p := fun x n => n₃ ≤ n → x ∈ (after N evs n).pool → dead x) (after N evs n₃).pool (by
    intro x hx
    obtain ⟨m, hm, hxm⟩ := D.taken n₃ x hx
    refine ⟨m, fun n hn _ hxn => ?_⟩
    rcases hpool' m hm n hn x hxn with h | h
    · exact absurd h hxm
    · exact h)
  obtain ⟨n₄, e4⟩ : ∃ n₄, n₄ = max n₃ n₄' := ⟨_, rfl⟩
  have hdp : ∀ n, n₄ ≤ n → ∀ x ∈ (after N evs n).pool, dead x := by
    intro n hn x hx
    rcases hpool' n₃ (Nat.le_refl _) n (by omega) x hx with h | h
    · exact hp4 n (by omega) x h (by omega) hx
    · exact h
  -- so blocks hold nothing else from now on
  have hdb : ∀ n, n₄ ≤ n → ∀ h, (after N evs n₄).blocks.length ≤ h → ∀ x ∈ (after N evs n).blocks.getD h [], dead x := by
    intro n hn
    induction n, hn using Nat.le_induction with
    | base =>
      intro h hle x hx
      rw [List.getD_eq_getElem?_getD, List.getElem?_eq_none hle] at hx
      cases hx
    | succ n hn ih =>
      intro h hle x hx
      rcases step_dutiful D (hs n (by omega)) with ⟨is, hb, -⟩ | ⟨hb, -⟩ | ⟨k, rng, h', -, -, hb, -⟩
      · rw [hb] at hx
        rcases getD_append_one hx with hx | ⟨-, hx⟩
        · exact ih h hle x hx
        · exact hdp n hn x (pick_mem (.inl hx))
      · rw [hb] at hx; exact ih h hle x hx
      · rw [hb] at hx; exact ih h hle x hx
  obtain ⟨n₅', hh5⟩ := no_hooks D (after N evs n₄).blocks.length
  obtain ⟨n₅, e5⟩ : ∃ n₅, n₅ = max n₄ n₅' := ⟨_, rfl⟩
  -- and nothing is submitted
  have hshrink : ∀ n, n₅ ≤ n → ∀ x ∈ (after N evs (n + 1)).pool, x ∈ (after N evs n).pool := by
    intro n hn x hx
    rcases step_dutiful D (hs n (by omega)) with ⟨is, -, hp⟩ | ⟨-, hp⟩ | ⟨k, rng, h, hev, hlt, -, hp⟩
    · rw [hp] at hx; exact pick_mem (.inr hx)
    · rwa [hp] at hx
    · have := hh5 n (by omega) k rng _ hev
      rw [hp, processBlock_unfiled (fun y hy => hdead (hdb n (by omega) h (by omega) y hy)), List.append_nil] at hx
      exact hx
  have hshrink' : ∀ m, n₅ ≤ m → ∀ n, m ≤ n → ∀ x ∈ (after N evs n).pool, x ∈ (after N evs m).pool := by
    intro m hm n hn
    induction n, hn using Nat.le_induction with
    | base => exact fun x hx => hx
    | succ n hn ih => exact fun x hx => ih x (hshrink n (by omega) x hx)
  obtain ⟨n₆', hp6⟩ := Rest.eventually_all (p := fun x n => n₅ ≤ n → x ∉ (after N evs n).pool) (after N evs n₅).pool (by
    intro x hx
    obtain ⟨m, hm, hxm⟩ := D.taken n₅ x hx
    exact ⟨m, fun n hn _ hxn => hxm (hshrink' m hm n hn x hxn)⟩)
  obtain ⟨n₆, e6⟩ : ∃ n₆, n₆ = max n₅ n₆' := ⟨_, rfl⟩
  have hempty : ∀ n, n₆ ≤ n → (after N evs n).pool = [] := by
    intro n hn
    refine List.eq_nil_iff_forall_not_mem.2 fun x hx => ?_
    exact hp6 n (by omega) x (hshrink' n₅ (Nat.le_refl _) n (by omega) x hx) (by omega) hx
  -- all further blocks are empty
  have hblocks : ∀ n, n₆ ≤ n → ∃ j, (after N evs n).blocks = (after N evs n₆).blocks ++ List.replicate j [] := by
    intro n hn
    induction n, hn using Nat.le_induction with
    | base => exact ⟨0, by simp⟩
    | succ n hn ih =>
      obtain ⟨j, hj⟩ := ih
      rcases step_dutiful D (hs n (by omega)) with ⟨is, hb, -⟩ | ⟨hb, -⟩ | ⟨k, rng, h', -, -, hb, -⟩
      · refine ⟨j + 1, ?_⟩
        have : (pick (after N evs n).pool is).1 = [] := by
          refine List.eq_nil_iff_forall_not_mem.2 fun x hx => ?_
          have := pick_mem (.inl hx)
          rw [hempty n hn] at this
          cases this
        rw [hb, hj, this, List.replicate_succ', List.append_assoc]
      · exact ⟨j, hb.trans hj⟩
      · exact ⟨j, hb.trans hj⟩
  have hflat : ∀ n, n₆ ≤ n → (after N evs n).blocks.flatten = (after N evs n₆).blocks.flatten := by
    intro n hn
    obtain ⟨j, hj⟩ := hblocks n hn
    rw [hj, List.flatten_append, List.flatten_replicate_nil, List.append_nil]
  obtain ⟨n₇', hp7⟩ := Rest.eventually_all (p := fun (x : SecretKey × Nat) n => (x.1, x.2 + 1) ∈ (after N evs n).processed)
    (K.flatMap fun k => (List.range (after N evs n₆).blocks.length).map fun h => (k, h)) (by
      intro x hx
      obtain ⟨k, hk, hx⟩ := List.mem_flatMap.1 hx
      obtain ⟨h, -, rfl⟩ := List.mem_map.1 hx
      obtain ⟨m, hm⟩ := D.completed k hk h
      exact ⟨m, fun n hn => processed_mono N evs hn hm⟩)
  refine ⟨max n₆ n₇', fun n hn => ⟨hempty n (by omega), ?_, fun h x hx k hk => ?_⟩⟩
  · rw [hflat n (by omega), hflat (max n₆ n₇') (by omega)]
  · have hlt : h < (after N evs n₆).blocks.length := by
      refine Nat.lt_of_not_le fun hle => ?_
      obtain ⟨j, hj⟩ := hblocks n (by omega)
      rw [hj, List.getD_eq_getElem?_getD, List.getElem?_append_right hle, List.getElem?_replicate] at hx
      split at hx <;> cases hx
    exact hp7 n (by omega) (k, h) (List.mem_flatMap.2 ⟨k, hk, List.mem_map.2 ⟨h, List.mem_range.2 hlt, rfl⟩⟩)

end Server.Chain
end CB
