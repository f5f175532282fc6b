import Verif.Lemmas.Server
import Verif.Lemmas.AcceptMix
import Mathlib.Data.List.Induction
/-!
# Lemmas about the mixes and partial decryptions nodes produce
-/

namespace CB
open Spec
namespace Server

theorem pushVote_spec {α : Type} (c : UInt32) (x : α) (m : List (UInt32 × List α)) (h : (m.map Prod.fst).Nodup) :
    (∀ c', c' ∈ (pushVote c x m).map Prod.fst ↔ c' = c ∨ c' ∈ m.map Prod.fst) ∧ ((pushVote c x m).map Prod.fst).Nodup ∧
    ∀ c' vs, (c', vs) ∈ pushVote c x m ↔ (c' ≠ c ∧ (c', vs) ∈ m) ∨ (c' = c ∧ ((∃ vs0, (c, vs0) ∈ m ∧ vs = vs0 ++ [x]) ∨ (c ∉ m.map Prod.fst ∧ vs = [x]))) := by
  induction m with
  | nil =>
    refine ⟨by simp [pushVote], by simp [pushVote], fun c' vs => ?_⟩
    simp [pushVote]
  | cons e m ih =>
    obtain ⟨c0, xs⟩ := e
    rw [List.map_cons, List.nodup_cons] at h
    obtain ⟨i1, i2, i3⟩ := ih h.2
    have hnone : ∀ vs, (c0, vs) ∉ m := fun vs hm => h.1 (List.mem_map.2 ⟨_, hm, rfl⟩)
    by_cases hc : c0 = c
    · subst hc
      simp only [pushVote, if_true]
      refine ⟨fun c' => by simp, by rw [List.map_cons, List.nodup_cons]; exact h, fun c' vs => ?_⟩
      simp only [List.mem_cons, Prod.mk.injEq, List.map_cons]
      constructor
      · rintro (⟨rfl, rfl⟩ | hm)
        · exact .inr ⟨rfl, .inl ⟨xs, .inl ⟨trivial, rfl⟩, rfl⟩⟩
        · exact .inl ⟨fun heq => hnone vs (heq ▸ hm), .inr hm⟩
      · rintro (⟨hne, (⟨h', _⟩ | hm)⟩ | ⟨rfl, (⟨vs0, (⟨_, rfl⟩ | hm), rfl⟩ | ⟨hn, _⟩)⟩)
        · exact absurd h' hne
        · exact .inr hm
        · exact .inl ⟨rfl, rfl⟩
        · exact absurd hm (hnone _)
        · exact absurd (.inl trivial) hn
    · simp only [pushVote, if_neg hc]
      refine ⟨fun c' => ?_, ?_, fun c' vs => ?_⟩
      · rw [List.map_cons, List.mem_cons, i1, List.map_cons, List.mem_cons]
        tauto
      · rw [List.map_cons, List.nodup_cons]
        refine ⟨fun hm => ?_, i2⟩
        rcases (i1 c0).1 hm with h' | h'
        · exact hc h'
        · exact h.1 h'
      · rw [List.mem_cons, i3]
        simp only [List.mem_cons, Prod.mk.injEq, List.map_cons]
        constructor
        · rintro (⟨rfl, rfl⟩ | ⟨h1, h2⟩ | ⟨rfl, (⟨vs0, h1, h2⟩ | ⟨h1, h2⟩)⟩)
          · exact .inl ⟨hc, .inl ⟨rfl, rfl⟩⟩
          · exact .inl ⟨h1, .inr h2⟩
          · exact .inr ⟨rfl, .inl ⟨vs0, .inr h1, h2⟩⟩
          · exact .inr ⟨rfl, .inr ⟨fun hm => hm.elim (fun h => hc h.symm) h1, h2⟩⟩
        · rintro (⟨h1, (h2 | h2)⟩ | ⟨rfl, (⟨vs0, (⟨h1, _⟩ | h1), h2⟩ | ⟨h1, h2⟩)⟩)
          · exact .inl h2
          · exact .inr (.inl ⟨h1, h2⟩)
          · exact absurd h1.symm hc
          · exact .inr (.inr ⟨rfl, .inl ⟨vs0, h1, h2⟩⟩)
          · exact .inr (.inr ⟨rfl, .inr ⟨fun hm => h1 (.inr hm), h2⟩⟩)

/-- grouping by first component keeps each group in order -/
theorem group_spec {α : Type} (xs : List (UInt32 × α)) :
    ((xs.foldl (fun m e => pushVote e.1 e.2 m) []).map Prod.fst).Nodup ∧
    ∀ c vs, (c, vs) ∈ xs.foldl (fun m e => pushVote e.1 e.2 m) [] ↔ vs ≠ [] ∧ vs = (xs.filter fun e => e.1 = c).map Prod.snd := by
  induction xs using List.reverseRecOn with
  | nil =>
    refine ⟨by simp, fun c vs => ?_⟩
    simp only [List.foldl_nil, List.not_mem_nil, List.filter_nil, List.map_nil, false_iff, not_and]
    exact fun h h' => h h'
  | append_singleton xs e ih =>
    obtain ⟨c0, x⟩ := e
    obtain ⟨h1, h2⟩ := ih
    rw [List.foldl_append, List.foldl_cons, List.foldl_nil]
    obtain ⟨_, k2, k3⟩ := pushVote_spec c0 x _ h1
    refine ⟨k2, fun c vs => ?_⟩
    rw [k3]
    have hkey : ∀ c, c ∈ (xs.foldl (fun m e => pushVote e.1 e.2 m) []).map Prod.fst ↔ (xs.filter fun e => e.1 = c).map Prod.snd ≠ [] := by
      intro c
      constructor
      · intro hm
        obtain ⟨⟨c', vs⟩, hm', rfl⟩ := List.mem_map.1 hm
        obtain ⟨h3, h4⟩ := (h2 _ _).1 hm'
        show (xs.filter fun e => e.1 = c').map Prod.snd ≠ []
        exact h4 ▸ h3
      · intro hne
        exact List.mem_map.2 ⟨(c, _), (h2 c _).2 ⟨hne, rfl⟩, rfl⟩
    rw [List.filter_append, List.map_append]
    by_cases hc : c = c0
    · subst hc
      simp only [ne_eq, not_true_eq_false, false_and, true_and, false_or, List.filter_cons, decide_true, if_true, List.filter_nil, List.map_cons, List.map_nil]
      constructor
      · rintro (⟨vs0, hm, rfl⟩ | ⟨hn, rfl⟩)
        · rw [← ((h2 _ _).1 hm).2]
          exact ⟨by simp, rfl⟩
        · have : (xs.filter fun e => e.1 = c).map Prod.snd = [] := by
            by_contra hh
            exact hn ((hkey c).2 hh)
          rw [this]
          exact ⟨by simp, rfl⟩
      · rintro ⟨_, rfl⟩
        by_cases hh : (xs.filter fun e => e.1 = c).map Prod.snd = []
        · exact .inr ⟨fun hm => (hkey c).1 hm hh, by rw [hh]; rfl⟩
        · exact .inl ⟨_, (h2 _ _).2 ⟨hh, rfl⟩, rfl⟩
    · have hc' : ¬ c0 = c := fun h => hc h.symm
      simp only [ne_eq, hc, not_false_eq_true, true_and, false_and, or_false, List.filter_cons, hc', decide_false, List.filter_nil, Bool.false_eq_true, if_false, List.map_nil, List.append_nil]
      exact h2 c vs

theorem contestVotes_spec (votes : List VoteTx) :
    ((contestVotes votes).map Prod.fst).Nodup ∧
    ∀ c vs, (c, vs) ∈ contestVotes votes ↔ vs ≠ [] ∧
      vs = votes.flatMap fun vt => (vt.encryptedVotes.filter fun ev => ev.contestIndex = c).map fun ev => (vt.id, ev.selections) := by
  obtain ⟨h1, h2⟩ := group_spec (votes.flatMap fun vt => vt.encryptedVotes.map fun ev => (ev.contestIndex, (vt.id, ev.selections)))
  refine ⟨h1, fun c vs => ?_⟩
  unfold contestVotes
  rw [h2]
  refine and_congr_right fun _ => ?_
  suffices ((votes.flatMap fun vt => vt.encryptedVotes.map fun ev => (ev.contestIndex, (vt.id, ev.selections))).filter fun e => e.1 = c).map Prod.snd =
      votes.flatMap fun vt => (vt.encryptedVotes.filter fun ev => ev.contestIndex = c).map fun ev => (vt.id, ev.selections) by rw [this]
  induction votes with
  | nil => rfl
  | cons vt votes ih =>
    simp only [List.flatMap_cons, List.filter_append, List.map_append]
    have ih := ih (group_spec _).1 (group_spec _).2
    rw [ih]
    congr 1
    rw [List.filter_map, List.map_map]
    rfl

/-- every first mix comes from one contest's votes -/
theorem firstMixes_mem {N : NodeEnv} {rng : Rng} {sk : SecretKey} {e : ElectionTx} {tr : Trustee} {key : ElGamalKey}
    {cv : List (UInt32 × List (Identifier × List Ciphertext))} {k : Nat} {l : List SignedTx} (h : firstMixes N rng sk e tr key k cv = .ok l) :
    l.length = cv.length ∧ ∀ (i : Nat) c votes, cv[i]? = some (c, votes) → ∃ r out proof,
      N.shuffle (pedersenSeed tr.index 0 c 0) (votes.map (·.2)).length (votes.map (·.2)) key r = .ok (out, proof) ∧
      l[i]? = some (.mix ⟨MixTx.new e.id none tr 0 c 0 (votes.map (·.1)) out proof,
        N.edSign sk (MixTx.new e.id none tr 0 c 0 (votes.map (·.1)) out proof).toCbor.encode⟩) := by
  induction cv generalizing k l with
  | nil =>
    simp only [firstMixes, Res.ok.injEq] at h
    subst h
    simp
  | cons e0 cv ih =>
    obtain ⟨c0, votes0⟩ := e0
    simp only [firstMixes, Res.bind_def, Res.bind_eq_ok, Res.pure_def, Res.ok.injEq] at h
    obtain ⟨⟨out, proof⟩, hr, s, hs, ss, hss, rfl⟩ := h
    obtain ⟨i1, i2⟩ := ih hss
    refine ⟨by simp [i1], fun i c votes hi => ?_⟩
    cases i with
    | zero =>
      simp only [List.getElem?_cons_zero, Option.some.injEq, Prod.mk.injEq] at hi
      obtain ⟨rfl, rfl⟩ := hi
      obtain ⟨rfl, _⟩ := sign_ok hs
      unfold mix at hr
      split at hr
      · rename_i r hr'
        cases hr
        exact ⟨_, out, proof, hr', rfl⟩
      · cases hr
    | succ i =>
      simp only [List.getElem?_cons_succ] at hi ⊢
      exact i2 i c votes hi

/-- the partial decryptions, one per item -/
theorem partialsFrom_spec {N : NodeEnv} {rng : Rng} {sk : SecretKey} {e : ElectionTx} {tr : Trustee} {keys : List (UInt8 × X25519Pub)}
    {cs : List (UInt8 × KeygenCommitment)} {shares : List (UInt8 × EncryptedShare)} {k : Nat} {items : List (Identifier × UInt16 × UInt32 × List Ciphertext)}
    {l : List SignedTx} (h : partialsFrom N rng sk e tr keys cs shares k items = .ok l) :
    l.length = items.length ∧ ∀ (i : Nat) up n c cts, items[i]? = some (up, n, c, cts) → ∃ ds,
      itemShares N rng sk tr keys cs shares e.id [k + i] 0 cts = .ok ds ∧
      l[i]? = some (.partialDecryption ⟨PartialDecryptionTx.new e.id up n tr.index c (N.edPublic sk) ds,
        N.edSign sk (PartialDecryptionTx.new e.id up n tr.index c (N.edPublic sk) ds).toCbor.encode⟩) := by
  induction items generalizing k l with
  | nil =>
    simp only [partialsFrom, Res.ok.injEq] at h
    subst h
    simp
  | cons e0 items ih =>
    obtain ⟨up0, n0, c0, cts0⟩ := e0
    simp only [partialsFrom, Res.bind_def, Res.bind_eq_ok, Res.pure_def, Res.ok.injEq] at h
    obtain ⟨ds, hds, s, hs, ss, hss, rfl⟩ := h
    obtain ⟨i1, i2⟩ := ih hss
    refine ⟨by simp [i1], fun i up n c cts hi => ?_⟩
    cases i with
    | zero =>
      simp only [List.getElem?_cons_zero, Option.some.injEq, Prod.mk.injEq] at hi
      obtain ⟨rfl, rfl, rfl, rfl⟩ := hi
      obtain ⟨rfl, _⟩ := sign_ok hs
      exact ⟨ds, hds, rfl⟩
    | succ i =>
      simp only [List.getElem?_cons_succ] at hi ⊢
      have := i2 i up n c cts hi
      rw [show k + 1 + i = k + (i + 1) by omega] at this
      exact this

theorem itemShares_length {N : NodeEnv} {rng : Rng} {sk : SecretKey} {tr : Trustee} {keys : List (UInt8 × X25519Pub)}
    {cs : List (UInt8 × KeygenCommitment)} {shares : List (UInt8 × EncryptedShare)} {el : Identifier} {pos : List Nat} {k : Nat} {cts : List Ciphertext}
    {ds : List DecryptShare} (h : itemShares N rng sk tr keys cs shares el pos k cts = .ok ds) :
    ds.length = cts.length ∧ ∀ (j : Nat) c, cts[j]? = some c → ∃ p r, tr.party N sk keys cs shares el = .ok p ∧ ds[j]? = some (N.partyDecrypt p c r) := by
  induction cts generalizing k ds with
  | nil =>
    simp only [itemShares, Res.ok.injEq] at h
    subst h
    simp
  | cons c cts ih =>
    simp only [itemShares, Res.bind_def, Res.bind_eq_ok, Res.pure_def, Res.ok.injEq, v_eq_ok, Trustee.partialDecrypt] at h
    obtain ⟨s, ⟨p, hp, hs⟩, rest, hrest, rfl⟩ := h
    obtain ⟨i1, i2⟩ := ih hrest
    refine ⟨by simp [i1], fun j c' hj => ?_⟩
    cases j with
    | zero =>
      simp only [List.getElem?_cons_zero, Option.some.injEq] at hj ⊢
      subst hj
      exact ⟨p, _, hp, hs.symm⟩
    | succ j =>
      simp only [List.getElem?_cons_succ] at hj ⊢
      exact i2 j c' hj

end Server
end CB
