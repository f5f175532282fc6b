import Verif.Spec.Receipt
import Verif.Props.Network
/-!
# C99: showing how one voted
-/

namespace CB
open Spec

/-- honest runs from the same seeds end with the same parties -/
theorem honest_unique {N : NodeEnv} {run run' : KeyGenRun N} {I : List Nat} {t : Nat} {seed : Nat → BArr 32} (h : run.Honest I t seed) (h' : run'.Honest I t seed) :
    ∀ i ∈ I, run.party i = run'.party i := by
  have hfull : ∀ i ∈ I, run.full i = run'.full i := fun i hi => by
    have h1 := (h i hi).1
    rw [(h' i hi).1] at h1
    exact (Except.ok.inj h1).symm
  have hshare : ∀ i ∈ I, ∀ j ∈ I, run.share i j = run'.share i j := fun i hi j hj => by
    have h1 := ((h i hi).2.1 j hj).1
    rw [hfull i hi, ((h' i hi).2.1 j hj).1] at h1
    exact (Except.ok.inj h1).symm
  intro i hi
  obtain ⟨g, hg, hf⟩ := (h i hi).2.2
  obtain ⟨g', hg', hf'⟩ := (h' i hi).2.2
  rw [hfull i hi, foldlM_congr I (fun k hk b => by rw [hshare k hk i hi]), hg'] at hg
  cases hg
  rw [hf] at hf'
  exact Except.ok.inj hf'

theorem encryptVoteFrom_inj {N : NodeEnv} {key : ElGamalKey} {fits : Bytes → Prop} (hD : ∀ m m' r r', fits m → fits m' → N.encrypt key m r = N.encrypt key m' r' → m = m')
    {coins coins' : Rng} : ∀ {k k' : Nat} {vote vote' : List Selection}, (∀ s ∈ vote, IsText s.selection ∧ fits s.encode) → (∀ s ∈ vote', IsText s.selection ∧ fits s.encode) →
    encryptVoteFrom N key coins k vote = encryptVoteFrom N key coins' k' vote' → vote = vote'
  | _, _, [], [], _, _, _ => rfl
  | _, _, [], _ :: _, _, _, h => by cases h
  | _, _, _ :: _, [], _, _, h => by cases h
  | k, k', s :: ss, s' :: ss', hv, hv', h => by
    simp only [encryptVoteFrom, List.cons.injEq] at h
    obtain ⟨h1, h2⟩ := h
    have he := hD _ _ _ _ (hv s (by simp)).2 (hv' s' (by simp)).2 h1
    have hs : some s = some s' := by rw [← C49_selection_roundtrip s (hv s (by simp)).1, ← C49_selection_roundtrip s' (hv' s' (by simp)).1, he]
    rw [Option.some.inj hs, encryptVoteFrom_inj hD (fun x hx => hv x (by simp [hx])) (fun x hx => hv' x (by simp [hx])) h2]

/-- **C99** Coins show the vote: of the ciphertexts of a vote, under a key that the trustees made, at most one vote can be accounted for, whatever coins are
shown.  So whoever keeps the coins with which they encrypted can convince anybody how they voted, and nobody can pretend to have voted otherwise. -/
theorem C99_coins_show_the_vote (N : NodeEnv) (fits : Bytes → Prop) (hN : ThresholdCorrect N fits) (key : ElGamalKey) (hk : MadeByTrustees N key)
    (cts : List Ciphertext) (coins coins' : Rng) (vote vote' : List Selection) (h : Accounts N fits key cts coins vote) (h' : Accounts N fits key cts coins' vote') :
    vote = vote' := by
  obtain ⟨I, t, seed, run, hI, hb, ht, hle, hrun, hkey⟩ := hk
  obtain ⟨run', key', hrun', hkey', hdec⟩ := hN I t seed hI hb ht hle
  have hsame := honest_unique hrun hrun'
  have hkk : key' = key := by
    obtain ⟨i, hi⟩ : ∃ i, i ∈ I := List.exists_mem_of_length_pos (by omega)
    rw [← hkey i hi, ← hkey' i hi, hsame i hi]
  subst hkk
  refine encryptVoteFrom_inj (fits := fits) ?_ h.2 h'.2 (h.1.trans h'.1.symm)
  intro m m' r r' hm hm' heq
  have h1 := (hdec m r hm).2 I (fun _ => []) hI (fun _ h => h) hle
  have h2 := (hdec m' r' hm').2 I (fun _ => []) hI (fun _ h => h) hle
  rw [← heq, h1] at h2
  exact Except.ok.inj h2

/-- the key of the example network is made by its trustees -/
theorem toy_madeByTrustees : MadeByTrustees Toy.node ⟨[5]⟩ := by
  obtain ⟨run, key, h1, h2, _⟩ := Toy.node_threshold [1, 2] 2 (fun _ => BArr.fill 32 0) (by decide) (by decide) (by decide) (by decide)
  exact ⟨[1, 2], 2, fun _ => BArr.fill 32 0, run, by decide, by decide, by decide, by decide, h1, fun _ _ => rfl⟩

/-- **C99 is false of the code** (votes can be denied): it is not so that a voter could account for their ciphertexts by any other vote of the same length. -/
theorem C99_votes_can_be_denied_false :
    ¬ ∀ (N : NodeEnv) (fits : Bytes → Prop), ThresholdCorrect N fits → ∀ key, MadeByTrustees N key → ∀ (cts : List Ciphertext) (coins : Rng) (vote : List Selection),
      Accounts N fits key cts coins vote → ∀ vote' : List Selection, vote'.length = vote.length → (∀ s ∈ vote', IsText s.selection ∧ fits s.encode) →
      ∃ coins', Accounts N fits key cts coins' vote' := by
  intro h
  have ht : ∀ n ∈ ["a", "b"], ∀ s ∈ [Toy.sel n], IsText s.selection ∧ True := by
    intro n hn s hs
    rw [List.mem_singleton.1 hs]
    refine ⟨?_, trivial⟩
    simp only [List.mem_cons, List.not_mem_nil, or_false] at hn
    rcases hn with rfl | rfl <;> exact ⟨by decide +kernel, by decide +kernel⟩
  have ha : Accounts Toy.node (fun _ => True) ⟨[5]⟩ (encryptVote Toy.node ⟨[5]⟩ ⟨fun _ => BArr.fill 12 0, fun _ => []⟩ [Toy.sel "a"]) ⟨fun _ => BArr.fill 12 0, fun _ => []⟩ [Toy.sel "a"] := ⟨rfl, ht "a" (by simp)⟩
  obtain ⟨coins', h'⟩ := h Toy.node (fun _ => True) Toy.node_threshold ⟨[5]⟩ toy_madeByTrustees _ _ _ ha [Toy.sel "b"] rfl (ht "b" (by simp))
  have := C99_coins_show_the_vote Toy.node _ Toy.node_threshold _ toy_madeByTrustees _ _ _ _ _ ha h'
  exact absurd this (by decide +kernel)

end CB
