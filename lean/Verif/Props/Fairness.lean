import Verif.Props.Winners
import Mathlib.Logic.Equiv.Basic
/-!
# C109: contests treat candidates and voters alike
-/

namespace CB
namespace Spec

/-- The candidate is among the winners of the contest with `num` seats. -/
def Wins (ct : ContestType) (num : UInt32) (ballots : List (List Selection)) (candidate : Str) : Prop :=
  ∃ o, Tally.outcome ct num ballots = .ok (some o) ∧ ∃ r, (candidate, r) ∈ o.winners

/-- The ballots with every candidate called by another name. -/
def renamed (f : Str → Str) (ballots : List (List Selection)) : List (List Selection) := ballots.map fun b => b.map fun s => { s with selection := f s.selection }

/-- The ballot with the ranks of two selections exchanged. -/
def ranksExchanged (x y : Selection) (ballot : List Selection) : List Selection :=
  ballot.map fun s => if s = x then { s with score := y.score } else if s = y then { s with score := x.score } else s

/-- The contests in which what a ballot counts for does not depend on other ballots. -/
def Additive (ct : ContestType) : Prop := ct = .plurality ∨ ct = .score ∨ ct = .approval ∨ ct = .bordaModifiedClassic

end Spec

open Spec
namespace Tally

theorem wins_iff {ct : ContestType} {votes : List (List Selection)} (h : Countable ct votes) {num : UInt32} (hnum : 0 < num) (c : Str) :
    Wins ct num votes c ↔ c ∈ candidates votes ∧ ahead ct votes c < num.toNat := by
  obtain ⟨o, ho, -, -, -, -, -, -, -, -, -, hw⟩ := C104_who_wins ct votes h num
  rw [← hw hnum]
  constructor
  · rintro ⟨o', ho', hr⟩
    rw [ho] at ho'
    cases ho'
    exact hr
  · exact fun hr => ⟨o, ho, hr⟩

/-! ## Candidates -/

theorem candidates_renamed {f : Str → Str} (hf : Function.Injective f) (votes : List (List Selection)) : candidates (renamed f votes) = (candidates votes).map f := by
  unfold candidates renamed
  rw [← List.dedup_map_of_injective hf, List.map_map, ← List.map_flatten, List.map_map]
  rfl

theorem filter_renamed {f : Str → Str} (hf : Function.Injective f) (b : List Selection) (c : Str) :
    ((b.map fun s => { s with selection := f s.selection }).filter fun s => s.selection = f c) =
      (b.filter fun s => s.selection = c).map fun s => { s with selection := f s.selection } := by
  rw [List.filter_map]
  congr 1
  refine List.filter_congr fun s _ => ?_
  simp only [Function.comp, hf.eq_iff]

theorem rankedBetter_renamed (f : Str → Str) (b : List Selection) (s : Selection) :
    rankedBetter (b.map fun s => { s with selection := f s.selection }) { s with selection := f s.selection } = rankedBetter b s := by
  unfold rankedBetter
  rw [List.filter_map, List.length_map]
  rfl

theorem resultOf_renamed {f : Str → Str} (hf : Function.Injective f) (ct : ContestType) (votes : List (List Selection)) (c : Str) :
    resultOf ct (renamed f votes) (f c) = resultOf ct votes c := by
  have ht : timesNamed (f c) (renamed f votes) = timesNamed c votes := by
    induction votes with
    | nil => rfl
    | cons b bs ih =>
      show (List.filter _ _).length + timesNamed (f c) (renamed f bs) = _
      rw [filter_renamed hf, ih, List.length_map]
      rfl
  have hs : scoreOf (f c) (renamed f votes) = scoreOf c votes := by
    clear ht
    induction votes with
    | nil => rfl
    | cons b bs ih =>
      show (List.map _ (List.filter _ _)).sum + scoreOf (f c) (renamed f bs) = _
      rw [filter_renamed hf, ih, List.map_map]
      rfl
  have hp : ∀ pts, pointsOf pts (f c) (renamed f votes) = pointsOf pts c votes := by
    intro pts
    clear ht hs
    induction votes with
    | nil => rfl
    | cons b bs ih =>
      show (List.map _ (List.filter _ _)).sum + pointsOf pts (f c) (renamed f bs) = _
      rw [filter_renamed hf, ih, List.map_map, List.length_map]
      simp only [Function.comp_def, rankedBetter_renamed]
      rfl
  have hn : numCandidates (renamed f votes) = numCandidates votes := by
    have := congrArg List.length (candidates_renamed hf votes)
    rwa [List.length_map] at this
  unfold resultOf
  cases ct <;> simp only [ht, hs, hp, hn]

theorem countable_renamed {f : Str → Str} (hf : Function.Injective f) {ct : ContestType} {votes : List (List Selection)} (h : Countable ct votes) : Countable ct (renamed f votes) := by
  rcases h with h | h | h | ⟨hct, h⟩
  · exact .inl h
  · exact .inr (.inl h)
  · exact .inr (.inr (.inl h))
  · refine .inr (.inr (.inr ⟨hct, fun b hb => ?_⟩))
    obtain ⟨b, hb', rfl⟩ := List.mem_map.1 hb
    rw [List.map_map, List.map_map]
    refine ⟨?_, (h b hb').2⟩
    have := (h b hb').1.map hf
    rwa [List.map_map] at this

/-- **C109** Names do not matter: if all candidates are called by other names, the same candidates get the same totals and win. -/
theorem C109_names_are_irrelevant (ct : ContestType) (votes : List (List Selection)) (h : Countable ct votes) (num : UInt32) (hnum : 0 < num) (f : Str → Str) (hf : Function.Injective f) :
    (∀ c, Wins ct num (renamed f votes) (f c) ↔ Wins ct num votes c) ∧ (∀ d, Wins ct num (renamed f votes) d → ∃ c, d = f c) ∧
      ∃ o o', outcome ct num votes = .ok (some o) ∧ outcome ct num (renamed f votes) = .ok (some o') ∧ ∀ c n, (f c, n) ∈ o'.totals ↔ (c, n) ∈ o.totals := by
  have h' := countable_renamed hf h
  have hmem : ∀ c, f c ∈ candidates (renamed f votes) ↔ c ∈ candidates votes := by
    intro c
    rw [candidates_renamed hf]
    exact List.mem_map_of_injective hf
  refine ⟨fun c => ?_, fun d hd => ?_, ?_⟩
  · rw [wins_iff h' hnum, wins_iff h hnum, hmem]
    refine and_congr_right fun _ => ?_
    have : ahead ct (renamed f votes) (f c) = ahead ct votes c := by
      unfold ahead
      rw [candidates_renamed hf, List.filter_map, List.length_map]
      simp only [Function.comp_def, resultOf_renamed hf]
    rw [this]
  · have := ((wins_iff h' hnum d).1 hd).1
    rw [candidates_renamed hf] at this
    obtain ⟨c, -, rfl⟩ := List.mem_map.1 this
    exact ⟨c, rfl⟩
  · obtain ⟨o, ho, -, -, -, ht, -⟩ := C104_who_wins ct votes h num
    obtain ⟨o', ho', -, -, -, ht', -⟩ := C104_who_wins ct _ h' num
    refine ⟨o, o', ho, ho', fun c n => ?_⟩
    rw [ht, ht', hmem, resultOf_renamed hf]

/-! ## Support -/

theorem ahead_le {ct : ContestType} {v v' : List (List Selection)} {c : Str} (hc : resultOf ct v c ≤ resultOf ct v' c)
    (hd : ∀ d ∈ candidates v', d ≠ c → d ∈ candidates v ∧ resultOf ct v' d ≤ resultOf ct v d) : ahead ct v' c ≤ ahead ct v c := by
  unfold ahead
  refine List.Subperm.length_le (List.subperm_of_subset (List.Nodup.filter _ (List.nodup_dedup _)) fun d h => ?_)
  obtain ⟨h1, h2⟩ := List.mem_filter.1 h
  have h2 := of_decide_eq_true h2
  have hne : d ≠ c := by
    rintro rfl
    exact lt_irrefl _ h2
  obtain ⟨h3, h4⟩ := hd d h1 hne
  exact List.mem_filter.2 ⟨h3, decide_eq_true (by omega)⟩

theorem candidates_cons_only {votes : List (List Selection)} {b : List Selection} {c : Str} (hb : ∀ s ∈ b, s.selection = c) (d : Str) (hd : d ∈ candidates (b :: votes)) (hne : d ≠ c) :
    d ∈ candidates votes := by
  rw [mem_candidates] at hd ⊢
  obtain ⟨b', hb', s, hs, rfl⟩ := hd
  rcases List.mem_cons.1 hb' with rfl | hb'
  · exact absurd (hb s hs) hne
  · exact ⟨b', hb', s, hs, rfl⟩

/-- **C109** Voting for a candidate does not hurt them: whoever wins still wins when one more ballot is cast that names only them. -/
theorem C109_support_never_hurts (ct : ContestType) (votes : List (List Selection)) (b : List Selection) (h : Countable ct (b :: votes)) (num : UInt32) (hnum : 0 < num) (c : Str)
    (hb : ∀ s ∈ b, s.selection = c) (hw : Wins ct num votes c) : Wins ct num (b :: votes) c := by
  have h0 : Countable ct votes := by
    rcases h with h | h | h | ⟨hct, h⟩
    · exact .inl h
    · exact .inr (.inl h)
    · exact .inr (.inr (.inl h))
    · exact .inr (.inr (.inr ⟨hct, fun b hb => h b (List.mem_cons_of_mem _ hb)⟩))
  rw [wins_iff h0 hnum] at hw
  rw [wins_iff h hnum]
  have hin : ∀ d, d ∈ candidates (b :: votes) ↔ d ∈ candidates votes := by
    intro d
    constructor
    · intro hd
      by_cases hdc : d = c
      · exact hdc ▸ hw.1
      · exact candidates_cons_only hb d hd hdc
    · intro hd
      rw [mem_candidates] at hd ⊢
      obtain ⟨b', hb', hs⟩ := hd
      exact ⟨b', List.mem_cons_of_mem _ hb', hs⟩
  have hn : numCandidates (b :: votes) = numCandidates votes :=
    ((List.perm_ext_iff_of_nodup (List.nodup_dedup _) (List.nodup_dedup _)).2 hin).length_eq
  have hnone : ∀ d, d ≠ c → (b.filter fun s => s.selection = d) = [] := by
    intro d hd
    refine List.filter_eq_nil_iff.2 fun s hs => ?_
    simp only [decide_eq_true_eq]
    exact fun he => hd (he.symm.trans (hb s hs))
  refine ⟨(hin c).2 hw.1, lt_of_le_of_lt (ahead_le ?_ fun d hd hne => ⟨(hin d).1 hd, ?_⟩) hw.2⟩
  · unfold resultOf
    cases ct <;> simp only [timesNamed, scoreOf, pointsOf, hn] <;> omega
  · unfold resultOf
    cases ct <;> simp [timesNamed, scoreOf, pointsOf, hn, hnone d hne]

/-- **C109** … nor does changing a mark for somebody else into one for them, in the contests where marks count by themselves. -/
theorem C109_changed_mark_never_hurts (ct : ContestType) (hct : ct = .plurality ∨ ct = .score ∨ ct = .approval) (before after : List (List Selection)) (l r : List Selection) (s : Selection)
    (num : UInt32) (hnum : 0 < num) (c : Str) (hw : Wins ct num (before ++ (l ++ s :: r) :: after) c) : Wins ct num (before ++ (l ++ { s with selection := c } :: r) :: after) c := by
  have hC : ∀ v, Countable ct v := fun v => by rcases hct with h | h | h <;> simp [Countable, h]
  rw [wins_iff (hC _) hnum] at hw ⊢
  have happ : ∀ (f : Selection → Nat) (d : Str) (g : Str → List (List Selection) → Nat), (∀ d, g d [] = 0) →
      (∀ d b bs, g d (b :: bs) = ((b.filter fun s => s.selection = d).map f).sum + g d bs) → ∀ v w, g d (v ++ w) = g d v + g d w := by
    intro f d g h0 h1 v w
    induction v with
    | nil => simp [h0]
    | cons b bs ih => rw [List.cons_append, h1, h1, ih, Nat.add_assoc]
  have key : ∀ (f : Selection → Nat) (g : Str → List (List Selection) → Nat), (∀ s n, f { s with selection := n } = f s) → (∀ d, g d [] = 0) →
      (∀ d b bs, g d (b :: bs) = ((b.filter fun s => s.selection = d).map f).sum + g d bs) →
      (g c (before ++ (l ++ s :: r) :: after) ≤ g c (before ++ (l ++ { s with selection := c } :: r) :: after)) ∧
      ∀ d, d ≠ c → g d (before ++ (l ++ { s with selection := c } :: r) :: after) ≤ g d (before ++ (l ++ s :: r) :: after) := by
    intro f g hf h0 h1
    have ha := fun d => happ f d g h0 h1
    constructor
    · rw [ha, ha, h1, h1]
      simp only [List.filter_append, List.map_append, List.sum_append, List.filter_cons]
      split <;> simp [hf]
    · intro d hd
      rw [ha, ha, h1, h1]
      simp only [List.filter_append, List.map_append, List.sum_append, List.filter_cons]
      rw [if_neg (by simpa using fun h => hd h.symm)]
      split <;> simp
  have hres : (resultOf ct (before ++ (l ++ s :: r) :: after) c ≤ resultOf ct (before ++ (l ++ { s with selection := c } :: r) :: after) c) ∧
      ∀ d, d ≠ c → resultOf ct (before ++ (l ++ { s with selection := c } :: r) :: after) d ≤ resultOf ct (before ++ (l ++ s :: r) :: after) d := by
    have h1 := key (fun _ => 1) (fun d v => timesNamed d v) (fun _ _ => rfl) (fun _ => rfl) (fun d b bs => by simp [timesNamed])
    have h2 := key (fun s => s.score.toNat) (fun d v => scoreOf d v) (fun _ _ => rfl) (fun _ => rfl) (fun d b bs => rfl)
    rcases hct with rfl | rfl | rfl
    · exact h1
    · exact h2
    · exact h1
  refine ⟨?_, lt_of_le_of_lt (ahead_le hres.1 fun d hd hne => ⟨?_, hres.2 d hne⟩) hw.2⟩
  · rw [mem_candidates]
    exact ⟨_, List.mem_append_right _ (List.mem_cons_self ..), { s with selection := c }, by simp, rfl⟩
  · rw [mem_candidates] at hd ⊢
    obtain ⟨b, hb, x, hx, rfl⟩ := hd
    rcases List.mem_append.1 hb with hb | hb
    · exact ⟨b, List.mem_append_left _ hb, x, hx, rfl⟩
    rcases List.mem_cons.1 hb with rfl | hb
    · rcases List.mem_append.1 hx with hx | hx
      · exact ⟨_, List.mem_append_right _ (List.mem_cons_self ..), x, by simp [hx], rfl⟩
      rcases List.mem_cons.1 hx with rfl | hx
      · exact absurd rfl hne
      · exact ⟨_, List.mem_append_right _ (List.mem_cons_self ..), x, by simp [hx], rfl⟩
    · exact ⟨b, List.mem_append_right _ (List.mem_cons_of_mem _ hb), x, hx, rfl⟩

/-! ## Ranks -/

theorem rankedBetter_scores (b : List Selection) (s : Selection) : rankedBetter b s = ((b.map (·.score)).filter fun n => n < s.score).length := by
  unfold rankedBetter
  rw [List.filter_map, List.length_map]
  rfl

theorem ranksExchanged_scores {b : List Selection} (hn : (b.map (·.score)).Nodup) {x y : Selection} (hx : x ∈ b) (hy : y ∈ b) :
    ((ranksExchanged x y b).map (·.score)).Perm (b.map (·.score)) := by
  have hinj : ∀ {s t : Selection}, s ∈ b → t ∈ b → s.score = t.score → s = t := fun hs ht h => List.inj_on_of_nodup_map hn hs ht h
  have hscore : (ranksExchanged x y b).map (·.score) = (b.map (·.score)).map (Equiv.swap x.score y.score) := by
    unfold ranksExchanged
    rw [List.map_map, List.map_map]
    refine List.map_congr_left fun s hs => ?_
    simp only [Function.comp]
    by_cases h1 : s = x
    · rw [if_pos h1, h1, Equiv.swap_apply_left]
    · rw [if_neg h1]
      by_cases h2 : s = y
      · rw [if_pos h2, h2, Equiv.swap_apply_right]
      · rw [if_neg h2, Equiv.swap_apply_of_ne_of_ne (fun h => h1 (hinj hs hx h)) (fun h => h2 (hinj hs hy h))]
  rw [hscore]
  refine (List.perm_ext_iff_of_nodup (hn.map (Equiv.injective _)) hn).2 fun n => ?_
  have hmx : x.score ∈ b.map (·.score) := List.mem_map.2 ⟨x, hx, rfl⟩
  have hmy : y.score ∈ b.map (·.score) := List.mem_map.2 ⟨y, hy, rfl⟩
  have himp : ∀ m ∈ b.map (·.score), Equiv.swap x.score y.score m ∈ b.map (·.score) := by
    intro m hm
    by_cases h1 : m = x.score
    · rw [h1, Equiv.swap_apply_left]; exact hmy
    by_cases h2 : m = y.score
    · rw [h2, Equiv.swap_apply_right]; exact hmx
    rw [Equiv.swap_apply_of_ne_of_ne h1 h2]
    exact hm
  constructor
  · intro h
    obtain ⟨m, hm, rfl⟩ := List.mem_map.1 h
    exact himp m hm
  · intro h
    exact List.mem_map.2 ⟨_, himp n h, Equiv.swap_apply_self _ _ _⟩

theorem sum_map_le {α : Type} {l : List α} {f g : α → Nat} (h : ∀ a ∈ l, f a ≤ g a) : (l.map f).sum ≤ (l.map g).sum := by
  induction l with
  | nil => simp
  | cons a l ih =>
    simp only [List.map_cons, List.sum_cons]
    exact Nat.add_le_add (h a (List.mem_cons_self ..)) (ih fun b hb => h b (List.mem_cons_of_mem _ hb))

/-- **C109** Ranking a candidate higher does not hurt them: whoever wins a Borda contest still wins when they change places, on one ballot, with somebody ranked better. -/
theorem C109_higher_rank_never_hurts (ct : ContestType) (hct : ct = .borda ∨ ct = .bordaClassic ∨ ct = .bordaModifiedClassic) (before after : List (List Selection)) (b : List Selection)
    (h : Countable ct (before ++ b :: after)) (x y : Selection) (hx : x ∈ b) (hy : y ∈ b) (hxy : y.score < x.score) (num : UInt32) (hnum : 0 < num)
    (hw : Wins ct num (before ++ b :: after) x.selection) : Wins ct num (before ++ ranksExchanged x y b :: after) x.selection := by
  have hall : ∀ b' ∈ before ++ b :: after, (b'.map (·.selection)).Nodup ∧ (b'.map (·.score)).Nodup := by
    rcases h with rfl | rfl | rfl | ⟨-, h⟩
    · rcases hct with h | h | h <;> cases h
    · rcases hct with h | h | h <;> cases h
    · rcases hct with h | h | h <;> cases h
    · exact h
  obtain ⟨hsel, hsc⟩ := hall b (by simp)
  have hperm := ranksExchanged_scores hsc hx hy
  have hsels : (ranksExchanged x y b).map (·.selection) = b.map (·.selection) := by
    unfold ranksExchanged
    rw [List.map_map]
    refine List.map_congr_left fun s _ => ?_
    simp only [Function.comp]
    split
    · rfl
    · split <;> rfl
  have h' : Countable ct (before ++ ranksExchanged x y b :: after) := by
    refine .inr (.inr (.inr ⟨hct, fun b' hb' => ?_⟩))
    rcases List.mem_append.1 hb' with hb' | hb'
    · exact hall b' (by simp [hb'])
    rcases List.mem_cons.1 hb' with rfl | hb'
    · rw [hsels]
      exact ⟨hsel, hperm.nodup_iff.2 hsc⟩
    · exact hall b' (by simp [hb'])
  have hflat : ((before ++ ranksExchanged x y b :: after).flatten.map (·.selection)) = ((before ++ b :: after).flatten.map (·.selection)) := by
    simp only [List.flatten_append, List.flatten_cons, List.map_append, hsels]
  have hcand : candidates (before ++ ranksExchanged x y b :: after) = candidates (before ++ b :: after) := by
    unfold candidates
    rw [hflat]
  have hnum' : numCandidates (before ++ ranksExchanged x y b :: after) = numCandidates (before ++ b :: after) := by
    unfold numCandidates
    rw [hflat]
  have hinj : ∀ {s t : Selection}, s ∈ b → t ∈ b → s.selection = t.selection → s = t := fun hs ht h => List.inj_on_of_nodup_map hsel hs ht h
  have happ : ∀ pts d (v w : List (List Selection)), pointsOf pts d (v ++ w) = pointsOf pts d v + pointsOf pts d w := by
    intro pts d v w
    induction v with
    | nil => simp [pointsOf]
    | cons b bs ih => simp only [List.cons_append, pointsOf, ih, Nat.add_assoc]
  have hlen : (ranksExchanged x y b).length = b.length := List.length_map _
  -- what the changed ballot earns a candidate, selection by selection of the ballot before
  have hball : ∀ (pts : Nat → Nat → Nat) (d : Str), (((ranksExchanged x y b).filter fun s => s.selection = d).map fun s => pts (ranksExchanged x y b).length (rankedBetter (ranksExchanged x y b) s)).sum =
      ((b.filter fun s => s.selection = d).map fun s =>
        pts b.length ((b.map (·.score)).filter fun n => n < (if s = x then y.score else if s = y then x.score else s.score)).length).sum := by
    intro pts d
    have hf : ((ranksExchanged x y b).filter fun s => s.selection = d) =
        (b.filter fun s => s.selection = d).map fun s => if s = x then { s with score := y.score } else if s = y then { s with score := x.score } else s := by
      unfold ranksExchanged
      rw [List.filter_map]
      congr 1
      refine List.filter_congr fun s _ => ?_
      simp only [Function.comp]
      split
      · rfl
      · split <;> rfl
    rw [hf, List.map_map]
    congr 1
    refine List.map_congr_left fun s _ => ?_
    simp only [Function.comp, rankedBetter_scores, hlen]
    rw [(hperm.filter _).length_eq]
    split
    · rfl
    · split <;> rfl
  have hball0 : ∀ (pts : Nat → Nat → Nat) (d : Str), ((b.filter fun s => s.selection = d).map fun s => pts b.length (rankedBetter b s)).sum =
      ((b.filter fun s => s.selection = d).map fun s => pts b.length ((b.map (·.score)).filter fun n => n < s.score).length).sum := by
    intro pts d
    simp only [rankedBetter_scores]
  have hmono : ∀ {m n : UInt32}, m ≤ n → ((b.map (·.score)).filter fun k => k < m).length ≤ ((b.map (·.score)).filter fun k => k < n).length := by
    intro m n hmn
    refine List.Sublist.length_le (List.monotone_filter_right _ fun k hk => ?_)
    exact decide_eq_true (UInt32.lt_of_lt_of_le (of_decide_eq_true hk) hmn)
  have hanti : ∀ N k {i j : Nat}, i ≤ j → bordaPoints ct N k j ≤ bordaPoints ct N k i := by
    intro N k i j hij
    rcases hct with rfl | rfl | rfl <;> simp only [bordaPoints] <;> omega
  have hres : ∀ v d, resultOf ct v d = pointsOf (bordaPoints ct (numCandidates v)) d v := by
    rcases hct with rfl | rfl | rfl <;> exact fun _ _ => rfl
  rw [wins_iff h hnum] at hw
  rw [wins_iff h' hnum, hcand]
  refine ⟨hw.1, lt_of_le_of_lt (ahead_le ?_ fun d hd hne => ⟨hcand ▸ hd, ?_⟩) hw.2⟩
  · rw [hres, hres, hnum', happ, happ]
    simp only [pointsOf]
    rw [hball, hball0]
    refine Nat.add_le_add_left (Nat.add_le_add_right (sum_map_le fun s hs => ?_) _) _
    obtain ⟨hs, he⟩ := List.mem_filter.1 hs
    have := hinj hs hx (of_decide_eq_true he)
    subst this
    rw [if_pos rfl]
    exact hanti _ _ (hmono (UInt32.le_of_lt hxy))
  · rw [hres, hres, hnum', happ, happ]
    simp only [pointsOf]
    rw [hball, hball0]
    refine Nat.add_le_add_left (Nat.add_le_add_right (sum_map_le fun s hs => ?_) _) _
    obtain ⟨hs, he⟩ := List.mem_filter.1 hs
    have hsx : s ≠ x := by
      rintro rfl
      exact hne (of_decide_eq_true he).symm
    rw [if_neg hsx]
    split
    · rename_i hsy
      subst hsy
      exact hanti _ _ (hmono (UInt32.le_of_lt hxy))
    · exact le_refl _

/-! ## Districts -/

theorem resultOf_append {ct : ContestType} (hct : Additive ct) (v w : List (List Selection)) (c : Str) : resultOf ct (v ++ w) c = resultOf ct v c + resultOf ct w c := by
  have h1 : timesNamed c (v ++ w) = timesNamed c v + timesNamed c w := by
    induction v with
    | nil => simp [timesNamed]
    | cons b bs ih => simp only [List.cons_append, timesNamed, ih, Nat.add_assoc]
  have h2 : scoreOf c (v ++ w) = scoreOf c v + scoreOf c w := by
    clear h1
    induction v with
    | nil => simp [scoreOf]
    | cons b bs ih => simp only [List.cons_append, scoreOf, ih, Nat.add_assoc]
  have h3 : ∀ pts, pointsOf pts c (v ++ w) = pointsOf pts c v + pointsOf pts c w := by
    intro pts
    clear h1 h2
    induction v with
    | nil => simp [pointsOf]
    | cons b bs ih => simp only [List.cons_append, pointsOf, ih, Nat.add_assoc]
  rcases hct with rfl | rfl | rfl | rfl
  · exact h1
  · exact h2
  · exact h1
  · exact h3 _

theorem resultOf_zero {ct : ContestType} (hct : Additive ct) {v : List (List Selection)} {c : Str} (h : c ∉ candidates v) : resultOf ct v c = 0 := by
  rw [mem_candidates] at h
  have hn : ∀ b ∈ v, (b.filter fun s => s.selection = c) = [] := fun b hb =>
    List.filter_eq_nil_iff.2 fun s hs => by simpa using fun he => h ⟨b, hb, s, hs, he⟩
  have h1 : timesNamed c v = 0 := by
    clear h
    induction v with
    | nil => rfl
    | cons b bs ih => simp [timesNamed, hn b (List.mem_cons_self ..), ih fun b hb => hn b (List.mem_cons_of_mem _ hb)]
  have h2 : scoreOf c v = 0 := by
    clear h h1
    induction v with
    | nil => rfl
    | cons b bs ih => simp [scoreOf, hn b (List.mem_cons_self ..), ih fun b hb => hn b (List.mem_cons_of_mem _ hb)]
  have h3 : ∀ pts, pointsOf pts c v = 0 := by
    intro pts
    clear h h1 h2
    induction v with
    | nil => rfl
    | cons b bs ih => simp [pointsOf, hn b (List.mem_cons_self ..), ih fun b hb => hn b (List.mem_cons_of_mem _ hb)]
  rcases hct with rfl | rfl | rfl | rfl
  · exact h1
  · exact h2
  · exact h1
  · exact h3 _

theorem countable_append {ct : ContestType} {v w : List (List Selection)} (hv : Countable ct v) (hw : Countable ct w) : Countable ct (v ++ w) := by
  rcases hv with h | h | h | ⟨hct, h⟩
  · exact .inl h
  · exact .inr (.inl h)
  · exact .inr (.inr (.inl h))
  · rcases hw with h' | h' | h' | ⟨-, h'⟩
    · exact .inl h'
    · exact .inr (.inl h')
    · exact .inr (.inr (.inl h'))
    · refine .inr (.inr (.inr ⟨hct, fun b hb => ?_⟩))
      rcases List.mem_append.1 hb with hb | hb
      · exact h b hb
      · exact h' b hb

theorem wins_one {ct : ContestType} {v : List (List Selection)} (hv : Countable ct v) (c : Str) :
    Wins ct 1 v c ↔ c ∈ candidates v ∧ ∀ d ∈ candidates v, resultOf ct v d ≤ resultOf ct v c := by
  rw [wins_iff hv (by decide)]
  refine and_congr_right fun _ => ?_
  show ahead ct v c < 1 ↔ _
  rw [Nat.lt_one_iff, ahead, List.length_eq_zero_iff, List.filter_eq_nil_iff]
  simp only [decide_eq_true_eq, Nat.not_lt]

theorem candidates_append (v w : List (List Selection)) (c : Str) : c ∈ candidates (v ++ w) ↔ c ∈ candidates v ∨ c ∈ candidates w := by
  simp only [mem_candidates, Named, List.mem_append, or_and_right, exists_or]

/-- **C109 (partial)** Counting in parts: whoever wins the only seat in two districts wins it if the ballots are counted together; and then nobody else does but those who win it in both (if
the winner has any votes in both).  Missing: Borda contests (except modified ones), where the points depend on how many candidates there are, see `C109_districts_false`; several
seats, see `C109_districts_seats_false`. -/
theorem C109_districts_partial (ct : ContestType) (hct : Additive ct) (v w : List (List Selection)) (hv : Countable ct v) (hw : Countable ct w) (c : Str) (h1 : Wins ct 1 v c)
    (h2 : Wins ct 1 w c) :
    Wins ct 1 (v ++ w) c ∧ (0 < resultOf ct v c → 0 < resultOf ct w c → ∀ d, Wins ct 1 (v ++ w) d ↔ Wins ct 1 v d ∧ Wins ct 1 w d) := by
  have hvw := countable_append hv hw
  have both : ∀ c, Wins ct 1 v c → Wins ct 1 w c → Wins ct 1 (v ++ w) c := by
    intro c h1 h2
    rw [wins_one hv] at h1
    rw [wins_one hw] at h2
    rw [wins_one hvw]
    refine ⟨(candidates_append v w c).2 (.inl h1.1), fun d _ => ?_⟩
    rw [resultOf_append hct, resultOf_append hct]
    refine Nat.add_le_add ?_ ?_
    · by_cases hd : d ∈ candidates v
      · exact h1.2 d hd
      · rw [resultOf_zero hct hd]; exact Nat.zero_le _
    · by_cases hd : d ∈ candidates w
      · exact h2.2 d hd
      · rw [resultOf_zero hct hd]; exact Nat.zero_le _
  refine ⟨both c h1 h2, fun hp1 hp2 d => ⟨fun hd => ?_, fun hd => both d hd.1 hd.2⟩⟩
  rw [wins_one hvw] at hd
  rw [wins_one hv] at h1 ⊢
  rw [wins_one hw] at h2 ⊢
  have hle1 : resultOf ct v d ≤ resultOf ct v c := by
    by_cases hdv : d ∈ candidates v
    · exact h1.2 d hdv
    · rw [resultOf_zero hct hdv]; exact Nat.zero_le _
  have hle2 : resultOf ct w d ≤ resultOf ct w c := by
    by_cases hdv : d ∈ candidates w
    · exact h2.2 d hdv
    · rw [resultOf_zero hct hdv]; exact Nat.zero_le _
  have hge := hd.2 c ((candidates_append v w c).2 (.inl h1.1))
  rw [resultOf_append hct, resultOf_append hct] at hge
  have e1 : resultOf ct v d = resultOf ct v c := by omega
  have e2 : resultOf ct w d = resultOf ct w c := by omega
  refine ⟨⟨?_, fun x hx => e1 ▸ h1.2 x hx⟩, ⟨?_, fun x hx => e2 ▸ h2.2 x hx⟩⟩
  · by_contra hn
    rw [resultOf_zero hct hn] at e1
    omega
  · by_contra hn
    rw [resultOf_zero hct hn] at e2
    omega

/-- **C109 (partial)** A ballot that names only one candidate decides between that candidate and the others, not among the others: if it makes a winner of the only seat lose, the candidate
named on it wins.  Missing: Borda contests (except modified ones), see `C109_stray_ballot_false`. -/
theorem C109_stray_ballot_partial (ct : ContestType) (hct : Additive ct) (votes : List (List Selection)) (b : List Selection) (h : Countable ct votes) (h' : Countable ct [b]) (z : Str)
    (hb : ∀ s ∈ b, s.selection = z) (c : Str) (hw : Wins ct 1 votes c) : Wins ct 1 (b :: votes) c ∨ Wins ct 1 (b :: votes) z := by
  have hvw : Countable ct ([b] ++ votes) := countable_append h' h
  rw [wins_one h] at hw
  have hz : ∀ d, d ≠ z → resultOf ct [b] d = 0 := by
    intro d hd
    refine resultOf_zero hct fun hm => ?_
    rw [mem_candidates] at hm
    obtain ⟨b', hb', s, hs, rfl⟩ := hm
    rw [List.mem_singleton] at hb'
    subst hb'
    exact hd (hb s hs)
  have hle : ∀ d, resultOf ct votes d ≤ resultOf ct votes c := by
    intro d
    by_cases hd : d ∈ candidates votes
    · exact hw.2 d hd
    · rw [resultOf_zero hct hd]; exact Nat.zero_le _
  by_cases hcase : resultOf ct ([b] ++ votes) z ≤ resultOf ct ([b] ++ votes) c
  · left
    refine (wins_one hvw c).2 ⟨(candidates_append _ _ c).2 (.inr hw.1), fun d _ => ?_⟩
    by_cases hd : d = z
    · exact hd ▸ hcase
    · rw [resultOf_append hct, resultOf_append hct, hz d hd, Nat.zero_add]
      exact (hle d).trans (Nat.le_add_left _ _)
  · right
    have hcz : c ≠ z := by
      rintro rfl
      exact hcase (le_refl _)
    refine (wins_one hvw z).2 ⟨?_, fun d _ => ?_⟩
    · by_contra hn
      rw [resultOf_zero hct hn] at hcase
      omega
    · by_cases hd : d = z
      · exact hd ▸ le_refl _
      · have := hle d
        rw [resultOf_append hct, resultOf_append hct, hz c hcz] at hcase
        rw [resultOf_append hct, resultOf_append hct, hz d hd]
        omega

/-! ## Samples -/

/-- a ballot that ranks candidates in the order given -/
def rankedBallot (names : List Str) : List Selection := names.zipIdx.map fun x => ⟨false, UInt32.ofNat x.2, x.1⟩

/-- three times: one voter who prefers c to a, and one who names only a -/
def districtOne : List (List Selection) :=
  [rankedBallot [str "c", str "a"], rankedBallot [str "a"], rankedBallot [str "c", str "a"], rankedBallot [str "a"], rankedBallot [str "c", str "a"], rankedBallot [str "a"]]

/-- one voter for c and one for b -/
def districtTwo : List (List Selection) := [rankedBallot [str "c"], rankedBallot [str "b"]]

theorem wins_of_outcome {ct : ContestType} {num : UInt32} {v : List (List Selection)} {c : Str} {o : Outcome} (h : outcome ct num v = .ok (some o)) :
    Wins ct num v c ↔ c ∈ o.winners.map Prod.fst := by
  constructor
  · rintro ⟨o', ho', r, hr⟩
    rw [h] at ho'
    cases ho'
    exact List.mem_map.2 ⟨_, hr, rfl⟩
  · intro hc
    obtain ⟨⟨c', r⟩, hr, rfl⟩ := List.mem_map.1 hc
    exact ⟨o, h, r, hr⟩

/-- **C109 is false of the code** (Borda, districts): a candidate who wins a Borda contest in two districts can lose it when the ballots are counted together, because the points of a
place grow with the number of candidates named anywhere. -/
theorem C109_districts_false : ¬ ∀ (v w : List (List Selection)) (c : Str), Countable .borda v → Countable .borda w → Wins .borda 1 v c → Wins .borda 1 w c → Wins .borda 1 (v ++ w) c := by
  intro h
  have h1 : outcome .borda 1 districtOne = .ok (some ⟨6, [(str "c", 3), (str "a", 3)], [(str "c", 0), (str "a", 0)], [(str "c", 0), (str "a", 0)], []⟩) := by decide +kernel
  have h2 : outcome .borda 1 districtTwo = .ok (some ⟨2, [(str "c", 1), (str "b", 1)], [(str "c", 0), (str "b", 0)], [(str "c", 0), (str "b", 0)], []⟩) := by decide +kernel
  have h3 : outcome .borda 1 (districtOne ++ districtTwo) =
      .ok (some ⟨8, [(str "c", 8), (str "a", 9), (str "b", 2)], [(str "a", 0), (str "c", 1), (str "b", 2)], [(str "a", 0)], []⟩) := by decide +kernel
  have := h districtOne districtTwo (str "c") (.inr (.inr (.inr ⟨.inl rfl, by decide +kernel⟩))) (.inr (.inr (.inr ⟨.inl rfl, by decide +kernel⟩)))
    ((wins_of_outcome h1).2 (by decide +kernel)) ((wins_of_outcome h2).2 (by decide +kernel))
  exact absurd ((wins_of_outcome h3).1 this) (by decide +kernel)

/-- three voters who prefer c to a, two who name only a -/
def closeRace : List (List Selection) :=
  [rankedBallot [str "c", str "a"], rankedBallot [str "c", str "a"], rankedBallot [str "c", str "a"], rankedBallot [str "a"], rankedBallot [str "a"]]

/-- **C109 is false of the code** (Borda, stray ballots): one voter who writes in a name that nobody else names makes c lose, not to that name but to a. -/
theorem C109_stray_ballot_false : ¬ ∀ (votes : List (List Selection)) (b : List Selection) (z c : Str), Countable .borda (b :: votes) → (∀ s ∈ b, s.selection = z) → Wins .borda 1 votes c →
    Wins .borda 1 (b :: votes) c ∨ Wins .borda 1 (b :: votes) z := by
  intro h
  have h1 : outcome .borda 1 closeRace = .ok (some ⟨5, [(str "c", 3), (str "a", 2)], [(str "c", 0), (str "a", 1)], [(str "c", 0)], []⟩) := by decide +kernel
  have h2 : outcome .borda 1 (rankedBallot [str "z"] :: closeRace) =
      .ok (some ⟨6, [(str "z", 2), (str "c", 6), (str "a", 7)], [(str "a", 0), (str "c", 1), (str "z", 2)], [(str "a", 0)], []⟩) := by decide +kernel
  rcases h closeRace (rankedBallot [str "z"]) (str "z") (str "c") (.inr (.inr (.inr ⟨.inl rfl, by decide +kernel⟩))) (by decide +kernel) ((wins_of_outcome h1).2 (by decide +kernel)) with h | h
  · exact absurd ((wins_of_outcome h2).1 h) (by decide +kernel)
  · exact absurd ((wins_of_outcome h2).1 h) (by decide +kernel)

/-- ballots that name one candidate each -/
def marks (l : List (Nat × Str)) : List (List Selection) := l.flatMap fun x => List.replicate x.1 [⟨false, 0, x.2⟩]

/-- **C109 is false of the code** (several seats): one of two winners in both districts need not be one when the ballots are counted together. -/
theorem C109_districts_seats_false : ¬ ∀ (num : UInt32) (v w : List (List Selection)) (c : Str), 0 < num → Wins .plurality num v c → Wins .plurality num w c → Wins .plurality num (v ++ w) c := by
  intro h
  have hC : ∀ v, Countable .plurality v := fun v => .inl rfl
  have := h 2 (marks [(4, str "a"), (2, str "c"), (1, str "b")]) (marks [(4, str "b"), (2, str "c"), (1, str "a")]) (str "c") (by decide)
    ((wins_iff (hC _) (by decide) _).2 (by decide +kernel)) ((wins_iff (hC _) (by decide) _).2 (by decide +kernel))
  exact absurd ((wins_iff (hC _) (by decide) _).1 this) (by decide +kernel)

example : ∃ (ct : ContestType) (votes : List (List Selection)) (b : List Selection) (c : Str), ct = .borda ∧ Countable ct (b :: votes) ∧ b ≠ [] ∧ (∀ s ∈ b, s.selection = c) ∧ Wins ct 1 votes c :=
  ⟨.borda, [rankedBallot [str "a", str "b", str "c"], rankedBallot [str "b", str "a"]], rankedBallot [str "a"], str "a", rfl,
    .inr (.inr (.inr ⟨.inl rfl, by decide +kernel⟩)), by decide, by decide +kernel, (wins_iff (.inr (.inr (.inr ⟨.inl rfl, by decide +kernel⟩))) (by decide) _).2 (by decide +kernel)⟩

example : ∃ (before after : List (List Selection)) (b : List Selection) (x y : Selection), Countable .borda (before ++ b :: after) ∧ x ∈ b ∧ y ∈ b ∧ y.score < x.score ∧
    Wins .borda 1 (before ++ b :: after) x.selection :=
  ⟨[rankedBallot [str "a", str "b", str "c"]], [], rankedBallot [str "b", str "a"], ⟨false, 1, str "a"⟩, ⟨false, 0, str "b"⟩, .inr (.inr (.inr ⟨.inl rfl, by decide +kernel⟩)), by decide +kernel,
    by decide +kernel, by decide, (wins_iff (.inr (.inr (.inr ⟨.inl rfl, by decide +kernel⟩))) (by decide) _).2 (by decide +kernel)⟩

example : ∃ (before after : List (List Selection)) (l r : List Selection) (s : Selection) (c : Str), s.selection ≠ c ∧ Wins .plurality 1 (before ++ (l ++ s :: r) :: after) c :=
  ⟨marks [(2, str "a")], [], [], [], ⟨false, 0, str "b"⟩, str "a", by decide, (wins_iff (.inl rfl) (by decide) _).2 (by decide +kernel)⟩

example : ∃ (votes : List (List Selection)) (b : List Selection) (z c : Str), z ≠ c ∧ (∀ s ∈ b, s.selection = z) ∧ Wins .approval 1 votes c ∧ ¬ Wins .approval 1 (b :: votes) c :=
  ⟨marks [(2, str "a"), (1, str "z")], [⟨false, 0, str "z"⟩, ⟨true, 0, str "z"⟩], str "z", str "a", by decide, by decide, (wins_iff (.inr (.inr (.inl rfl))) (by decide) _).2 (by decide +kernel),
    fun h => absurd ((wins_iff (.inr (.inr (.inl rfl))) (by decide) _).1 h) (by decide +kernel)⟩

example : ∃ (v w : List (List Selection)) (c : Str), Additive .plurality ∧ Wins .plurality 1 v c ∧ Wins .plurality 1 w c ∧ 0 < resultOf .plurality v c ∧ 0 < resultOf .plurality w c ∧ v ≠ w :=
  ⟨marks [(2, str "a"), (1, str "b")], marks [(3, str "a"), (3, str "c")], str "a", .inl rfl, (wins_iff (.inl rfl) (by decide) _).2 (by decide +kernel),
    (wins_iff (.inl rfl) (by decide) _).2 (by decide +kernel), by decide +kernel, by decide +kernel, by decide +kernel⟩

example : ∃ (f : Str → Str) (votes : List (List Selection)) (c : Str), Function.Injective f ∧ f c ≠ c ∧ Countable .borda votes ∧ Wins .borda 1 votes c ∧ 2 < (candidates votes).length :=
  ⟨fun s => 0x6d :: s, [rankedBallot [str "a", str "b", str "c"], rankedBallot [str "b", str "a"]], str "a", fun _ _ h => (List.cons.inj h).2, by decide,
    .inr (.inr (.inr ⟨.inl rfl, by decide +kernel⟩)), (wins_iff (.inr (.inr (.inr ⟨.inl rfl, by decide +kernel⟩))) (by decide) _).2 (by decide +kernel), by decide +kernel⟩

end Tally
end CB
