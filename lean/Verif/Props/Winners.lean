import Verif.Lemmas.Winners
import Verif.Props.Borda
import Verif.Props.E2e
/-!
# C104: who wins
-/

namespace CB
namespace Spec

/-- The candidates named on the ballots, each once. -/
def candidates (ballots : List (List Selection)) : List Str := (ballots.flatten.map (·.selection)).dedup

/-- What decides a contest: the number of times a candidate is named (plurality, approval), the sum of their scores, or their Borda points. -/
def resultOf (ct : ContestType) (ballots : List (List Selection)) (candidate : Str) : Nat :=
  match ct with
  | .plurality => timesNamed candidate ballots
  | .approval => timesNamed candidate ballots
  | .score => scoreOf candidate ballots
  | _ => pointsOf (bordaPoints ct (numCandidates ballots)) candidate ballots

/-- How many candidates did better than this one. -/
def ahead (ct : ContestType) (ballots : List (List Selection)) (candidate : Str) : Nat :=
  ((candidates ballots).filter fun other => resultOf ct ballots candidate < resultOf ct ballots other).length

/-- The contests spoken about: plurality, score and approval contests with any ballots, and Borda contests on whose ballots no candidate is named twice and no two candidates have the same rank. -/
def Countable (ct : ContestType) (ballots : List (List Selection)) : Prop :=
  ct = .plurality ∨ ct = .score ∨ ct = .approval ∨
    ((ct = .borda ∨ ct = .bordaClassic ∨ ct = .bordaModifiedClassic) ∧ ∀ b ∈ ballots, (b.map (·.selection)).Nodup ∧ (b.map (·.score)).Nodup)

/-- `v'` are the ballots `v` in another order, with the selections on each in another order. -/
def Reordered (v v' : List (List Selection)) : Prop := ∃ w, v.Perm w ∧ List.Forall₂ List.Perm w v'

end Spec

open Spec
namespace Tally

theorem mem_candidates (votes : List (List Selection)) (c : Str) : c ∈ candidates votes ↔ Named c votes := by
  simp only [candidates, List.mem_dedup, List.mem_map, List.mem_flatten, Named]
  exact ⟨fun ⟨s, ⟨b, hb, hs⟩, h⟩ => ⟨b, hb, s, hs, h⟩, fun ⟨b, hb, s, hs, h⟩ => ⟨s, ⟨b, hb, hs⟩, h⟩⟩

theorem counted_totals {ct : ContestType} {votes : List (List Selection)} (h : Countable ct votes) :
    ∃ totals, tally ct votes = .ok ⟨votes.length, some totals⟩ ∧ (totals.map Prod.fst).Nodup ∧
      ∀ c n, (c, n) ∈ totals ↔ Named c votes ∧ n = resultOf ct votes c := by
  rcases h with rfl | rfl | rfl | ⟨hct, hn⟩
  · exact C52_plurality_counts votes
  · exact (C61_score_and_approval votes).1
  · exact (C61_score_and_approval votes).2
  · have := C84_borda_points_partial ct hct votes (fun b hb => (hn b hb).1) fun b hb => (hn b hb).2
    rcases hct with rfl | rfl | rfl <;> exact this

theorem outcome_placed {ct : ContestType} {votes : List (List Selection)} (h : Countable ct votes) (num : UInt32) :
    ∃ (o : Outcome) (J : List Placed), outcome ct num votes = .ok (some o) ∧ o.numVotes = votes.length ∧ o.spoiled = [] ∧
      (o.totals.map Prod.fst).Nodup ∧ (∀ c n, (c, n) ∈ o.totals ↔ Named c votes ∧ n = resultOf ct votes c) ∧
      o.results = J.map Placed.rank ∧ o.winners = takeWinners num.toNat 0 0 o.results ∧ J.Pairwise Before ∧ (∀ j ∈ J, ∀ k, k < j.r → ∃ i ∈ J, i.r = k) ∧
      (∀ j ∈ J, j.n = resultOf ct votes j.c) ∧ (J.map Placed.c).Perm (candidates votes) := by
  obtain ⟨t, ht, hnd, hm⟩ := counted_totals h
  obtain ⟨J, hp, hr, hb, hg⟩ := rankAll_placed t
  refine ⟨⟨votes.length, t, rankAll t, takeWinners num.toNat 0 0 (rankAll t), []⟩, J, ?_, rfl, rfl, hnd, hm, hr.symm, rfl, hb, hg, ?_, ?_⟩
  · rw [outcome, ht]
  · intro j hj
    exact ((hm j.c j.n).1 (hp.mem_iff.1 (List.mem_map.2 ⟨j, hj, rfl⟩))).2
  · have hpc : (J.map Placed.c).Perm (t.map Prod.fst) := by
      have := hp.map Prod.fst
      rw [List.map_map] at this
      exact this
    refine hpc.trans ((List.perm_ext_iff_of_nodup hnd (List.nodup_dedup _)).2 fun c => ?_)
    refine Iff.trans ?_ (mem_candidates votes c).symm
    constructor
    · intro h
      obtain ⟨⟨c', n⟩, h1, rfl⟩ := List.mem_map.1 h
      exact ((hm _ _).1 h1).1
    · exact fun h => List.mem_map.2 ⟨(c, _), (hm c _).2 ⟨h, rfl⟩, rfl⟩

theorem aheadOf_eq {ct : ContestType} {votes : List (List Selection)} {J : List Placed} (hn : ∀ j ∈ J, j.n = resultOf ct votes j.c)
    (hp : (J.map Placed.c).Perm (candidates votes)) {j : Placed} (hj : j ∈ J) : aheadOf J j = ahead ct votes j.c := by
  rw [ahead, ← (hp.filter _).length_eq, List.filter_map, List.length_map, aheadOf]
  congr 1
  refine List.filter_congr fun i hi => ?_
  simp only [Function.comp, hn j hj, hn i hi]

/-- **C104** The outcome of a counted contest: it reports the number of ballots and no spoiled ballots; `results` lists every candidate who is named on some ballot, once; one rank is
better than another exactly if the result is higher, and equal exactly if it is equal; ranks start at zero and none is left out; the winners are the first of the list, with
their ranks; and if there is at least one seat, a candidate wins exactly if they are named and fewer candidates than there are seats did better. -/
theorem C104_who_wins (ct : ContestType) (votes : List (List Selection)) (h : Countable ct votes) (num : UInt32) :
    ∃ o, outcome ct num votes = .ok (some o) ∧ o.numVotes = votes.length ∧ o.spoiled = [] ∧
      (o.totals.map Prod.fst).Nodup ∧ (∀ c n, (c, n) ∈ o.totals ↔ c ∈ candidates votes ∧ n = resultOf ct votes c) ∧
      (o.results.map Prod.fst).Nodup ∧ (∀ c, (∃ r, (c, r) ∈ o.results) ↔ c ∈ candidates votes) ∧
      (∀ c r d s, (c, r) ∈ o.results → (d, s) ∈ o.results →
        (r < s ↔ resultOf ct votes d < resultOf ct votes c) ∧ (r = s ↔ resultOf ct votes c = resultOf ct votes d)) ∧
      (∀ c r k, (c, r) ∈ o.results → k < r → ∃ d, (d, k) ∈ o.results) ∧
      o.winners <+: o.results ∧
      (0 < num → ∀ c, (∃ r, (c, r) ∈ o.winners) ↔ c ∈ candidates votes ∧ ahead ct votes c < num.toNat) := by
  obtain ⟨o, J, ho, h1, h2, h3, h4, hr, hw, hb, hg, hn, hp⟩ := outcome_placed h num
  have hfst : o.results.map Prod.fst = J.map Placed.c := by rw [hr, List.map_map]; rfl
  have hres : ∀ c r, (c, r) ∈ o.results ↔ ∃ j ∈ J, j.c = c ∧ j.r = r := by
    intro c r
    rw [hr, List.mem_map]
    simp only [Placed.rank, Prod.mk.injEq]
  refine ⟨o, ho, h1, h2, h3, fun c n => by rw [h4, mem_candidates], by rw [hfst]; exact (hp.nodup_iff).2 (List.nodup_dedup _), ?_, ?_, ?_, by rw [hw]; exact takeWinners_prefix _ _ _ _, ?_⟩
  · intro c
    rw [← hp.mem_iff, List.mem_map]
    constructor
    · rintro ⟨r, h⟩
      obtain ⟨j, hj, hc, -⟩ := (hres c r).1 h
      exact ⟨j, hj, hc⟩
    · rintro ⟨j, hj, hc⟩
      exact ⟨j.r, (hres c _).2 ⟨j, hj, hc, rfl⟩⟩
  · intro c r d s hc hd
    obtain ⟨i, hi, rfl, rfl⟩ := (hres c r).1 hc
    obtain ⟨j, hj, rfl, rfl⟩ := (hres d s).1 hd
    rw [← hn i hi, ← hn j hj]
    exact placed_order hb hi hj
  · intro c r k hc hk
    obtain ⟨i, hi, rfl, rfl⟩ := (hres c r).1 hc
    obtain ⟨j, hj, hjk⟩ := hg i hi k hk
    exact ⟨j.c, (hres _ _).2 ⟨j, hj, rfl, hjk⟩⟩
  · intro hnum c
    have hnum' : 0 < num.toNat := UInt32.lt_iff_toNat_lt.1 hnum
    have := takeWinners_eq num.toNat hnum' J [] 0 hb (Or.inl rfl)
    rw [← hr, List.length_nil, ← hw, List.nil_append] at this
    rw [this]
    constructor
    · rintro ⟨r, h⟩
      obtain ⟨j, hj, he⟩ := List.mem_map.1 h
      obtain ⟨hj, ha⟩ := List.mem_filter.1 hj
      have hc : j.c = c := congrArg Prod.fst he
      rw [aheadOf_eq hn hp hj, hc] at ha
      exact ⟨hp.mem_iff.1 (List.mem_map.2 ⟨j, hj, hc⟩), of_decide_eq_true ha⟩
    · rintro ⟨hc, ha⟩
      obtain ⟨j, hj, hc⟩ := List.mem_map.1 (hp.mem_iff.2 hc)
      exact ⟨j.r, List.mem_map.2 ⟨j, List.mem_filter.2 ⟨hj, by rw [aheadOf_eq hn hp hj, hc]; exact decide_eq_true ha⟩, by rw [← hc]; rfl⟩⟩

theorem ahead_reordered {ct : ContestType} {v v' : List (List Selection)} (hc : ∀ c, c ∈ candidates v ↔ c ∈ candidates v')
    (hr : ∀ c ∈ candidates v, resultOf ct v c = resultOf ct v' c) {c : Str} (h : c ∈ candidates v) : ahead ct v c = ahead ct v' c := by
  have hp : (candidates v).Perm (candidates v') := (List.perm_ext_iff_of_nodup (List.nodup_dedup _) (List.nodup_dedup _)).2 hc
  rw [ahead, ahead, ← (hp.filter _).length_eq]
  congr 1
  exact List.filter_congr fun d hd => by rw [hr c h, hr d hd]

theorem score_order_independent (v v' : List (List Selection)) (h : Reordered v v') (c : Str) : scoreOf c v = scoreOf c v' ∧ timesNamed c v = timesNamed c v' := by
  obtain ⟨w, hp, hf⟩ := h
  have h1 : scoreOf c v = scoreOf c w := by
    clear hf
    induction hp with
    | nil => rfl
    | cons x _ ih => simp only [scoreOf, ih]
    | swap x y l => simp only [scoreOf]; omega
    | trans _ _ ih1 ih2 => rw [ih1, ih2]
  rw [h1, timesNamed_perm c hp]
  clear hp h1
  induction hf with
  | nil => exact ⟨rfl, rfl⟩
  | cons hxy _ ih => exact ⟨by simp only [scoreOf, ih.1, ((hxy.filter _).map _).sum_eq], by simp only [timesNamed, ih.2, (hxy.filter _).length_eq]⟩

theorem candidates_reordered {v v' : List (List Selection)} (h : Reordered v v') (c : Str) : c ∈ candidates v ↔ c ∈ candidates v' := by
  obtain ⟨w, hp, hf⟩ := h
  have hflat : v.flatten.Perm v'.flatten := by
    refine hp.flatten.trans ?_
    clear hp
    induction hf with
    | nil => exact List.Perm.refl _
    | cons hxy _ ih => exact hxy.append ih
  simp only [candidates, List.mem_dedup, List.mem_map, hflat.mem_iff]

theorem counted_reordered {ct : ContestType} {v v' : List (List Selection)} (h : Countable ct v) (hr : Reordered v v') : Countable ct v' := by
  rcases h with h | h | h | ⟨hct, hn⟩
  · exact .inl h
  · exact .inr (.inl h)
  · exact .inr (.inr (.inl h))
  · refine .inr (.inr (.inr ⟨hct, fun b hb => ?_⟩))
    obtain ⟨w, hp, hf⟩ := hr
    obtain ⟨a, ha, hab⟩ : ∃ a ∈ w, a.Perm b := by
      clear hp hn
      induction hf with
      | nil => cases hb
      | cons hxy _ ih =>
        rcases List.mem_cons.1 hb with rfl | hb
        · exact ⟨_, List.mem_cons_self, hxy⟩
        · obtain ⟨a, ha, h⟩ := ih hb
          exact ⟨a, List.mem_cons_of_mem _ ha, h⟩
    have := hn a (hp.mem_iff.2 ha)
    exact ⟨((hab.map _).nodup_iff).1 this.1, ((hab.map _).nodup_iff).1 this.2⟩

/-- **C104** The same candidates win, whatever the order of the ballots and of the selections on them. -/
theorem C104_order_is_irrelevant (ct : ContestType) (v v' : List (List Selection)) (h : Countable ct v) (hr : Reordered v v') (num : UInt32) (hnum : 0 < num) :
    ∃ o o', outcome ct num v = .ok (some o) ∧ outcome ct num v' = .ok (some o') ∧ ∀ c, (∃ r, (c, r) ∈ o.winners) ↔ ∃ r, (c, r) ∈ o'.winners := by
  obtain ⟨o, ho, -, -, -, ht, -, -, -, -, -, hw⟩ := C104_who_wins ct v h num
  obtain ⟨o', ho', -, -, -, ht', -, -, -, -, -, hw'⟩ := C104_who_wins ct v' (counted_reordered h hr) num
  refine ⟨o, o', ho, ho', fun c => ?_⟩
  rw [hw hnum, hw' hnum, ← candidates_reordered hr]
  refine and_congr_right fun hc => ?_
  rw [ahead_reordered (candidates_reordered hr) ?_ hc]
  intro d hd
  rcases h with rfl | rfl | rfl | ⟨hct, hn⟩
  · exact (score_order_independent v v' hr d).2
  · exact (score_order_independent v v' hr d).1
  · exact (score_order_independent v v' hr d).2
  · obtain ⟨t, t', e1, e2, hp⟩ := C84_order_is_irrelevant_partial ct hct v v' (fun b hb => (hn b hb).1) (fun b hb => (hn b hb).2) hr
    have f1 : o.totals = t := by
      rw [outcome, e1] at ho
      cases ho; rfl
    have f2 : o'.totals = t' := by
      rw [outcome, e2] at ho'
      cases ho'; rfl
    have hin := (ht d _).2 ⟨hd, rfl⟩
    rw [f1, hp.mem_iff, ← f2] at hin
    exact ((ht' _ _).1 hin).2

/-- **C104** No seat stays empty while there is a candidate who is named: at least as many win as there are seats, or all that are named.  If no two of them have the same result, exactly so many win. -/
theorem C104_seats_are_filled (ct : ContestType) (votes : List (List Selection)) (h : Countable ct votes) (num : UInt32) :
    ∃ o, outcome ct num votes = .ok (some o) ∧ min num.toNat (candidates votes).length ≤ o.winners.length ∧
      (0 < num → (∀ c ∈ candidates votes, ∀ d ∈ candidates votes, resultOf ct votes c = resultOf ct votes d → c = d) →
        o.winners.length = min num.toNat (candidates votes).length) := by
  obtain ⟨o, J, ho, h1, h2, h3, h4, hr, hw, hb, hg, hn, hp⟩ := outcome_placed h num
  have hlen : o.results.length = (candidates votes).length := by rw [← hp.length_eq, hr, List.length_map, List.length_map]
  refine ⟨o, ho, ?_, ?_⟩
  · have := takeWinners_enough num.toNat 0 0 o.results
    rw [hw, ← hlen]
    simpa using this
  · intro hnum hd
    have hnum' : 0 < num.toNat := UInt32.lt_iff_toNat_lt.1 hnum
    have hcn : (J.map Placed.c).Nodup := (hp.nodup_iff).2 (List.nodup_dedup _)
    have hmem : ∀ j ∈ J, j.c ∈ candidates votes := fun j hj => hp.mem_iff.1 (List.mem_map.2 ⟨j, hj, rfl⟩)
    have hrn : (J.map Placed.r).Nodup := by
      rw [List.Nodup, List.pairwise_map] at hcn ⊢
      refine (List.pairwise_and_iff.2 ⟨hcn, hb⟩).imp_of_mem fun {a b} ha hb' hab e => hab.1 ?_
      refine hd _ (hmem _ ha) _ (hmem _ hb') ?_
      rw [← hn _ ha, ← hn _ hb']
      exact hab.2.2.2.2 e
    rw [hw, ← hlen, hr]
    cases J with
    | nil => simp [takeWinners]
    | cons j J =>
      rw [List.map_cons, List.nodup_cons] at hrn
      rw [List.map_cons, Placed.rank, takeWinners, if_neg (by omega), List.length_cons, List.length_cons,
        takeWinners_exact _ _ _ _ (by
          have : (List.map Placed.rank J).map Prod.snd = J.map Placed.r := by rw [List.map_map]; rfl
          rw [this]
          exact List.nodup_cons.2 hrn)]
      omega

theorem timesNamed_flatten (c : Str) (votes : List (List Selection)) : timesNamed c votes = (votes.flatten.filter fun s => s.selection = c).length := by
  induction votes with
  | nil => rfl
  | cons v vs ih => rw [timesNamed, ih, List.flatten_cons, List.filter_append, List.length_append]

theorem timesNamed_two {c d : Str} (h : c ≠ d) (votes : List (List Selection)) : timesNamed c votes + timesNamed d votes ≤ votes.flatten.length := by
  rw [timesNamed_flatten, timesNamed_flatten]
  induction votes.flatten with
  | nil => simp
  | cons s l ih =>
    by_cases hc : s.selection = c
    · have hd : s.selection ≠ d := fun e => h (hc.symm.trans e)
      simp only [List.filter_cons, hc, decide_true, if_true, h, decide_false, Bool.false_eq_true, if_false, List.length_cons]
      omega
    · by_cases hd : s.selection = d
      · simp only [List.filter_cons, hd, decide_true, if_true, decide_false, Bool.false_eq_true, if_false, List.length_cons, Ne.symm h]
        omega
      · simp only [List.filter_cons, hc, hd, decide_false, Bool.false_eq_true, if_false, List.length_cons]
        omega

/-- **C104** In a plurality contest with one seat, whoever is named by more than half of all selections wins, and nobody else does. -/
theorem C104_majority_wins (votes : List (List Selection)) (c : Str) (hc : votes.flatten.length < 2 * timesNamed c votes) :
    ∃ o, outcome .plurality 1 votes = .ok (some o) ∧ ∀ d, (∃ r, (d, r) ∈ o.winners) ↔ d = c := by
  obtain ⟨o, ho, -, -, -, -, -, -, -, -, -, hw⟩ := C104_who_wins .plurality votes (Or.inl rfl) 1
  refine ⟨o, ho, fun d => ?_⟩
  have hin : c ∈ candidates votes := by
    have : 0 < timesNamed c votes := by omega
    rw [timesNamed_flatten] at this
    obtain ⟨s, hs⟩ := List.exists_mem_of_length_pos this
    obtain ⟨hs, he⟩ := List.mem_filter.1 hs
    exact List.mem_dedup.2 (List.mem_map.2 ⟨s, hs, of_decide_eq_true he⟩)
  rw [hw (by decide)]
  have h1 : (1 : UInt32).toNat = 1 := rfl
  rw [h1]
  constructor
  · rintro ⟨-, ha⟩
    by_contra hne
    have h2 := timesNamed_two (Ne.symm hne) votes
    have hm : c ∈ (candidates votes).filter fun other => resultOf .plurality votes d < resultOf .plurality votes other :=
      List.mem_filter.2 ⟨hin, decide_eq_true (by simp only [resultOf]; omega)⟩
    have := List.length_pos_of_mem hm
    rw [ahead] at ha
    omega
  · rintro rfl
    refine ⟨hin, ?_⟩
    rw [ahead, List.filter_eq_nil_iff.2]
    · simp
    · intro x hx hlt
      have hlt := of_decide_eq_true hlt
      simp only [resultOf] at hlt
      by_cases he : x = d
      · rw [he] at hlt; omega
      · have := timesNamed_two (Ne.symm he) votes
        omega

/-- **C104** What C60 and C86 assume of the winners of a tally with one seat holds of the winners as modelled here. -/
theorem C104_one_seat_picks_the_top : PicksTop fun totals => (takeWinners 1 0 0 (rankAll totals)).map Prod.fst := by
  intro totals
  obtain ⟨J, hp, hr, hb, -⟩ := rankAll_placed totals
  have hw := takeWinners_eq 1 (by omega) J [] 0 hb (Or.inl rfl)
  rw [hr, List.length_nil, List.nil_append] at hw
  dsimp only
  constructor
  · rw [List.map_eq_nil_iff]
    constructor
    · intro h
      have := takeWinners_enough 1 0 0 (rankAll totals)
      rw [h, ← hr, List.length_map, ← List.length_map (f := Placed.total), hp.length_eq, List.length_nil] at this
      exact List.length_eq_zero_iff.1 (by omega)
    · rintro rfl
      rfl
  · intro c hc
    rw [hw, List.map_map] at hc
    obtain ⟨j, hj, rfl⟩ := List.mem_map.1 hc
    obtain ⟨hj, ha⟩ := List.mem_filter.1 hj
    have ha := of_decide_eq_true ha
    refine ⟨j.n, hp.mem_iff.1 (List.mem_map.2 ⟨j, hj, rfl⟩), fun c' n' h => ?_⟩
    obtain ⟨i, hi, he⟩ := List.mem_map.1 (hp.mem_iff.2 h)
    have hn : i.n = n' := congrArg Prod.snd he
    by_contra hlt
    have := List.length_pos_of_mem (List.mem_filter (p := fun i => decide (j.n < i.n)) |>.2 ⟨hi, decide_eq_true (by omega)⟩)
    unfold aheadOf at ha
    omega

/-- **C104 is false of the code**: more candidates can win than there are seats; those who tie for the last seat all do. -/
theorem C104_seats_suffice_false : ¬ ∀ (ct : ContestType) (num : UInt32) (votes : List (List Selection)) (o : Outcome), 0 < num → outcome ct num votes = .ok (some o) →
    o.winners.length ≤ num.toNat := by
  intro h
  have := h .plurality 1 [[⟨false, 0, str "a"⟩], [⟨false, 0, str "b"⟩]] ⟨2, [(str "a", 1), (str "b", 1)], [(str "a", 0), (str "b", 0)], [(str "a", 0), (str "b", 0)], []⟩
    (by decide) (by decide +kernel)
  revert this
  decide

/-- **C104 is false of the code**: a ballot that cannot be counted is not listed as spoiled; a Borda contest is not tallied at all because of it. -/
theorem C104_bad_ballots_are_spoiled_false : ¬ ∀ (num : UInt32) (votes : List (List Selection)), ∃ o, outcome .borda num votes = .ok o := by
  intro h
  obtain ⟨o, ho⟩ := h 1 [[⟨false, 0, str "a"⟩, ⟨false, 1, str "a"⟩]]
  have : outcome .borda 1 [[⟨false, 0, str "a"⟩, ⟨false, 1, str "a"⟩]] = .panic .expectFailed := by decide +kernel
  rw [this] at ho
  cases ho

/-! sample contests -/

example : outcome .score 2 sampleBallots = .ok (some ⟨3, [(str "Barak Obama", 2), (str "John McCain", 5), (str "Santa Clause", 3)],
    [(str "John McCain", 0), (str "Santa Clause", 1), (str "Barak Obama", 2)], [(str "John McCain", 0), (str "Santa Clause", 1)], []⟩) := by decide +kernel

example : outcome .plurality 2 sampleBallots = .ok (some ⟨3, [(str "Barak Obama", 2), (str "John McCain", 1), (str "Santa Clause", 1)],
    [(str "Barak Obama", 0), (str "John McCain", 1), (str "Santa Clause", 1)], [(str "Barak Obama", 0), (str "John McCain", 1), (str "Santa Clause", 1)], []⟩) := by decide +kernel

/-- two ballots that rank all candidates -/
def rankedBallots : List (List Selection) :=
  [[⟨false, 1, str "a"⟩, ⟨false, 3, str "c"⟩, ⟨false, 2, str "b"⟩], [⟨false, 0, str "b"⟩, ⟨false, 1, str "a"⟩, ⟨false, 2, str "c"⟩],
   [⟨false, 0, str "b"⟩, ⟨false, 1, str "c"⟩]]

example : Countable .borda rankedBallots ∧ (∀ c ∈ candidates rankedBallots, ∀ d ∈ candidates rankedBallots, resultOf .borda rankedBallots c = resultOf .borda rankedBallots d → c = d) ∧
    outcome .borda 2 rankedBallots = .ok (some ⟨3, [(str "a", 3), (str "b", 5), (str "c", 1)], [(str "b", 0), (str "a", 1), (str "c", 2)], [(str "b", 0), (str "a", 1)], []⟩) := by
  unfold Countable
  decide +kernel

example : (sampleBallots.take 1 ++ sampleBallots.take 1 ++ sampleBallots.drop 2).flatten.length <
    2 * timesNamed (str "Barak Obama") (sampleBallots.take 1 ++ sampleBallots.take 1 ++ sampleBallots.drop 2) := by decide +kernel

example : Reordered rankedBallots (rankedBallots.reverse.map List.reverse) := ⟨rankedBallots.reverse, (List.reverse_perm _).symm,
  .cons (List.reverse_perm _).symm (.cons (List.reverse_perm _).symm (.cons (List.reverse_perm _).symm .nil))⟩

end Tally
end CB
