import Verif.Spec.Report
import Verif.Lemmas.Json
import Verif.Props.Foreign
import Verif.Props.Cli
/-!
# C89: the printed report cannot be forged by what is voted for
-/

namespace CB
open Spec
namespace E2e

theorem cut {c : UInt8} {a a' r r' : Bytes} (h : a ++ c :: r = a' ++ c :: r') (ha : c ∉ a) (ha' : c ∉ a') : a = a' ∧ r = r' := by
  induction a generalizing a' with
  | nil =>
    cases a' with
    | nil => exact ⟨rfl, (List.cons.inj h).2⟩
    | cons b a' => exact absurd (List.cons.inj h).1 fun e => ha' (by simp [e])
  | cons b a ih =>
    cases a' with
    | nil => exact absurd (List.cons.inj h).1 fun e => ha (by simp [e])
    | cons b' a' =>
      obtain ⟨h1, h2⟩ := List.cons.inj h
      obtain ⟨h3, h4⟩ := ih h2 (fun hc => ha (by simp [hc])) (fun hc => ha' (by simp [hc]))
      exact ⟨by rw [h1, h3], h4⟩

theorem cut_last {c : UInt8} {a a' r r' : Bytes} (h : a ++ c :: r = a' ++ c :: r') (hr : c ∉ r) (hr' : c ∉ r') : a = a' ∧ r = r' := by
  have h := congrArg List.reverse h
  simp only [List.reverse_append, List.reverse_cons, List.append_assoc, List.singleton_append] at h
  obtain ⟨h1, h2⟩ := cut h (by simpa using hr) (by simpa using hr')
  exact ⟨List.reverse_injective h2, List.reverse_injective h1⟩

theorem text_inj : ∀ {l l' : List Bytes}, (∀ x ∈ l, OneLine x) → (∀ x ∈ l', OneLine x) → text l = text l' → l = l' := by
  intro l
  induction l with
  | nil =>
    rintro (_ | ⟨y, l'⟩) _ _ h
    · rfl
    · simp [text] at h
  | cons x l ih =>
    rintro (_ | ⟨y, l'⟩) hl hl' h
    · simp [text] at h
    · simp only [text, List.flatMap_cons, List.append_assoc, List.singleton_append] at h
      obtain ⟨h1, h2⟩ := cut h (fun hc => hl x (by simp) _ hc rfl) (fun hc => hl' y (by simp) _ hc rfl)
      rw [h1, ih (fun z hz => hl z (by simp [hz])) (fun z hz => hl' z (by simp [hz])) h2]

theorem digits_digit {n : Nat} (hn : n < 10 ^ 20) : ∀ b ∈ Json.digits n, Json.isDigit b = true := by
  obtain ⟨ds, h1, h2, -⟩ := Json.digitsFrom_spec 20 n hn (by omega)
  have e : Json.digits n = ds := by rw [Json.digits, h1, List.append_nil]
  rw [e]; exact h2

theorem digits_inj {n n' : Nat} (hn : n < 10 ^ 20) (hn' : n' < 10 ^ 20) (h : Json.digits n = Json.digits n') : n = n' := by
  have h1 := Json.readDigits_digits hn .nil
  rw [h, Json.readDigits_digits hn' .nil] at h1
  exact (Prod.ext_iff.1 (Option.some.inj h1)).1.symm

theorem not_digit {n : Nat} (hn : n < 10 ^ 20) {b : UInt8} (hb : Json.isDigit b = false) : b ∉ Json.digits n := by
  intro h
  rw [digits_digit hn b h] at hb
  cases hb

theorem bound {n : Nat} (h : n < 2 ^ 64) : n < 10 ^ 20 := h.trans (by norm_num)
theorem score_bound (x : UInt32) : x.toNat < 10 ^ 20 := (UInt32.toNat_lt x).trans (by norm_num)

/-- a printed selection -/
def voteLine (x : UInt32 × Str) : Bytes := str "  " ++ Json.digits x.1.toNat ++ str ":" ++ x.2

theorem voteLine_inj {x y : UInt32 × Str} (h : voteLine x = voteLine y) : x = y := by
  unfold voteLine at h
  simp only [List.append_assoc] at h
  have h := List.append_cancel_left h
  obtain ⟨h1, h2⟩ := cut (c := 0x3a) h (not_digit (score_bound _) (by decide)) (not_digit (score_bound _) (by decide))
  exact Prod.ext (UInt32.toNat_inj.1 (digits_inj (score_bound _) (score_bound _) h1)) h2

theorem totalLine_inj {x y : Str × Nat} (hx : x.2 < 2 ^ 64) (hy : y.2 < 2 ^ 64) (h : totalLine x = totalLine y) : x = y := by
  unfold totalLine at h
  have h := List.append_cancel_right h
  rw [show str " got " = str " got" ++ [0x20] from rfl] at h
  simp only [List.append_assoc] at h
  have h := List.append_cancel_left h
  rw [← List.append_assoc, ← List.append_assoc y.1] at h
  obtain ⟨h1, h2⟩ := cut_last (c := 0x20) h (not_digit (bound hx) (by decide)) (not_digit (bound hy) (by decide))
  exact Prod.ext (List.append_cancel_right h1) (digits_inj (bound hx) (bound hy) h2)

theorem oneLine_append {a b : Bytes} (ha : OneLine a) (hb : OneLine b) : OneLine (a ++ b) := by
  intro c hc
  rcases List.mem_append.1 hc with hc | hc
  · exact ha c hc
  · exact hb c hc
theorem oneLine_digits {n : Nat} (h : n < 10 ^ 20) : OneLine (Json.digits n) := by
  rintro b hb rfl
  exact not_digit h (by decide) hb
theorem oneLine_lit {a : Bytes} (h : (a.all fun b => decide (b ≠ 0x0a)) = true) : OneLine a := fun b hb => by simpa using List.all_eq_true.1 h b hb

/-! ## Sections -/

/-- the lines of the parts of a report -/
def votesPart (o : Option (List (UInt32 × Str))) : List Bytes := match o with
  | some l => str "Votes:" :: l.flatMap fun x => [voteLine x, []]
  | none => []
def totalsPart (o : Option (List (Str × Nat))) : List Bytes := match o with
  | some l => str "Tally:" :: l.map totalLine
  | none => []
def winnerPart (o : Option Str) : List Bytes := match o with
  | some w => [str "Results:", str "  The winner is " ++ w]
  | none => []

theorem report_lines {E : Env} {P : Plurality} {flags : Flags} {txs : List SignedTx} {f : Figures} {lines : List Bytes} (hf : Finds E P flags txs f)
    (h : report E P flags txs = .ok lines) : lines = str "> Election verified OK" :: votesPart f.votes ++ totalsPart f.totals ++ winnerPart f.winner := by
  obtain ⟨t, ts, m, rfl, hm, h1, h2, h3⟩ := hf
  unfold report at h
  simp only [hm, Res.ok_bind, Res.bind_eq_ok] at h
  obtain ⟨a, ha, b, hb, c, hc, h⟩ := h
  have ea : a = votesPart f.votes := by
    cases hv : f.votes with
    | none => rw [hv] at h1; simp only at h1; rw [h1] at ha; cases ha; rfl
    | some l =>
      rw [hv] at h1
      rw [h1.1, votesLines, h1.2] at ha
      cases ha; rfl
  have eb : b = totalsPart f.totals := by
    cases hv : f.totals with
    | none => rw [hv] at h2; simp only at h2; rw [h2] at hb; cases hb; rfl
    | some l =>
      rw [hv] at h2
      obtain ⟨h2, T, h4, rfl⟩ := h2
      rw [h2, tallyLines, h4] at hb
      cases hb; rfl
  have ec : c = winnerPart f.winner := by
    cases hv : f.winner with
    | none => rw [hv] at h3; simp only at h3; rw [h3] at hc; cases hc; rfl
    | some l =>
      rw [hv] at h3
      rw [h3.1, resultsLines, h3.2] at hc
      cases hc; rfl
  rw [← ea, ← eb, ← ec]
  exact (Res.ok.inj h).symm

/-- lines that are not headings -/
def isBody (l : Bytes) : Bool := l.head? == some 0x20 || l.isEmpty

/-- the headings, each with the lines below it; and the lines before the first -/
def sections (l : List Bytes) : List (Bytes × List Bytes) × List Bytes :=
  l.foldr (fun x s => if isBody x then (s.1, x :: s.2) else ((x, s.2) :: s.1, [])) ([], [])

theorem sections_body (b r : List Bytes) (h : ∀ x ∈ b, isBody x = true) : sections (b ++ r) = ((sections r).1, b ++ (sections r).2) := by
  induction b with
  | nil => rfl
  | cons x b ih =>
    have ih := ih fun y hy => h y (by simp [hy])
    unfold sections at ih ⊢
    rw [List.cons_append, List.foldr_cons, ih, if_pos (h x (by simp))]
    rfl

theorem sections_heading (x : Bytes) (r : List Bytes) (h : isBody x = false) : sections (x :: r) = ((x, (sections r).2) :: (sections r).1, []) := by
  unfold sections
  rw [List.foldr_cons, h]
  rfl

theorem body_votes (l : List (UInt32 × Str)) : ∀ x ∈ l.flatMap fun x => [voteLine x, []], isBody x = true := by
  intro x hx
  obtain ⟨y, _, hy⟩ := List.mem_flatMap.1 hx
  simp only [List.mem_cons, List.not_mem_nil, or_false] at hy
  rcases hy with rfl | rfl <;> rfl
theorem body_totals (l : List (Str × Nat)) : ∀ x ∈ l.map totalLine, isBody x = true := by
  intro x hx
  obtain ⟨y, _, rfl⟩ := List.mem_map.1 hx
  rfl

theorem flatMap_inj : ∀ {l l' : List (UInt32 × Str)}, (l.flatMap fun x => [voteLine x, []]) = (l'.flatMap fun x => [voteLine x, []]) → l = l' := by
  intro l
  induction l with
  | nil =>
    rintro (_ | ⟨y, l'⟩) h
    · rfl
    · simp at h
  | cons x l ih =>
    rintro (_ | ⟨y, l'⟩) h
    · simp at h
    · simp only [List.flatMap_cons, List.cons_append, List.nil_append, List.cons.injEq, true_and] at h
      rw [voteLine_inj h.1, ih h.2]

theorem totals_inj : ∀ {l l' : List (Str × Nat)}, (∀ x ∈ l, x.2 < 2 ^ 64) → (∀ x ∈ l', x.2 < 2 ^ 64) → l.map totalLine = l'.map totalLine → l = l' := by
  intro l
  induction l with
  | nil =>
    rintro (_ | ⟨y, l'⟩) _ _ h
    · rfl
    · simp at h
  | cons x l ih =>
    rintro (_ | ⟨y, l'⟩) hl hl' h
    · simp at h
    · simp only [List.map_cons, List.cons.injEq] at h
      rw [totalLine_inj (hl x (by simp)) (hl' y (by simp)) h.1, ih (fun z hz => hl z (by simp [hz])) (fun z hz => hl' z (by simp [hz])) h.2]

/-- what is below each heading of a report -/
theorem sections_report (f : Figures) : (sections (str "> Election verified OK" :: votesPart f.votes ++ totalsPart f.totals ++ winnerPart f.winner)).1 =
    [(str "> Election verified OK", [])] ++ (f.votes.map fun l => (str "Votes:", l.flatMap fun x => [voteLine x, []])).toList ++
      (f.totals.map fun l => (str "Tally:", l.map totalLine)).toList ++ (f.winner.map fun w => (str "Results:", [str "  The winner is " ++ w])).toList := by
  have h3 : sections (winnerPart f.winner) = ((f.winner.map fun w => (str "Results:", [str "  The winner is " ++ w])).toList, []) := by
    cases f.winner <;> rfl
  have h2 : sections (totalsPart f.totals ++ winnerPart f.winner) =
      ((f.totals.map fun l => (str "Tally:", l.map totalLine)).toList ++ (f.winner.map fun w => (str "Results:", [str "  The winner is " ++ w])).toList, []) := by
    cases f.totals with
    | none => exact h3
    | some l =>
      rw [totalsPart, List.cons_append, sections_heading _ _ (by decide), sections_body _ _ (body_totals l), h3]
      simp
  have h1 : sections (votesPart f.votes ++ (totalsPart f.totals ++ winnerPart f.winner)) =
      ((f.votes.map fun l => (str "Votes:", l.flatMap fun x => [voteLine x, []])).toList ++ ((f.totals.map fun l => (str "Tally:", l.map totalLine)).toList ++
        (f.winner.map fun w => (str "Results:", [str "  The winner is " ++ w])).toList), []) := by
    cases f.votes with
    | none => exact h2
    | some l =>
      rw [votesPart, List.cons_append, sections_heading _ _ (by decide), sections_body _ _ (body_votes l), h2]
      simp
  rw [List.append_assoc, List.cons_append, sections_heading _ _ (by decide), h1]
  simp

theorem oneLine_report {f : Figures} (h : f.OneLiners) : ∀ x ∈ str "> Election verified OK" :: votesPart f.votes ++ totalsPart f.totals ++ winnerPart f.winner, OneLine x := by
  obtain ⟨h1, h2, h3⟩ := h
  intro x hx
  simp only [List.cons_append, List.mem_cons, List.mem_append] at hx
  rcases hx with rfl | (hx | hx) | hx
  · exact oneLine_lit (by decide)
  · cases hv : f.votes with
    | none => rw [hv] at hx; cases hx
    | some l =>
      rw [hv, votesPart] at hx
      rcases List.mem_cons.1 hx with rfl | hx
      · exact oneLine_lit (by decide)
      · obtain ⟨y, hy, hx⟩ := List.mem_flatMap.1 hx
        simp only [List.mem_cons, List.not_mem_nil, or_false] at hx
        rcases hx with rfl | rfl
        · exact oneLine_append (oneLine_append (oneLine_append (oneLine_lit (by decide)) (oneLine_digits (score_bound _))) (oneLine_lit (by decide))) (h1 l hv y hy)
        · exact oneLine_lit (by decide)
  · cases hv : f.totals with
    | none => rw [hv] at hx; cases hx
    | some l =>
      rw [hv, totalsPart] at hx
      rcases List.mem_cons.1 hx with rfl | hx
      · exact oneLine_lit (by decide)
      · obtain ⟨y, hy, rfl⟩ := List.mem_map.1 hx
        obtain ⟨g1, g2⟩ := h2 l hv y hy
        exact oneLine_append (oneLine_append (oneLine_append (oneLine_append (oneLine_lit (by decide)) g1) (oneLine_lit (by decide))) (oneLine_digits (bound g2))) (oneLine_lit (by decide))
  · cases hv : f.winner with
    | none => rw [hv] at hx; cases hx
    | some w =>
      rw [hv, winnerPart] at hx
      simp only [List.mem_cons, List.not_mem_nil, or_false] at hx
      rcases hx with rfl | rfl
      · exact oneLine_lit (by decide)
      · exact oneLine_append (oneLine_lit (by decide)) (h3 w hv)

/-- the lines below each heading -/
theorem lookups (f : Figures) : let s := [(str "> Election verified OK", [])] ++ (f.votes.map fun l => (str "Votes:", l.flatMap fun x => [voteLine x, []])).toList ++
      (f.totals.map fun l => (str "Tally:", l.map totalLine)).toList ++ (f.winner.map fun w => (str "Results:", [str "  The winner is " ++ w])).toList
    s.lookup (str "Votes:") = f.votes.map (fun l => l.flatMap fun x => [voteLine x, []]) ∧ s.lookup (str "Tally:") = f.totals.map (fun l => l.map totalLine) ∧
      s.lookup (str "Results:") = f.winner.map (fun w => [str "  The winner is " ++ w]) := by
  obtain ⟨v, t, w⟩ := f
  cases v <;> cases t <;> cases w <;> exact ⟨rfl, rfl, rfl⟩

/-- **C89 (partial)** Provided that what was voted for contains no line breaks, the text that the command prints can be read in one way only: reports with the same text show the same
votes, the same totals and the same winner (and none of these that were not asked for).
Missing: texts with line breaks (`C89_report_is_unambiguous_false`). -/
theorem C89_report_is_unambiguous_partial (E E' : Env) (P P' : Plurality) (flags flags' : Flags) (txs txs' : List SignedTx) (f f' : Figures) (lines lines' : List Bytes)
    (hf : Finds E P flags txs f) (hf' : Finds E' P' flags' txs' f') (ho : f.OneLiners) (ho' : f'.OneLiners) (h : report E P flags txs = .ok lines)
    (h' : report E' P' flags' txs' = .ok lines') (he : text lines = text lines') : f = f' := by
  rw [report_lines hf h, report_lines hf' h'] at he
  have he := congrArg (fun l => (sections l).1) (text_inj (oneLine_report ho) (oneLine_report ho') he)
  simp only [sections_report] at he
  have e1 := congrArg (List.lookup (str "Votes:")) he
  have e2 := congrArg (List.lookup (str "Tally:")) he
  have e3 := congrArg (List.lookup (str "Results:")) he
  rw [(lookups f).1, (lookups f').1] at e1
  rw [(lookups f).2.1, (lookups f').2.1] at e2
  rw [(lookups f).2.2, (lookups f').2.2] at e3
  obtain ⟨v, t, w⟩ := f
  obtain ⟨v', t', w'⟩ := f'
  obtain ⟨-, g2, -⟩ := ho
  obtain ⟨-, g2', -⟩ := ho'
  dsimp only at e1 e2 e3 g2 g2'
  have ev : v = v' := by
    cases v <;> cases v' <;> simp only [Option.map_some, Option.map_none, reduceCtorEq, Option.some.injEq] at e1 ⊢
    exact flatMap_inj e1
  have et : t = t' := by
    cases t <;> cases t' <;> simp only [Option.map_some, Option.map_none, reduceCtorEq, Option.some.injEq] at e2 ⊢
    exact totals_inj (fun x hx => (g2 _ rfl x hx).2) (fun x hx => (g2' _ rfl x hx).2) e2
  have ew : w = w' := by
    cases w <;> cases w' <;> simp only [Option.map_some, Option.map_none, reduceCtorEq, Option.some.injEq] at e3 ⊢
    exact List.append_cancel_left (List.cons.inj e3).1
  rw [ev, et, ew]

/-- A report shows figures. -/
theorem finds_of_report {E : Env} {P : Plurality} {flags : Flags} {txs : List SignedTx} {lines : List Bytes} (h : report E P flags txs = .ok lines) : ∃ f, Finds E P flags txs f := by
  have hok : ∀ {b : Bool} {r : VRes (List Bytes)} {l}, asked b r = .ok l → b = true → ∃ l', r = .ok l' := by
    intro b r l h hb
    subst hb
    cases r with
    | ok l' => exact ⟨l', rfl⟩
    | _ => cases h
  unfold report at h
  split at h
  · cases h
  · rename_i t ts
    simp only [Res.bind_eq_ok] at h
    obtain ⟨m, hm, a, ha, b, hb, c, hc, -⟩ := h
    have h1 : ∃ v : Option (List (UInt32 × Str)), match v with | some l => flags.votes = true ∧ printVotes m t.id = .ok l | none => flags.votes = false := by
      cases hf : flags.votes with
      | false => exact ⟨none, rfl⟩
      | true =>
        obtain ⟨l, hl⟩ := hok ha hf
        obtain ⟨v, hv, -⟩ := Res.bind_eq_ok.1 hl
        exact ⟨some v, rfl, hv⟩
    have h2 : ∃ v : Option (List (Str × Nat)), match v with | some l => flags.tally = true ∧ ∃ T, tally m t.id = .ok T ∧ l = P.order T | none => flags.tally = false := by
      cases hf : flags.tally with
      | false => exact ⟨none, rfl⟩
      | true =>
        obtain ⟨l, hl⟩ := hok hb hf
        obtain ⟨v, hv, -⟩ := Res.bind_eq_ok.1 hl
        exact ⟨some (P.order v), rfl, v, hv, rfl⟩
    have h3 : ∃ v : Option Str, match v with | some l => flags.results = true ∧ printResults P.winners m t.id = .ok l | none => flags.results = false := by
      cases hf : flags.results with
      | false => exact ⟨none, rfl⟩
      | true =>
        obtain ⟨l, hl⟩ := hok hc hf
        obtain ⟨v, hv, -⟩ := Res.bind_eq_ok.1 hl
        exact ⟨some v, rfl, hv⟩
    obtain ⟨v, hv⟩ := h1
    obtain ⟨T, hT⟩ := h2
    obtain ⟨w, hw⟩ := h3
    exact ⟨⟨v, T, w⟩, t, ts, m, rfl, hm, hv, hT, hw⟩

/-- **C89** What the command prints are the figures that it finds in the transactions the node answers with, those that were asked for and no others; it writes no file and posts nothing,
and no secret key makes a difference to it. -/
theorem C89_report_shows_figures (N : NodeEnv) (s : Exonum.Schema) (R : Cli.Randomness) (key : Option Str) (id : Str) (flags : Flags) (o : Cli.Output)
    (h : Cli.run N s R key (.e2e id flags) = .ok o) :
    o.file = none ∧ o.posted = [] ∧ (∃ p txs f, queryPrefix id = .ok p ∧ Client.getTransactionsByPrefix s p = .ok txs ∧ Finds N.toEnv R.plurality flags txs f ∧ o.printed = f.lines) ∧
      Cli.run N s R none (.e2e id flags) = .ok o := by
  unfold Cli.run at h
  rw [Res.bind_eq_ok] at h
  obtain ⟨sk, -, h⟩ := h
  have h0 : Cli.run N s R none (.e2e id flags) = .ok o := h
  unfold Cli.command at h
  rw [Res.bind_eq_ok] at h
  obtain ⟨lines, h1, h2⟩ := h
  cases h2
  refine ⟨rfl, rfl, ?_, h0⟩
  cases hr : Client.report N.toEnv R.plurality flags s id with
  | ok l =>
    rw [hr] at h1
    cases h1
    unfold Client.report at hr
    rw [Res.bind_eq_ok] at hr
    obtain ⟨p, hp, hr⟩ := hr
    split at hr
    · rename_i txs htxs
      obtain ⟨f, hf⟩ := finds_of_report hr
      exact ⟨p, txs, f, hp, htxs, hf, report_lines hf hr⟩
    · cases hr
    · cases hr
  | err e => rw [hr] at h1; cases h1
  | panic q => rw [hr] at h1; cases h1

theorem run_of_report {N : NodeEnv} {s : Exonum.Schema} {R : Cli.Randomness} {id : Str} {flags : Flags} {lines : List Bytes}
    (h : Client.report N.toEnv R.plurality flags s id = .ok lines) : Cli.run N s R none (.e2e id flags) = .ok { printed := lines } := by
  show Res.bind (Res.mapErr Cli.Exit.e2e (Client.report N.toEnv R.plurality flags s id)) _ = _
  rw [h]
  rfl

/-! ## Concrete reports -/

/-- a check of `Finds` -/
def findsCheck (E : Env) (P : Plurality) (txs : List SignedTx) (f : Figures) : Bool :=
  match txs with
  | [] => false
  | t :: ts => match verify E (t :: ts) with
    | .ok m => (match f.votes with | some l => decide (printVotes m t.id = .ok l) | none => true) &&
      (match f.totals with | some l => (match tally m t.id with | .ok T => decide (l = P.order T) | _ => false) | none => true) &&
      (match f.winner with | some w => decide (printResults P.winners m t.id = .ok w) | none => true)
    | _ => false

theorem finds_of_check {E : Env} {P : Plurality} {txs : List SignedTx} {f : Figures} (h : findsCheck E P txs f = true) :
    Finds E P ⟨f.votes.isSome, f.totals.isSome, f.winner.isSome⟩ txs f := by
  unfold findsCheck at h
  split at h
  · cases h
  · rename_i t ts
    split at h
    · rename_i m hm
      simp only [Bool.and_eq_true] at h
      obtain ⟨⟨h1, h2⟩, h3⟩ := h
      refine ⟨t, ts, m, rfl, hm, ?_, ?_, ?_⟩
      · cases hv : f.votes with
        | none => rfl
        | some l => rw [hv] at h1; exact ⟨rfl, of_decide_eq_true h1⟩
      · cases hv : f.totals with
        | none => rfl
        | some l =>
          rw [hv] at h2
          dsimp only at h2
          split at h2
          · rename_i T hT; exact ⟨rfl, T, hT, of_decide_eq_true h2⟩
          · cases h2
      · cases hv : f.winner with
        | none => rfl
        | some l => rw [hv] at h3; exact ⟨rfl, of_decide_eq_true h3⟩
    · cases h

/-- what is found in the sample election -/
def _root_.CB.Toy.plainFigures : Figures := ⟨some [(0, str "a"), (0, str "b")], some [(str "a", 1), (str "b", 1)], some (str "a")⟩

/-- The hypotheses can be met: the report on the sample election. -/
example : Finds Toy.env Toy.plurality Toy.allFlags Toy.plainComplete Toy.plainFigures ∧ Toy.plainFigures.OneLiners ∧
    report Toy.env Toy.plurality Toy.allFlags Toy.plainComplete = .ok Toy.plainReport ∧
    (∃ o, Cli.run Toy.node (Exonum.deliverAll Toy.env OMap.empty (Toy.shaded.map Exonum.Envelope.ofTx)) (Cli.toyR 7) none (.e2e Toy.eid.toString Toy.allFlags) = .ok o) ∧
    text Toy.plainReport = str ("> Election verified OK\nVotes:\n  0:a\n\n  0:b\n\n" ++ "Tally:\n  a got 1 votes\n  b got 1 votes\nResults:\n  The winner is a\n") := by
  refine ⟨finds_of_check (f := Toy.plainFigures) (by decide +kernel), ⟨?_, ?_, ?_⟩, by decide +kernel, ⟨{ printed := Toy.plainReport }, ?_⟩, by decide +kernel⟩
  · rintro _ ⟨⟩ x hx
    exact oneLine_lit ((by decide : ∀ x ∈ [((0 : UInt32), str "a"), (0, str "b")], (x.2.all fun b => decide (b ≠ 0x0a)) = true) x hx)
  · rintro _ ⟨⟩ x hx
    have := (by decide : ∀ x ∈ [(str "a", 1), (str "b", 1)], (x.1.all fun b => decide (b ≠ 0x0a)) = true ∧ x.2 < 2 ^ 64) x hx
    exact ⟨oneLine_lit this.1, this.2⟩
  · rintro _ ⟨⟩
    exact oneLine_lit (by decide)
  · have : Client.report Toy.node.toEnv (Cli.toyR 7).plurality Toy.allFlags (Exonum.deliverAll Toy.env OMap.empty (Toy.shaded.map Exonum.Envelope.ofTx)) Toy.eid.toString =
        .ok Toy.plainReport := by decide +kernel
    exact run_of_report this

/-- an election with one vote, for a text of two lines -/
def _root_.CB.Toy.forged : List SignedTx :=
  Toy.setup none ++ [Toy.voteTx 31 "a got 1 votes\n  b", Toy.endTx, votePartial (Toy.key 31) "a got 1 votes\n  b" 1 11, votePartial (Toy.key 31) "a got 1 votes\n  b" 2 12,
    .decryption (Toy.decOf (VoteTx.buildId Toy.eid (Toy.key 31)) 0 "a got 1 votes\n  b")]

/-- **C89 (false)** What is voted for is printed as it is, and may contain line breaks: a single vote, for a text of two lines, is printed as two candidates with a vote each. -/
theorem C89_report_is_unambiguous_false : ¬ ∀ (E E' : Env) (P P' : Plurality) (flags flags' : Flags) (txs txs' : List SignedTx) (f f' : Figures) (lines lines' : List Bytes),
    Finds E P flags txs f → Finds E' P' flags' txs' f' → report E P flags txs = .ok lines → report E' P' flags' txs' = .ok lines' → text lines = text lines' → f = f' := by
  intro h
  have := h Toy.env Toy.env Toy.plurality Toy.plurality _ _ _ _ _ _ (["> Election verified OK", "Tally:", "  a got 1 votes", "  b got 1 votes"].map str)
    (["> Election verified OK", "Tally:", "  a got 1 votes\n  b got 1 votes"].map str)
    (finds_of_check (txs := Toy.plainComplete) (f := ⟨none, some [(str "a", 1), (str "b", 1)], none⟩) (by decide +kernel))
    (finds_of_check (txs := Toy.forged) (f := ⟨none, some [(str "a got 1 votes\n  b", 1)], none⟩) (by decide +kernel))
    (by decide +kernel) (by decide +kernel) (by decide +kernel)
  have := congrArg (fun f => f.totals.map List.length) this
  exact absurd this (by decide)

end E2e
end CB
