import Verif.Props.E2e
/-!
# C86: what the end-to-end command reports
-/

namespace CB
open Spec
namespace E2e

/-- **C86** (votes) Of a verified list, the command prints score and text of all selections of all decryptions of the election, those of a decryption together and in its order. -/
theorem C86_printed_votes (E : Env) (txs : List SignedTx) (m : MemStore) (h : verify E txs = .ok m) (election : Identifier) :
    ∃ ds : List (Signed DecryptionTx), ds.Nodup ∧ (∀ d, d ∈ ds ↔ InStore m.toStore (.decryption d) ∧ d.tx.id.electionId = election.electionId) ∧
      printVotes m election = .ok (ds.flatMap fun d => d.tx.decryptedVote.map fun s => (s.score, s.selection)) := by
  have hr := replay_of_verify h
  obtain ⟨l, h1, h2, h3⟩ := hr.lawful.getMultiple election .decryption
  have hl : ∃ ds : List (Signed DecryptionTx), l = ds.map .decryption := by
    have hall : ∀ t ∈ l, ∃ d, t = SignedTx.decryption d := by
      intro t ht
      obtain ⟨a, _, c⟩ := (h2 t).1 ht
      have := hr.typed (id := t.id) a
      rw [c] at this
      cases t <;> simp [SignedTx.transactionType] at this ⊢
    clear h1 h2 h3
    induction l with
    | nil => exact ⟨[], rfl⟩
    | cons x xs ih =>
      obtain ⟨d, rfl⟩ := hall x (by simp)
      obtain ⟨ds, rfl⟩ := ih fun t ht => hall t (by simp [ht])
      exact ⟨d :: ds, rfl⟩
  obtain ⟨ds, rfl⟩ := hl
  refine ⟨ds, List.Nodup.of_map _ (List.Nodup.of_map _ (idLt_nodup h3)), fun d => ?_, ?_⟩
  · have := h2 (.decryption d)
    rw [List.mem_map] at this
    constructor
    · intro hd
      obtain ⟨a, b, _⟩ := this.1 ⟨d, hd, rfl⟩
      exact ⟨a, b⟩
    · rintro ⟨a, b⟩
      obtain ⟨d', hd', he⟩ := this.2 ⟨a, b, (hr.typed (id := (SignedTx.decryption d).id) a).symm ▸ rfl⟩
      cases he
      exact hd'
  · unfold printVotes
    rw [h1, Res.ok_bind]
    have : Res.mapM' (fun d : SignedTx => d.intoDecryption.bind fun d => (.ok (d.tx.decryptedVote.map fun s => (s.score, s.selection)) : VRes _)) (ds.map .decryption) =
        .ok (ds.map fun d => d.tx.decryptedVote.map fun s => (s.score, s.selection)) := by
      rw [Res.mapM'_eq_ok, List.map_map, List.map_map]
      rfl
    rw [this, Res.ok_bind, List.flatMap_def]

/-- **C86 (partial)** (winner) Of a verified list, the winner that is printed is the first selection of some decryption, and of no fewer decryptions than anybody else; and if somebody is
the first selection of more decryptions than anybody else, and no decryption is empty, they are printed.
Missing: a tie is not told, and decryptions of different contests are counted together. -/
theorem C86_printed_winner_partial (E : Env) (txs : List SignedTx) (m : MemStore) (h : verify E txs = .ok m) (election : Identifier) (winners : List (Str × Nat) → List Str)
    (hw : PicksTop winners) :
    ∃ ds : List (Signed DecryptionTx), ds.Nodup ∧ (∀ d, d ∈ ds ↔ InStore m.toStore (.decryption d) ∧ d.tx.id.electionId = election.electionId) ∧
      (∀ name, printResults winners m election = .ok name → 0 < firstChoices name ds ∧ ∀ c, firstChoices c ds ≤ firstChoices name ds) ∧
      ∀ name, (∀ d ∈ ds, d.tx.decryptedVote ≠ []) → 0 < firstChoices name ds → (∀ c, c ≠ name → firstChoices c ds < firstChoices name ds) →
        printResults winners m election = .ok name := by
  obtain ⟨ds, hnd, hmem, hgood, hbad, -⟩ := C60_printed_tally_partial E txs m h election
  refine ⟨ds, hnd, hmem, ?_, ?_⟩
  · intro name hp
    by_cases hne : ∃ d ∈ ds, d.tx.decryptedVote = []
    · obtain ⟨p, hpp⟩ := hbad hne
      unfold printResults at hp
      rw [hpp] at hp
      cases hp
    · obtain ⟨totals, ht, -, hn⟩ := hgood fun d hd he => hne ⟨d, hd, he⟩
      unfold printResults at hp
      rw [ht, Res.ok_bind] at hp
      cases hh : winners totals with
      | nil => rw [hh] at hp; cases hp
      | cons x xs =>
        rw [hh] at hp
        cases hp
        obtain ⟨n, h1, h2⟩ := (hw totals).2 name (by rw [hh]; simp)
        obtain ⟨h3, rfl⟩ := (hn _ _).1 h1
        refine ⟨h3, fun c => ?_⟩
        by_cases hc : firstChoices c ds = 0
        · omega
        · exact h2 c _ ((hn _ _).2 ⟨by omega, rfl⟩)
  · intro name hne hpos htop
    obtain ⟨totals, ht, -, hn⟩ := hgood hne
    unfold printResults
    rw [ht, Res.ok_bind]
    have hin := (hn name _).2 ⟨hpos, rfl⟩
    cases hh : winners totals with
    | nil => rw [(hw totals).1.1 hh] at hin; cases hin
    | cons x xs =>
      obtain ⟨n, h1, h2⟩ := (hw totals).2 x (by rw [hh]; simp)
      obtain ⟨-, rfl⟩ := (hn _ _).1 h1
      by_cases hx : x = name
      · rw [hx]; rfl
      · have := htop x hx
        have := h2 _ _ hin
        omega

/-- the candidates that nobody has more votes than -/
def topCandidates (totals : List (Str × Nat)) : List Str := (totals.filter fun p => totals.all fun q => q.2 ≤ p.2).map Prod.fst

theorem topCandidates_picks : PicksTop topCandidates := by
  intro totals
  refine ⟨⟨fun h => ?_, fun h => by rw [h]; rfl⟩, ?_⟩
  · by_contra hne
    obtain ⟨p, hp, hmax⟩ : ∃ p ∈ totals, ∀ q ∈ totals, q.2 ≤ p.2 := by
      clear h
      induction totals with
      | nil => exact absurd rfl hne
      | cons a r ih =>
        by_cases hr : r = []
        · subst hr
          exact ⟨a, by simp, by simp⟩
        · obtain ⟨p, hp, hq⟩ := ih hr
          by_cases hle : a.2 ≤ p.2
          · exact ⟨p, by simp [hp], fun q hm => by
              rcases List.mem_cons.1 hm with rfl | hm
              · exact hle
              · exact hq q hm⟩
          · exact ⟨a, by simp, fun q hm => by
              rcases List.mem_cons.1 hm with rfl | hm
              · exact Nat.le_refl _
              · have := hq q hm; omega⟩
    have : p.1 ∈ topCandidates totals := List.mem_map.2 ⟨p, List.mem_filter.2 ⟨hp, by rw [List.all_eq_true]; intro q hm; exact decide_eq_true (hmax q hm)⟩, rfl⟩
    rw [h] at this
    cases this
  · intro c hc
    obtain ⟨⟨c', n⟩, hp, rfl⟩ := List.mem_map.1 hc
    obtain ⟨hp, hall⟩ := List.mem_filter.1 hp
    rw [List.all_eq_true] at hall
    exact ⟨n, hp, fun c' n' hm => of_decide_eq_true (hall _ hm)⟩

/-- **C86 is false of the code**: the one winner that is printed need not have more votes than everybody else; a tie is not told. -/
theorem C86_printed_winner_false : ¬ ∀ (E : Env) (txs : List SignedTx) (m : MemStore), verify E txs = .ok m → ∀ (election : Identifier) (winners : List (Str × Nat) → List Str),
    PicksTop winners → ∀ name, printResults winners m election = .ok name →
      ∀ ds : List (Signed DecryptionTx), ds.Nodup → (∀ d, d ∈ ds ↔ InStore m.toStore (.decryption d) ∧ d.tx.id.electionId = election.electionId) →
        ∀ c, c ≠ name → firstChoices c ds < firstChoices name ds := by
  intro h
  have hok : (match verify Toy.env Toy.complete with
      | .ok m => (match printResults topCandidates m Toy.eid, tally m Toy.eid with | .ok n, .ok t => n == str "a" && t == [(str "a", 1), (str "b", 1)] | _, _ => false)
      | _ => false) = true := by decide +kernel
  cases hm : verify Toy.env Toy.complete with
  | err e => rw [hm] at hok; cases hok
  | panic p => rw [hm] at hok; cases hok
  | ok m =>
    rw [hm] at hok
    dsimp only at hok
    cases hp : printResults topCandidates m Toy.eid with
    | err e => rw [hp] at hok; cases hok
    | panic p => rw [hp] at hok; cases hok
    | ok n =>
      cases ht : tally m Toy.eid with
      | err e => rw [hp, ht] at hok; cases hok
      | panic p => rw [hp, ht] at hok; cases hok
      | ok t =>
        rw [hp, ht] at hok
        simp only [Bool.and_eq_true, beq_iff_eq] at hok
        obtain ⟨rfl, rfl⟩ := hok
        obtain ⟨ds, hnd, hmem, hgood, hbad, -⟩ := C60_printed_tally_partial _ _ m hm Toy.eid
        by_cases hne : ∃ d ∈ ds, d.tx.decryptedVote = []
        · obtain ⟨p, hpp⟩ := hbad hne
          rw [hpp] at ht
          cases ht
        · obtain ⟨totals, ht', -, hn⟩ := hgood fun d hd he => hne ⟨d, hd, he⟩
          rw [ht] at ht'
          cases ht'
          have ha := ((hn (str "a") 1).1 (by simp)).2
          have hb := ((hn (str "b") 1).1 (by simp)).2
          have := h _ _ m hm Toy.eid topCandidates topCandidates_picks _ hp ds hnd hmem (str "b") (by decide +kernel)
          omega

/-- the sample election is verified, its votes and a winner are printed -/
example : PicksTop topCandidates ∧
    (match verify Toy.env Toy.complete with
      | .ok m => (match printResults topCandidates m Toy.eid, printVotes m Toy.eid with | .ok n, .ok l => n == str "a" && l == [(0, str "a"), (0, str "b")] | _, _ => false)
      | _ => false) = true := ⟨topCandidates_picks, by decide +kernel⟩

end E2e
end CB
