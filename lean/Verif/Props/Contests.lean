import Verif.Spec.Contests
import Verif.Props.Report
import Verif.Props.Tally
import Verif.Lemmas.Network
/-!
# C92: what is printed and the contests of the election
-/

namespace CB
open Spec

namespace Toy

/-- a contest with candidates `yes` and `no` and without write-ins -/
def contest (index : UInt32) (ct : ContestType) : Contest := ⟨str "c", index, ct, 1, false, [⟨str "yes", .empty⟩, ⟨str "no", .empty⟩], .empty⟩

/-- the election without mixnet, with these contests -/
def contested (cs : List Contest) : ElectionTx := { election none with contests := cs }

/-- a selection in the clear -/
def open1 (s : Selection) : Ciphertext := ⟨Selection.encode s⟩

/-- both partial decryptions and the decryption of the only vote in a contest -/
def opened (c : UInt32) (ss : List Selection) : List SignedTx :=
  [.partialDecryption ⟨PartialDecryptionTx.new eid (VoteTx.buildId eid (key 31)) 0 1 c (key 11) (ss.map fun s => ⟨(open1 s).raw⟩), sig 11⟩,
   .partialDecryption ⟨PartialDecryptionTx.new eid (VoteTx.buildId eid (key 31)) 0 2 c (key 12) (ss.map fun s => ⟨(open1 s).raw⟩), sig 12⟩,
   .decryption ⟨⟨DecryptionTx.buildId eid (VoteTx.buildId eid (key 31)) c 0, eid, VoteTx.buildId eid (key 31), 0, c, [1, 2], ss⟩, sig 0⟩]

/-- an election with one voter and what they chose in each contest -/
def oneVoter (cs : List Contest) (choices : List (UInt32 × List Selection)) : List SignedTx :=
  .election ⟨contested cs, sig 1⟩ :: (setup none).tail ++
    [.vote ⟨vote (key 31) [auth 21 (key 31)] (choices.map fun x => ⟨x.1, x.2.map open1⟩), sig 31⟩, endTx] ++ choices.flatMap fun x => opened x.1 x.2

/-- two points for `yes`, five for `no` -/
def scored : List SignedTx := oneVoter [contest 0 .score] [(0, [⟨false, 2, str "yes"⟩, ⟨false, 5, str "no"⟩])]
/-- `yes` in both contests -/
def twoContests : List SignedTx := oneVoter [contest 0 .plurality, contest 1 .plurality] [(0, [sel "yes"]), (1, [sel "yes"])]
/-- somebody who is not a candidate -/
def stranger : List SignedTx := oneVoter [contest 0 .plurality] [(0, [sel "maybe"])]

end Toy

namespace E2e

/-- What the false statements of C92 are about: a list with distinct ids verifies, and the tally of this election is printed. -/
structure Printed (E : Env) (txs : List SignedTx) (m : MemStore) (e : ElectionTx) (totals : List (Str × Nat)) : Prop where
  verified : verify E txs = .ok m
  distinct : (txs.map SignedTx.id).Nodup
  announced : ElectionAt m.toStore e.id e
  printed : tally m e.id = .ok totals

/-- The figure is what the library's tally gives this name in this contest. -/
def FigureOf (txs : List SignedTx) (e : ElectionTx) (c : Contest) (x : Str × Nat) : Prop :=
  ∃ n T, Tally.tally c.contestType (ballots e.id c.index txs) = .ok ⟨n, some T⟩ ∧ x ∈ T

theorem printed_of_check {txs : List SignedTx} {cs : List Contest} {totals : List (Str × Nat)} (hd : (txs.map SignedTx.id).Nodup)
    (h : (match verify Toy.env txs with | .ok m => decide (tally m Toy.eid = .ok totals) | _ => false) = true)
    (hm : txs.head? = some (.election ⟨Toy.contested cs, Toy.sig 1⟩)) : ∃ m, Printed Toy.env txs m (Toy.contested cs) totals := by
  cases hv : verify Toy.env txs with
  | err e => rw [hv] at h; cases h
  | panic p => rw [hv] at h; cases h
  | ok m =>
    rw [hv] at h
    refine ⟨m, hv, hd, ⟨Toy.sig 1, ?_⟩, of_decide_eq_true h⟩
    obtain ⟨-, rfl, -⟩ := (C40_e2e_replays _ _ _).1 hv
    exact (Server.Network.stored_iff_mem hd _).2 (List.mem_of_mem_head? hm)

/-- **C92 is false of the code**: in an election with a single contest, what is printed need not be what the tally of that contest's type gives. -/
theorem C92_counted_by_type_false : ¬ ∀ (E : Env) (txs : List SignedTx) (m : MemStore) (e : ElectionTx) (totals : List (Str × Nat)), Printed E txs m e totals →
    ∀ c, e.contests = [c] → ∀ x ∈ totals, FigureOf txs e c x := by
  intro h
  obtain ⟨m, hm⟩ := printed_of_check (txs := Toy.scored) (cs := [Toy.contest 0 .score]) (totals := [(str "yes", 1)]) (by decide +kernel) (by decide +kernel) rfl
  obtain ⟨n, T, hT, hx⟩ := h _ _ m _ _ hm _ rfl (str "yes", 1) (by simp)
  have ht : Tally.tally .score (ballots Toy.eid 0 Toy.scored) = .ok ⟨1, some [(str "yes", 2), (str "no", 5)]⟩ := by decide +kernel
  have hT : Tally.tally .score (ballots Toy.eid 0 Toy.scored) = .ok ⟨n, some T⟩ := hT
  rw [ht] at hT
  cases hT
  revert hx
  decide +kernel

/-- **C92 is false of the code**: if all contests are plurality contests, a printed figure need not be one of any contest; the figures of the contests are added up. -/
theorem C92_contests_apart_false : ¬ ∀ (E : Env) (txs : List SignedTx) (m : MemStore) (e : ElectionTx) (totals : List (Str × Nat)), Printed E txs m e totals →
    (∀ c ∈ e.contests, c.contestType = .plurality) → ∀ x ∈ totals, ∃ c ∈ e.contests, FigureOf txs e c x := by
  intro h
  obtain ⟨m, hm⟩ := printed_of_check (txs := Toy.twoContests) (cs := [Toy.contest 0 .plurality, Toy.contest 1 .plurality]) (totals := [(str "yes", 2)])
    (by decide +kernel) (by decide +kernel) rfl
  obtain ⟨c, hc, n, T, hT, hx⟩ := h _ _ m _ _ hm (by rintro c hc; rcases List.mem_pair.1 hc with rfl | rfl <;> rfl) (str "yes", 2) (by simp)
  have ht : ∀ i, i = 0 ∨ i = 1 → Tally.tally .plurality (ballots Toy.eid i Toy.twoContests) = .ok ⟨1, some [(str "yes", 1)]⟩ := by
    rintro i (rfl | rfl) <;> decide +kernel
  have hT : Tally.tally .plurality (ballots Toy.eid c.index Toy.twoContests) = .ok ⟨n, some T⟩ := by rcases List.mem_pair.1 hc with rfl | rfl <;> exact hT
  rw [ht c.index (by rcases List.mem_pair.1 hc with rfl | rfl <;> decide)] at hT
  cases hT
  revert hx
  decide +kernel

/-- **C92 is false of the code**: names that are no candidates are counted although the contest does not allow write-ins. -/
theorem C92_only_candidates_false : ¬ ∀ (E : Env) (txs : List SignedTx) (m : MemStore) (e : ElectionTx) (totals : List (Str × Nat)), Printed E txs m e totals →
    ∀ c, e.contests = [c] → c.writeIn = false → ∀ x ∈ totals, ∃ k ∈ c.candidates, k.id = x.1 := by
  intro h
  obtain ⟨m, hm⟩ := printed_of_check (txs := Toy.stranger) (cs := [Toy.contest 0 .plurality]) (totals := [(str "maybe", 1)]) (by decide +kernel) (by decide +kernel) rfl
  obtain ⟨k, hk, hx⟩ := h _ _ m _ _ hm _ rfl rfl (str "maybe", 1) (by simp)
  have : ∀ k ∈ (Toy.contest 0 .plurality).candidates, k.id ≠ str "maybe" := by
    intro k hk
    rcases List.mem_pair.1 hk with rfl | rfl <;> decide +kernel
  exact this k hk hx

theorem ballots_single (election : Identifier) (contest : UInt32) (txs : List SignedTx)
    (honly : ∀ d, SignedTx.decryption d ∈ txs → d.tx.id.electionId = election.electionId → d.tx.contestIndex = contest ∧ ∃ s, d.tx.decryptedVote = [s]) :
    ∃ ds : List (Signed DecryptionTx), (∀ d, d ∈ ds ↔ SignedTx.decryption d ∈ txs ∧ d.tx.id.electionId = election.electionId) ∧
      ((txs.map SignedTx.id).Nodup → ds.Nodup) ∧ ballots election contest txs = ds.map fun d => d.tx.decryptedVote := by
  induction txs with
  | nil => exact ⟨[], by simp, by simp, rfl⟩
  | cons t ts ih =>
    obtain ⟨ds, h1, h2, h3⟩ := ih fun d hd => honly d (List.mem_cons_of_mem _ hd)
    by_cases hx : ∃ d, t = .decryption d ∧ d.tx.id.electionId = election.electionId
    · obtain ⟨d, rfl, he⟩ := hx
      refine ⟨d :: ds, fun x => ?_, fun hn => ?_, ?_⟩
      · rw [List.mem_cons, h1, List.mem_cons]
        constructor
        · rintro (rfl | ⟨a, b⟩)
          · exact ⟨.inl rfl, he⟩
          · exact ⟨.inr a, b⟩
        · rintro ⟨a | a, b⟩
          · cases a; exact .inl rfl
          · exact .inr ⟨a, b⟩
      · rw [List.map_cons, List.nodup_cons] at hn
        refine List.nodup_cons.2 ⟨fun hin => hn.1 ?_, h2 hn.2⟩
        exact List.mem_map.2 ⟨_, ((h1 d).1 hin).1, rfl⟩
      · rw [ballots, if_pos ⟨he, (honly d (by simp) he).1⟩, h3, List.map_cons]
    · refine ⟨ds, fun x => ?_, fun hn => h2 (List.nodup_cons.1 (by simpa using hn)).2, ?_⟩
      · rw [h1, List.mem_cons]
        constructor
        · rintro ⟨a, b⟩; exact ⟨.inr a, b⟩
        · rintro ⟨a | a, b⟩
          · exact absurd ⟨x, a.symm, b⟩ hx
          · exact ⟨a, b⟩
      · rw [← h3]
        cases t <;> try rfl
        rename_i d
        rw [ballots, if_neg fun hc => hx ⟨d, rfl, hc.1⟩]

theorem named_first {ds : List (Signed DecryptionTx)} (hs : ∀ d ∈ ds, ∃ s, d.tx.decryptedVote = [s]) (c : Str) :
    timesNamed c (ds.map fun d => d.tx.decryptedVote) = firstChoices c ds ∧ (Named c (ds.map fun d => d.tx.decryptedVote) ↔ 0 < firstChoices c ds) := by
  induction ds with
  | nil => exact ⟨rfl, by simp [Named, firstChoices]⟩
  | cons d ds ih =>
    obtain ⟨h1, h2⟩ := ih fun x hx => hs x (List.mem_cons_of_mem _ hx)
    obtain ⟨s, hd⟩ := hs d (by simp)
    by_cases hc : s.selection = c
    · constructor
      · simp only [List.map_cons, timesNamed, h1, hd]
        simp [firstChoices, hd, hc]
        omega
      · refine ⟨fun _ => by simp [firstChoices, hd, hc], fun _ => ⟨[s], by simp [hd], s, by simp, hc⟩⟩
    · constructor
      · simp only [List.map_cons, timesNamed, h1, hd]
        simp [firstChoices, hd, hc]
      · have : firstChoices c (d :: ds) = firstChoices c ds := by simp [firstChoices, hd, hc]
        rw [this, ← h2]
        simp only [Named, List.map_cons, List.mem_cons, hd]
        constructor
        · rintro ⟨b, rfl | hb, s', hs', he⟩
          · rw [List.mem_singleton] at hs'
            subst hs'
            exact absurd he hc
          · exact ⟨b, hb, s', hs', he⟩
        · rintro ⟨b, hb, x⟩
          exact ⟨b, .inr hb, x⟩

/-- **C92 (partial)** If all decryptions of an election are of one contest and have one selection each, what is printed is, up to order, what the library's tally gives for
the decrypted ballots of that contest if it is a plurality contest, and the number of ballots is that of the decryptions.
Missing: other contest types, several contests, several selections; see the false statements. -/
theorem C92_printed_is_the_contest_partial (E : Env) (txs : List SignedTx) (m : MemStore) (h : verify E txs = .ok m) (hd : (txs.map SignedTx.id).Nodup)
    (election : Identifier) (contest : UInt32)
    (honly : ∀ d, SignedTx.decryption d ∈ txs → d.tx.id.electionId = election.electionId → d.tx.contestIndex = contest ∧ ∃ s, d.tx.decryptedVote = [s]) :
    ∃ totals T, tally m election = .ok totals ∧ totals.Perm T ∧
      Tally.tally .plurality (ballots election contest txs) = .ok ⟨(ballots election contest txs).length, some T⟩ := by
  obtain ⟨ds, hnd, hmem, hgood, -⟩ := C60_printed_tally_partial E txs m h election
  obtain ⟨ds', hmem', hnd', hb⟩ := ballots_single election contest txs honly
  obtain ⟨-, rfl, -⟩ := (C40_e2e_replays _ _ _).1 h
  have hp : ds.Perm ds' := (List.perm_ext_iff_of_nodup hnd (hnd' hd)).2 fun d => by
    rw [hmem, hmem']
    exact and_congr_left fun _ => Server.Network.stored_iff_mem hd (.decryption d)
  have hs' : ∀ d ∈ ds', ∃ s, d.tx.decryptedVote = [s] := fun d hd' => (honly d ((hmem' d).1 hd').1 ((hmem' d).1 hd').2).2
  obtain ⟨totals, h1, h2, h3⟩ := hgood fun d hd' he => by
    obtain ⟨s, hs⟩ := hs' d (hp.mem_iff.1 hd')
    rw [hs] at he
    cases he
  obtain ⟨T, t1, t2, t3⟩ := Tally.C52_plurality_counts (ballots election contest txs)
  refine ⟨totals, T, h1, ?_, t1⟩
  refine (List.perm_ext_iff_of_nodup (List.Nodup.of_map _ h2) (List.Nodup.of_map _ t2)).2 fun x => ?_
  obtain ⟨c, n⟩ := x
  have hf : firstChoices c ds = firstChoices c ds' := (hp.filter _).length_eq
  rw [h3, t3, hb, (named_first hs' c).1, (named_first hs' c).2, hf]
  constructor
  · rintro ⟨a, rfl⟩; exact ⟨a, rfl⟩
  · rintro ⟨a, rfl⟩; exact ⟨a, rfl⟩

/-- the sample election meets the hypotheses; so does that with a vote for a stranger -/
example : (match verify Toy.env Toy.complete with | .ok _ => true | _ => false) = true ∧ (Toy.complete.map SignedTx.id).Nodup ∧
    Toy.complete.all (fun t => match t with | .decryption d => d.tx.contestIndex == 0 && d.tx.decryptedVote.length == 1 | _ => true) = true ∧
    ballots Toy.eid 0 Toy.complete = [[Toy.sel "a"], [Toy.sel "b"]] := by decide +kernel

end E2e
end CB
