import Verif.Model.E2e
import Verif.Props.Robust
import Verif.Props.Stores
import Verif.Lemmas.Tally
import Mathlib.Data.List.Nodup
import Mathlib.Data.List.Induction
/-!
# C40, C41, C60: end-to-end verification
-/

namespace CB
open Spec
namespace E2e

/-! ## C40 -/

theorem replay_ok {E : Env} {txs : List SignedTx} {m m' : MemStore} :
    replay E m txs = .ok m' ↔ m' = txs.foldl MemStore.set m ∧
      ∀ before t after, txs = before ++ t :: after → t.validate E (before.foldl MemStore.set m).toStore = .ok () := by
  induction txs generalizing m with
  | nil => simp [replay, eq_comm]
  | cons x xs ih =>
    simp only [replay, Res.bind_eq_ok, Res.mapErr_eq_ok, Res.exists_unit, ih, List.foldl_cons]
    constructor
    · rintro ⟨h1, h2, h3⟩
      refine ⟨h2, fun b t a hb => ?_⟩
      cases b with
      | nil =>
        simp only [List.nil_append, List.cons.injEq] at hb
        rw [← hb.1]; exact h1
      | cons y ys =>
        simp only [List.cons_append, List.cons.injEq] at hb
        rw [← hb.1]
        exact h3 ys t a hb.2
    · rintro ⟨h2, h3⟩
      exact ⟨h3 [] x xs rfl, h2, fun b t a hb => h3 (x :: b) t a (by rw [hb]; rfl)⟩

/-- **C40** The command reports success exactly when the list starts with an election and every transaction in it is accepted against the ones before it; the
resulting store then holds exactly the listed transactions. -/
theorem C40_e2e_replays (E : Env) (txs : List SignedTx) (m : MemStore) :
    verify E txs = .ok m ↔
      (∃ e rest, txs = .election e :: rest) ∧ m = MemStore.ofList txs ∧
      ∀ before t after, txs = before ++ t :: after → t.validate E (MemStore.ofList before).toStore = .ok () := by
  cases txs with
  | nil => simp [verify]
  | cons x xs =>
    simp only [verify, Res.bind_eq_ok, Res.exists_unit, Res.failIf_eq_ok, bne_eq_false_iff_eq, replay_ok]
    have hx : x.transactionType = .election ↔ ∃ e rest, x :: xs = SignedTx.election e :: rest := by
      cases x <;> simp [SignedTx.transactionType]
    rw [hx]
    rfl

theorem replay_of_verify {E : Env} {txs : List SignedTx} {m : MemStore} (h : verify E txs = .ok m) : Replay E m := by
  obtain ⟨_, rfl, hv⟩ := (C40_e2e_replays E txs m).1 h
  suffices ∀ (xs : List SignedTx), (∃ ys, txs = xs ++ ys) → Replay E (MemStore.ofList xs) from this txs ⟨[], by simp⟩
  intro xs
  induction xs using List.reverseRecOn with
  | nil => exact fun _ => .empty
  | append_singleton xs x ih =>
    rintro ⟨ys, hy⟩
    rw [(C06_memstore_is_map xs).2.2.1]
    exact .set (ih ⟨x :: ys, by simp [hy]⟩) (hv xs x ys (by simp [hy]))

/-- With pairwise distinct ids, as the server's answer has, a verified list is an append-only ledger. -/
theorem ledger_of_verify {E : Env} {txs : List SignedTx} {m : MemStore} (h : verify E txs = .ok m) (hd : (txs.map SignedTx.id).Nodup) : Ledger E m := by
  obtain ⟨_, rfl, hv⟩ := (C40_e2e_replays E txs m).1 h
  suffices ∀ (xs : List SignedTx), (∃ ys, txs = xs ++ ys) → Ledger E (MemStore.ofList xs) from this txs ⟨[], by simp⟩
  intro xs
  induction xs using List.reverseRecOn with
  | nil => exact fun _ => .empty
  | append_singleton xs x ih =>
    rintro ⟨ys, hy⟩
    rw [(C06_memstore_is_map xs).2.2.1]
    refine .append (ih ⟨x :: ys, by simp [hy]⟩) ?_ (hv xs x ys (by simp [hy]))
    rw [(C06_memstore_is_map xs).2.1]
    intro t ht heq
    rw [hy] at hd
    simp only [List.map_append, List.map_cons, List.append_assoc, List.nodup_append, List.mem_map] at hd
    exact hd.2.2 t.id ⟨t, ht, rfl⟩ x.id (by simp) heq

/-- the sample election verifies, and does not when a transaction is missing -/
example : (match verify Toy.env Toy.complete with | .ok _ => true | _ => false) = true ∧
    (match verify Toy.env (Toy.complete.eraseIdx 5) with | .err (.invalid _ e) => some e | _ => none) = some .wrongNumberOfPublicKeyTransactions := by
  decide +kernel

/-! ## C41 -/

/-- **C41 (false)** The command reports success for an election whose votes have not been decrypted at all. -/
theorem C41_verified_is_counted_false :
    ¬ ∀ (E : Env) (txs : List SignedTx) (m : MemStore), verify E txs = .ok m → (txs.map SignedTx.id).Nodup →
      (∃ v, InStore m.toStore (.vote v)) → ∃ d, InStore m.toStore (.decryption d) := by
  intro h
  have hok : ∃ m, verify Toy.env (Toy.complete.take 13) = .ok m := by
    have : (match verify Toy.env (Toy.complete.take 13) with | .ok _ => true | _ => false) = true := by decide +kernel
    split at this
    · exact ⟨_, by assumption⟩
    · cases this
  obtain ⟨m, hm⟩ := hok
  have hm' := ((C40_e2e_replays _ _ _).1 hm).2.1
  subst hm'
  have hv : (MemStore.ofList (Toy.complete.take 13)).getTransaction (Toy.voteTx 31 "a").id = some (Toy.voteTx 31 "a") := by rfl
  obtain ⟨d, hd⟩ := h Toy.env _ _ hm (by decide +kernel)
    ⟨⟨Toy.vote (Toy.key 31) [Toy.auth 21 (Toy.key 31)] [⟨0, [Toy.ct "a"]⟩], Toy.sig 31⟩, hv⟩
  have hst := ((C06_memstore_is_map (Toy.complete.take 13)).1 _ _).1 (show (MemStore.ofList (Toy.complete.take 13)).getTransaction (SignedTx.decryption d).id = _ from hd)
  have hmem : SignedTx.decryption d ∈ Toy.complete.take 13 := by
    obtain ⟨b, a, hb, _⟩ := hst.2
    rw [hb]; simp
  have hall : (Toy.complete.take 13).all (fun t => t.transactionType != .decryption) = true := by decide +kernel
  have := List.all_eq_true.1 hall _ hmem
  simp [SignedTx.transactionType] at this

/-- **C41 (partial)** In a verified list with distinct ids, every decryption decrypts an item of its contest that is there (a stored vote, or an output of a stored mix),
with one selection per ciphertext; and no item of a contest is decrypted twice: two decryptions of the same item of an election are the same transaction.
Missing: that every vote is decrypted, and that only final mixes are. -/
theorem C41_verified_is_counted_partial (E : Env) (txs : List SignedTx) (m : MemStore) (h : verify E txs = .ok m) (hd : (txs.map SignedTx.id).Nodup) :
    (∀ d, SignedTx.decryption d ∈ txs → ∃ e cts, ElectionAt m.toStore d.tx.electionId e ∧
      ItemAt m.toStore d.tx.upstreamId d.tx.upstreamIndex d.tx.contestIndex e.mixConfig cts ∧ d.tx.decryptedVote.length = cts.length) ∧
    ∀ d d', SignedTx.decryption d ∈ txs → SignedTx.decryption d' ∈ txs → d.tx.electionId = d'.tx.electionId → d.tx.upstreamId = d'.tx.upstreamId →
      d.tx.upstreamIndex = d'.tx.upstreamIndex → d.tx.contestIndex = d'.tx.contestIndex → d = d' := by
  have hl := ledger_of_verify h hd
  obtain ⟨_, rfl, _⟩ := (C40_e2e_replays E txs m).1 h
  have stored : ∀ t ∈ txs, (MemStore.ofList txs).getTransaction t.id = some t := by
    intro t ht
    refine ((C06_memstore_is_map txs).1 _ _).2 ⟨rfl, ?_⟩
    obtain ⟨b, a, rfl⟩ := List.append_of_mem ht
    refine ⟨b, a, rfl, fun u hu heq => ?_⟩
    rw [List.map_append, List.map_cons, List.nodup_append] at hd
    exact (List.nodup_cons.1 hd.2.1).1 (List.mem_map.2 ⟨u, hu, heq⟩)
  constructor
  · intro d hdm
    obtain ⟨m0, hm0, hfresh, hv, hsteps⟩ := hl.accepted (stored _ hdm)
    have hext : Extends m0 (MemStore.ofList txs) := (Extends.set_fresh hfresh).trans hsteps.extends
    obtain ⟨_, e, cts, ⟨sg, he⟩, hi, _, _, hlen, _⟩ := C30_decryption_is_threshold_decryption_partial E m0 hm0.replay d.tx d.sig hv
    exact ⟨e, cts, ⟨sg, hext _ _ he⟩, itemAt_extends hext hi, hlen⟩
  · intro d d' h1 h2 e1 e2 e3 e4
    have hid : ∀ x, SignedTx.decryption x ∈ txs → x.tx.id = DecryptionTx.buildId x.tx.electionId x.tx.upstreamId x.tx.contestIndex x.tx.upstreamIndex := by
      intro x hx
      obtain ⟨m0, hm0, hv⟩ := hl.replay.accepted (stored _ hx)
      exact (C30_decryption_is_threshold_decryption_partial E m0 hm0 x.tx x.sig hv).1
    have g1 := stored _ h1
    have g2 := stored _ h2
    have heq : (SignedTx.decryption d).id = (SignedTx.decryption d').id := by
      show d.tx.id = d'.tx.id
      rw [hid d h1, hid d' h2, e1, e2, e3, e4]
    rw [heq, g2] at g1
    cases g1
    rfl

example : (match verify Toy.env Toy.complete with | .ok _ => true | _ => false) = true ∧ (Toy.complete.map SignedTx.id).Nodup ∧
    (Toy.complete.filter fun t => t.transactionType == .decryption).length = 2 := by decide +kernel

/-! ## C60 -/

/-- **C60 (false)** Printing the tally of an election the command has just verified can crash: a decrypted vote may be empty. -/
theorem C60_printed_tally_false :
    ¬ ∀ (E : Env) (txs : List SignedTx) (m : MemStore), verify E txs = .ok m → ∀ election p, tally m election ≠ .panic p := by
  intro h
  let txs := emptyVoteLedger ++ [SignedTx.decryption ⟨⟨DecryptionTx.buildId Toy.eid (VoteTx.buildId Toy.eid (Toy.key 31)) 0 0, Toy.eid,
    VoteTx.buildId Toy.eid (Toy.key 31), 0, 0, [1, 1], []⟩, Toy.sig 0⟩]
  have hok : (match verify Toy.env txs with | .ok m => (match tally m Toy.eid with | .panic _ => true | _ => false) | _ => false) = true := by
    decide +kernel
  split at hok
  · rename_i m hm
    split at hok
    · exact h _ _ _ hm _ _ (by assumption)
    · cases hok
  · cases hok

theorem intoDecryption_ok {t : SignedTx} {s : Signed DecryptionTx} : t.intoDecryption = .ok s ↔ t = .decryption s := by
  cases t <;> simp [SignedTx.intoDecryption]

/-- How many of the decryptions have this candidate as their first selection. -/
def _root_.CB.Spec.firstChoices (candidate : Str) (ds : List (Signed DecryptionTx)) : Nat :=
  (ds.filter fun d => (d.tx.decryptedVote.head?.map Selection.selection) = some candidate).length

/-- What is assumed of tallystick: the winners of a tally with one seat are candidates that nobody has more votes than; if somebody has votes there is one. -/
def _root_.CB.Spec.PicksTop (winners : List (Str × Nat) → List Str) : Prop :=
  ∀ totals, (winners totals = [] ↔ totals = []) ∧ ∀ c ∈ winners totals, ∃ n, (c, n) ∈ totals ∧ ∀ c' n', (c', n') ∈ totals → n' ≤ n

/-- **C60 (partial)** The exact behaviour on a verified list, where `ds` are the stored decryptions of the election, each once: if none of them is empty, the printed tally lists
each candidate that is the first selection of some decryption, once, with the number of decryptions of which it is the first selection; if some decryption
is empty, it crashes.  Printing the results crashes in addition if there is no decryption.
Missing: further selections of a ballot, and the contest a decryption belongs to, are ignored. -/
theorem C60_printed_tally_partial (E : Env) (txs : List SignedTx) (m : MemStore) (h : verify E txs = .ok m) (election : Identifier) :
    ∃ ds : List (Signed DecryptionTx), ds.Nodup ∧
      (∀ d, d ∈ ds ↔ InStore m.toStore (.decryption d) ∧ d.tx.id.electionId = election.electionId) ∧
      ((∀ d ∈ ds, d.tx.decryptedVote ≠ []) → ∃ totals, tally m election = .ok totals ∧ (totals.map Prod.fst).Nodup ∧
        ∀ c n, (c, n) ∈ totals ↔ 0 < n ∧ n = firstChoices c ds) ∧
      ((∃ d ∈ ds, d.tx.decryptedVote = []) → ∃ p, tally m election = .panic p) ∧
      ∀ winners, PicksTop winners → ((∃ p, printResults winners m election = .panic p) ↔ ds = [] ∨ ∃ d ∈ ds, d.tx.decryptedVote = []) := by
  have hr := replay_of_verify h
  obtain ⟨l, h1, h2, h3⟩ := hr.lawful.getMultiple election .decryption
  have hl : ∃ ds : List (Signed DecryptionTx), l = ds.map .decryption := by
    have hall : ∀ t ∈ l, ∃ d, t = SignedTx.decryption d := by
      intro t ht
      obtain ⟨a, _, c⟩ := (h2 t).1 ht
      have := hr.typed (id := t.id) a
      rw [c] at this
      cases t <;> simp [SignedTx.transactionType] at this ⊢
    clear h1 h2 h3
    induction l with
    | nil => exact ⟨[], rfl⟩
    | cons x xs ih =>
      obtain ⟨d, rfl⟩ := hall x (by simp)
      obtain ⟨ds, rfl⟩ := ih fun t ht => hall t (by simp [ht])
      exact ⟨d :: ds, rfl⟩
  obtain ⟨ds, rfl⟩ := hl
  have hnd : ds.Nodup := by
    have := List.Nodup.of_map _ (idLt_nodup h3)
    exact List.Nodup.of_map _ this
  have hmem : ∀ d, d ∈ ds ↔ InStore m.toStore (.decryption d) ∧ d.tx.id.electionId = election.electionId := by
    intro d
    have := h2 (.decryption d)
    rw [List.mem_map] at this
    constructor
    · intro hd
      obtain ⟨a, b, _⟩ := this.1 ⟨d, hd, rfl⟩
      exact ⟨a, b⟩
    · rintro ⟨a, b⟩
      obtain ⟨d', hd', he⟩ := this.2 ⟨a, b, (hr.typed (id := (SignedTx.decryption d).id) a).symm ▸ rfl⟩
      cases he
      exact hd'
  have htally : tally m election = (Res.mapM' (fun d : SignedTx => d.intoDecryption.bind fun d => Res.unwrap d.tx.decryptedVote.head? .sliceLen)
      (ds.map .decryption)).bind fun ss => .ok (ss.foldl (fun (t : Tally.Totals) s => t.add s.selection 1) []) := by
    unfold tally
    rw [h1]; rfl
  have hgood : (∀ d ∈ ds, d.tx.decryptedVote ≠ []) → ∃ totals, tally m election = .ok totals ∧ (totals.map Prod.fst).Nodup ∧
        (∀ c n, (c, n) ∈ totals ↔ 0 < n ∧ n = firstChoices c ds) ∧ (totals = [] ↔ ds = []) := by
    intro hne
    have hss : ∃ ss : List Selection, ds.map (fun d => d.tx.decryptedVote.head?) = ss.map some := by
      clear htally hmem hnd h1 h2 h3
      induction ds with
      | nil => exact ⟨[], rfl⟩
      | cons d r ih =>
        obtain ⟨ss, hss⟩ := ih fun x hx => hne x (by simp [hx])
        obtain ⟨s, hs⟩ : ∃ s, d.tx.decryptedVote.head? = some s := by
          cases hv : d.tx.decryptedVote with
          | nil => exact absurd hv (hne d (by simp))
          | cons a b => exact ⟨a, rfl⟩
        exact ⟨s :: ss, by simp [hs, hss]⟩
    obtain ⟨ss, hss⟩ := hss
    refine ⟨Tally.count (ss.map fun s => (s.selection, 1)), ?_, Tally.count_nodup _, ?_, ?_⟩
    · rw [htally, Res.bind_eq_ok]
      refine ⟨ss, ?_, ?_⟩
      · rw [Res.mapM'_eq_ok, List.map_map]
        have : (ds.map (fun d => d.tx.decryptedVote.head?)).map (fun o => Res.unwrap (ε := ValErr) o .sliceLen) = ss.map Res.ok := by
          rw [hss, List.map_map]; rfl
        rw [← this, List.map_map]
        rfl
      · unfold Tally.count
        rw [List.foldl_map]
    · intro c n
      rw [Tally.count_mem]
      have hlen : (((ss.map fun s => (s.selection, 1)).filter fun x => x.1 = c).map Prod.snd).sum = firstChoices c ds := by
        have e1 : firstChoices c ds = ((ds.map fun d => d.tx.decryptedVote.head?).filter fun o => o.map Selection.selection = some c).length := by
          unfold firstChoices
          rw [List.filter_map, List.length_map]
          rfl
        rw [e1, hss]
        clear hss e1
        induction ss with
        | nil => rfl
        | cons s r ih =>
          simp only [List.map_cons, List.filter_cons, Option.map_some, Option.some.injEq]
          split
          · simp only [List.map_cons, List.sum_cons, List.length_cons, ih]; omega
          · exact ih
      rw [hlen]
      have hpos : c ∈ (ss.map fun s => (s.selection, 1)).map Prod.fst ↔ 0 < firstChoices c ds := by
        rw [← hlen]
        clear hss hlen
        induction ss with
        | nil => simp
        | cons s r ih =>
          simp only [List.map_cons, List.mem_cons, List.filter_cons, ih]
          split
          · rename_i hc
            simp only [List.map_cons, List.sum_cons]
            have hc : s.selection = c := of_decide_eq_true hc
            constructor
            · intro _; omega
            · intro _; exact .inl hc.symm
          · rename_i hc
            constructor
            · rintro (h | h)
              · exact absurd (decide_eq_true h.symm) hc
              · exact h
            · exact .inr
      rw [hpos]
      constructor
      · rintro ⟨a, rfl⟩; exact ⟨a, rfl⟩
      · rintro ⟨a, rfl⟩; exact ⟨a, rfl⟩
    · have hk := Tally.count_keys (ss.map fun s => (s.selection, 1))
      have hl2 : ds.length = ss.length := by simpa using congrArg List.length hss
      constructor
      · intro h0
        rw [h0] at hk
        cases ss with
        | nil => exact List.length_eq_zero_iff.1 (by simpa using hl2)
        | cons s r => exact absurd ((hk s.selection).2 (by simp)) (by simp)
      · intro h0
        rw [h0] at hl2
        have : ss = [] := List.length_eq_zero_iff.1 hl2.symm
        rw [this]; rfl
  have hbad : (∃ d ∈ ds, d.tx.decryptedVote = []) → ∃ p, tally m election = .panic p := by
    rintro ⟨d, hd, he⟩
    rw [htally]
    have hf : ∀ x : Signed DecryptionTx, (fun d : SignedTx => d.intoDecryption.bind fun d => Res.unwrap (ε := ValErr) d.tx.decryptedVote.head? .sliceLen) (.decryption x)
        = Res.unwrap x.tx.decryptedVote.head? .sliceLen := fun _ => rfl
    generalize (fun d : SignedTx => d.intoDecryption.bind fun d => Res.unwrap (ε := ValErr) d.tx.decryptedVote.head? .sliceLen) = f at hf ⊢
    clear htally hmem hnd h1 h2 h3 hgood
    have key : ∃ p, Res.mapM' f (ds.map .decryption) = .panic p := by
      induction ds with
      | nil => cases hd
      | cons x xs ih =>
        simp only [List.map_cons, Res.mapM', hf]
        cases hx : x.tx.decryptedVote with
        | nil => exact ⟨.sliceLen, rfl⟩
        | cons a b =>
          have hd' : d ∈ xs := by
            rcases List.mem_cons.1 hd with rfl | h
            · rw [hx] at he; cases he
            · exact h
          obtain ⟨p, hp⟩ := ih hd'
          exact ⟨p, by rw [hp]; rfl⟩
    obtain ⟨p, hp⟩ := key
    exact ⟨p, by rw [hp]; rfl⟩
  refine ⟨ds, hnd, hmem, ?_, hbad, ?_⟩
  · intro hne
    obtain ⟨t, a, b, c, _⟩ := hgood hne
    exact ⟨t, a, b, c⟩
  · intro winners hw
    unfold printResults
    by_cases hne : ∃ d ∈ ds, d.tx.decryptedVote = []
    · obtain ⟨p, hp⟩ := hbad hne
      rw [hp]
      exact ⟨fun _ => .inr hne, fun _ => ⟨p, rfl⟩⟩
    · obtain ⟨t, ht, _, _, hz⟩ := hgood fun d hd he => hne ⟨d, hd, he⟩
      rw [ht, Res.ok_bind]
      cases hh : winners t with
      | nil => exact ⟨fun _ => .inl (hz.1 ((hw t).1.1 hh)), fun _ => ⟨_, rfl⟩⟩
      | cons c cs =>
        constructor
        · rintro ⟨p, hp⟩; cases hp
        · rintro (h' | h')
          · rw [(hw t).1.2 (hz.2 h')] at hh
            cases hh
          · exact absurd h' hne

/-- the tally of the sample election -/
example : (match verify Toy.env Toy.complete with | .ok m => some (tally m Toy.eid) | _ => none) = some (.ok [(str "a", 1), (str "b", 1)]) := by
  decide +kernel

end E2e
end CB
