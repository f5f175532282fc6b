import Verif.Lemmas.NetStore
import Verif.Props.ServerMix
/-!
# Where nodes file what they submit
-/

namespace CB
open Spec Server

namespace Setup

/-- which kinds nodes submit in reaction to which -/
def follows : List (TxType × TxType) :=
  [(.election, .keyGenCommitment), (.keyGenCommitment, .keyGenShare), (.keyGenShare, .keyGenPublicKey), (.keyGenPublicKey, .encryptionKey),
   (.votingEnd, .mix), (.votingEnd, .partialDecryption), (.mix, .mix), (.mix, .partialDecryption), (.partialDecryption, .decryption)]

theorem producePartials_filed {N : NodeEnv} {rng : Rng} {k : SecretKey} {S : Store} {e : ElectionTx} {tr : Trustee} {c : UInt32} {mt : Option MixTx}
    {l : List SignedTx} (h : producePartials N rng k S e tr c mt = .ok l) : ∀ x ∈ l, kindOf x = .partialDecryption ∧ x.id.electionId = e.id.electionId := by
  simp only [producePartials, Res.bind_def, Res.bind_eq_ok] at h
  obtain ⟨_, _, _, _, _, _, items, _, h⟩ := h
  obtain ⟨h1, h2⟩ := partialsFrom_spec h
  intro x hx
  obtain ⟨i, hi, rfl⟩ := List.mem_iff_getElem.1 hx
  obtain ⟨⟨up, n, c, cts⟩, hit⟩ : ∃ y, items[i]? = some y := ⟨_, List.getElem?_eq_getElem (by omega)⟩
  obtain ⟨ds, _, hl⟩ := h2 i up n c cts hit
  rw [List.getElem?_eq_getElem hi] at hl
  rw [Option.some.inj hl]
  exact ⟨rfl, rfl⟩

theorem firstMixes_filed {N : NodeEnv} {rng : Rng} {k : SecretKey} {e : ElectionTx} {tr : Trustee} {key : ElGamalKey}
    {cv : List (UInt32 × List (Identifier × List Ciphertext))} {n : Nat} {l : List SignedTx} (h : firstMixes N rng k e tr key n cv = .ok l) :
    ∀ x ∈ l, kindOf x = .mix ∧ x.id.electionId = e.id.electionId := by
  obtain ⟨h1, h2⟩ := firstMixes_mem h
  intro x hx
  obtain ⟨i, hi, rfl⟩ := List.mem_iff_getElem.1 hx
  obtain ⟨⟨c, vs⟩, hit⟩ : ∃ y, cv[i]? = some y := ⟨_, List.getElem?_eq_getElem (by omega)⟩
  obtain ⟨r, out, proof, _, hl⟩ := h2 i c vs hit
  rw [List.getElem?_eq_getElem hi] at hl
  rw [Option.some.inj hl]
  exact ⟨rfl, rfl⟩

/-- Whatever a node submits in reaction to `x` is filed under the election that `x` names, which is stored. -/
theorem emitted {N : NodeEnv} {rng : Rng} {k : SecretKey} {S : Store} (hS : Lawful S) {x : SignedTx} (hx : InStore S x) {l : List SignedTx}
    (h : generateTransactions N rng k S x = .ok l) {d : SignedTx} (hd : d ∈ l) :
    (∃ e, ElectionAt S (electionOf x) e) ∧ d.id.electionId = (electionOf x).electionId ∧ (kindOf x, kindOf d) ∈ follows := by
  have hel : ∀ {id : Identifier} {s : Signed ElectionTx}, S.getElection id = .ok s → s.tx.id = id ∧ ∃ e, ElectionAt S id e := by
    intro id s hs
    have : ElectionAt S id s.tx := ⟨s.sig, Store.getElection_ok.1 hs⟩
    exact ⟨electionAt_id hS this, _, this⟩
  cases x with
  | election s =>
    simp only [generateTransactions, processElection] at h
    split at h
    · simp only [Res.bind_def, Res.bind_eq_ok] at h
      obtain ⟨s', hs, h⟩ := h
      cases h
      rw [List.mem_singleton] at hd
      subst hd
      obtain ⟨rfl, -⟩ := sign_ok hs
      exact ⟨⟨s.tx, s.sig, hx⟩, rfl, by simp [follows, kindOf]⟩
    · cases h; cases hd
  | keyGenCommitment s =>
    simp only [generateTransactions, processKeygenCommitment, Res.bind_def, Res.bind_eq_ok, v_eq_ok] at h
    obtain ⟨el, hg, h⟩ := h
    obtain ⟨hid, hex⟩ := hel hg
    split at h
    · simp only [Res.bind_eq_ok] at h
      obtain ⟨cs, -, h⟩ := h
      split at h
      · simp only [Res.bind_eq_ok] at h
        obtain ⟨sh, -, s', hs, h⟩ := h
        cases h
        rw [List.mem_singleton] at hd
        subst hd
        obtain ⟨rfl, -⟩ := sign_ok hs
        exact ⟨hex, by simp only [electionOf]; rw [← hid]; rfl, by simp [follows, kindOf]⟩
      · cases h; cases hd
    · cases h; cases hd
  | keyGenShare s =>
    simp only [generateTransactions, processKeygenShare, Res.bind_def, Res.bind_eq_ok, v_eq_ok] at h
    obtain ⟨el, hg, h⟩ := h
    obtain ⟨hid, hex⟩ := hel hg
    split at h
    · simp only [Res.bind_eq_ok] at h
      obtain ⟨cs, -, h⟩ := h
      split at h
      · cases h; cases hd
      · simp only [Res.bind_eq_ok] at h
        obtain ⟨_, -, _, -, _, -, s', hs, h⟩ := h
        cases h
        rw [List.mem_singleton] at hd
        subst hd
        obtain ⟨rfl, -⟩ := sign_ok hs
        exact ⟨hex, by simp only [electionOf]; rw [← hid]; rfl, by simp [follows, kindOf]⟩
    · cases h; cases hd
  | keyGenPublicKey s =>
    simp only [generateTransactions, processKeygenPublicKey, Res.bind_def, Res.bind_eq_ok, v_eq_ok] at h
    obtain ⟨el, hg, h⟩ := h
    obtain ⟨hid, hex⟩ := hel hg
    split at h
    · simp only [Res.bind_eq_ok] at h
      obtain ⟨cs, -, h⟩ := h
      split at h
      · simp only [Res.bind_eq_ok] at h
        obtain ⟨s', hs, h⟩ := h
        cases h
        rw [List.mem_singleton] at hd
        subst hd
        obtain ⟨rfl, -⟩ := sign_ok hs
        exact ⟨hex, by simp only [electionOf]; rw [← hid]; rfl, by simp [follows, kindOf]⟩
      · cases h; cases hd
    · cases h; cases hd
  | encryptionKey s => cases h; cases hd
  | vote s => cases h; cases hd
  | votingEnd s =>
    simp only [generateTransactions, processVotingEnd, Res.bind_def, Res.bind_eq_ok, v_eq_ok] at h
    obtain ⟨el, hg, h⟩ := h
    obtain ⟨hid, hex⟩ := hel hg
    split at h
    · split at h
      · split at h
        · simp only [Res.bind_eq_ok] at h
          obtain ⟨_, -, _, -, h⟩ := h
          obtain ⟨h1, h2⟩ := firstMixes_filed h d hd
          exact ⟨hex, by simp only [electionOf]; rw [h2, hid], by rw [h1]; simp [follows, kindOf]⟩
        · cases h; cases hd
      · split at h
        · obtain ⟨h1, h2⟩ := producePartials_filed h d hd
          exact ⟨hex, by simp only [electionOf]; rw [h2, hid], by rw [h1]; simp [follows, kindOf]⟩
        · cases h; cases hd
    · cases h; cases hd
  | mix s =>
    simp only [generateTransactions, processMix, Res.bind_def, Res.bind_eq_ok, v_eq_ok] at h
    obtain ⟨el, hg, h⟩ := h
    obtain ⟨hid, hex⟩ := hel hg
    split at h
    · split at h
      · simp only [Res.bind_eq_ok] at h
        obtain ⟨_, -, h⟩ := h
        split at h
        · obtain ⟨h1, h2⟩ := producePartials_filed h d hd
          exact ⟨hex, by simp only [electionOf]; rw [h2, hid], by rw [h1]; simp [follows, kindOf]⟩
        · simp only [Res.bind_eq_ok] at h
          obtain ⟨_, -, h⟩ := h
          split at h
          · simp only [Res.bind_eq_ok] at h
            obtain ⟨_, -, _, -, s', hs, h⟩ := h
            cases h
            rw [List.mem_singleton] at hd
            subst hd
            obtain ⟨rfl, -⟩ := sign_ok hs
            exact ⟨hex, by simp only [electionOf]; rw [← hid]; rfl, by simp [follows, kindOf]⟩
          · cases h; cases hd
      · cases h; cases hd
    · cases h; cases hd
  | partialDecryption s =>
    simp only [generateTransactions, processPartialDecryption, Res.bind_def, Res.bind_eq_ok, v_eq_ok] at h
    obtain ⟨el, hg, h⟩ := h
    obtain ⟨hid, hex⟩ := hel hg
    split at h
    · simp only [Res.bind_eq_ok] at h
      obtain ⟨_, -, h⟩ := h
      split at h
      · simp only [Res.bind_eq_ok] at h
        obtain ⟨_, -, _, -, _, -, _, -, tx, htx, s', hs, h⟩ := h
        cases h
        rw [List.mem_singleton] at hd
        subst hd
        obtain ⟨rfl, -⟩ := sign_ok hs
        unfold DecryptionTx.new at htx
        split at htx
        · cases htx
        · cases htx
          exact ⟨hex, by simp only [electionOf]; rw [← hid]; rfl, by simp [follows, kindOf]⟩
      · cases h; cases hd
    · cases h; cases hd
  | decryption s => cases h; cases hd

/-- Set-up transactions that a node submits name the same election, and the node's own key. -/
theorem emitted_own {N : NodeEnv} {rng : Rng} {k : SecretKey} {S : Store} (hS : Lawful S) {x : SignedTx} (hx : InStore S x) {l : List SignedTx}
    (h : generateTransactions N rng k S x = .ok l) {d : SignedTx} (hd : d ∈ l) (hk : SetupKind (kindOf d)) :
    electionOf d = electionOf x ∧ ∀ i pk, trusteeOf d = some (i, pk) → pk = N.edPublic k := by
  have hfol := (emitted hS hx h hd).2.2
  have hel : ∀ {id : Identifier} {s : Signed ElectionTx}, S.getElection id = .ok s → s.tx.id = id := by
    intro id s hs
    have : ElectionAt S id s.tx := ⟨s.sig, Store.getElection_ok.1 hs⟩
    exact electionAt_id hS this
  cases x with
  | election s =>
    simp only [generateTransactions, processElection] at h
    split at h
    · simp only [Res.bind_def, Res.bind_eq_ok] at h
      obtain ⟨s', hs, h⟩ := h
      cases h
      rw [List.mem_singleton] at hd
      subst hd
      obtain ⟨rfl, hp⟩ := sign_ok hs
      exact ⟨rfl, fun i pk ht => by cases ht; exact hp _ rfl⟩
    · cases h; cases hd
  | keyGenCommitment s =>
    simp only [generateTransactions, processKeygenCommitment, Res.bind_def, Res.bind_eq_ok, v_eq_ok] at h
    obtain ⟨el, hg, h⟩ := h
    have hid := hel hg
    split at h
    · simp only [Res.bind_eq_ok] at h
      obtain ⟨cs, -, h⟩ := h
      split at h
      · simp only [Res.bind_eq_ok] at h
        obtain ⟨sh, -, s', hs, h⟩ := h
        cases h
        rw [List.mem_singleton] at hd
        subst hd
        obtain ⟨rfl, hp⟩ := sign_ok hs
        exact ⟨hid, fun i pk ht => by cases ht; exact hp _ rfl⟩
      · cases h; cases hd
    · cases h; cases hd
  | keyGenShare s =>
    simp only [generateTransactions, processKeygenShare, Res.bind_def, Res.bind_eq_ok, v_eq_ok] at h
    obtain ⟨el, hg, h⟩ := h
    have hid := hel hg
    split at h
    · simp only [Res.bind_eq_ok] at h
      obtain ⟨cs, -, h⟩ := h
      split at h
      · cases h; cases hd
      · simp only [Res.bind_eq_ok] at h
        obtain ⟨_, -, _, -, _, -, s', hs, h⟩ := h
        cases h
        rw [List.mem_singleton] at hd
        subst hd
        obtain ⟨rfl, hp⟩ := sign_ok hs
        exact ⟨hid, fun i pk ht => by cases ht; exact hp _ rfl⟩
    · cases h; cases hd
  | keyGenPublicKey s =>
    simp only [generateTransactions, processKeygenPublicKey, Res.bind_def, Res.bind_eq_ok, v_eq_ok] at h
    obtain ⟨el, hg, h⟩ := h
    have hid := hel hg
    split at h
    · simp only [Res.bind_eq_ok] at h
      obtain ⟨cs, -, h⟩ := h
      split at h
      · simp only [Res.bind_eq_ok] at h
        obtain ⟨s', hs, h⟩ := h
        cases h
        rw [List.mem_singleton] at hd
        subst hd
        obtain ⟨rfl, hp⟩ := sign_ok hs
        exact ⟨hid, fun i pk ht => by cases ht⟩
      · cases h; cases hd
    · cases h; cases hd
  | _ =>
    exfalso
    simp only [SetupKind, follows, kindOf, List.mem_cons, Prod.mk.injEq, List.not_mem_nil, or_false] at hk hfol
    rcases hk with hk | hk | hk | hk <;> simp [hk] at hfol

end Setup
end CB
