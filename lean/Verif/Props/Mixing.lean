import Verif.Props.Voting
/-!
# C23–C26: mixing
-/

namespace CB
open Spec

theorem u32be_eq (n : UInt32) : u32be n = be32 n := by
  simp only [u32be, be32]

theorem pedersenSeed_eq (t : MixTx) : pedersenSeed t.trusteeIndex t.mixIndex t.contestIndex t.batch = shuffleSeed t := by
  simp only [pedersenSeed, shuffleSeed, u32be_eq]

theorem allVotes_unique {S : Store} {e : Identifier} {v w : List (Signed VoteTx)} (hv : AllVotes S e v) (hw : AllVotes S e w) : v = w := by
  have : v.map SignedTx.vote = w.map SignedTx.vote := MemStore.idLt_ext hv.2 hw.2 fun t => by
    have h1 := hv.1 t
    have h2 := hw.1 t
    simp only [List.mem_map]
    constructor
    · rintro ⟨x, hx, rfl⟩
      obtain ⟨y, hy, h⟩ := h2.1 (h1.2 ⟨x, hx, rfl⟩)
      exact ⟨y, hy, h.symm⟩
    · rintro ⟨x, hx, rfl⟩
      obtain ⟨y, hy, h⟩ := h1.1 (h2.2 ⟨x, hx, rfl⟩)
      exact ⟨y, hy, h.symm⟩
  exact List.map_inj_right (fun _ _ h => SignedTx.vote.inj h) |>.1 this

/-- **C23** An accepted first mix has mix index 0, lists exactly the ids of all stored votes of its election, each once and ascending, and its proof verifies
for exactly their encrypted votes for the contest, its outputs and the stored encryption key. -/
theorem C23_first_mix_covers_votes (E : Env) (S : Store) (hS : Lawful S) (t : MixTx) (sig : Signature)
    (h : (SignedTx.mix ⟨t, sig⟩).validate E S = .ok ()) (hprev : t.prevMixId = none) :
    t.mixIndex = 0 ∧ t.trusteeIndex = 1 ∧
    (∀ id, id ∈ t.voteIds ↔ ∃ v, S.getTransaction id = some (.vote v) ∧ id.electionId = t.electionId.electionId ∧ id.txType = .vote) ∧
    t.voteIds.Nodup ∧ t.voteIds.Pairwise IdLe ∧
    ∃ votes key ksig, AllVotes S t.electionId votes ∧ t.voteIds = votes.map (·.tx.id) ∧
      S.getTransaction (singleId t.electionId .encryptionKey) = some (.encryptionKey ⟨key, ksig⟩) ∧
      E.shuffleVerify (shuffleSeed t) (contestVotes t.contestIndex votes).length t.proof (contestVotes t.contestIndex votes)
        t.mixedCiphertexts key.encryptionKey = true := by
  have h3 := (SignedTx.validate_ok.1 h).2.2
  obtain ⟨_, e, _, _, _, _, hti, _, inputs, hin, _, key, ksig, hk, hver⟩ := (MixTx.validateTx_ok hS).1 h3
  cases hin with
  | next hp _ _ _ _ _ _ => rw [hprev] at hp; cases hp
  | @first votes _ hmi hall hids =>
    have e' : votes.map (·.tx.id) = (votes.map SignedTx.vote).map SignedTx.id := by rw [List.map_map]; rfl
    have hnd : t.voteIds.Nodup := by rw [hids, e']; exact idLt_nodup hall.2
    have hsrt : t.voteIds.Pairwise IdLe := by rw [hids, e']; exact idLt_sorted hall.2
    rw [pedersenSeed_eq] at hver
    refine ⟨hmi, ?_, ?_, hnd, hsrt, votes, key, ksig, hall, hids, hk, hver⟩
    · rw [hmi] at hti
      have : t.trusteeIndex = t.trusteeIndex - 1 + 1 := by simp
      rw [this, ← hti]; rfl
    · intro id
      rw [hids, List.mem_map]
      constructor
      · rintro ⟨v, hv, rfl⟩
        obtain ⟨h1, h2, h3⟩ := (hall.1 (.vote v)).2 ⟨v, hv, rfl⟩
        exact ⟨v, h1, h2, h3⟩
      · rintro ⟨v, hv, h1, h2⟩
        have hid := hS.keyed _ _ hv
        obtain ⟨w, hw, heq⟩ := (hall.1 (.vote v)).1 ⟨by unfold InStore; rw [hid]; exact hv, by rw [hid]; exact h1, by rw [hid]; exact h2⟩
        cases heq
        exact ⟨v, hw, hid⟩

/-- a first mix of two votes, and one that forgets a vote -/
example : Toy.mix1Tx.validate Toy.env (MemStore.ofList (Toy.complete.take 11)).toStore = .ok () ∧
    (Toy.mixTx 1 11 none (Toy.ids.take 1) [[Toy.ct "a"]]).validate Toy.env (MemStore.ofList (Toy.complete.take 11)).toStore
      = .err .mixWrongNumberOfVotes := by decide +kernel

/-! ## C24 -/

theorem MixTx.index_facts {E : Env} {S : Store} (hS : Lawful S) {t : MixTx} (h : t.validateTx E S = .ok ()) : t.trusteeIndex = t.mixIndex + 1 := by
  obtain ⟨_, _, _, _, _, _, hti, _⟩ := (MixTx.validateTx_ok hS).1 h
  rw [hti]; simp

theorem Spec.IsMixChain.extend {m m' : MemStore} (h : Extends m m') {chain : List (Signed MixTx)} (hc : IsMixChain m.toStore chain) :
    IsMixChain m'.toStore chain where
  stored c hm := h _ _ (hc.stored c hm)
  index := hc.index
  same := hc.same
  first := hc.first
  linked := hc.linked
  outputs := hc.outputs
  trustees c hm := by
    obtain ⟨e, ⟨s, he⟩, ht⟩ := hc.trustees c hm
    exact ⟨e, ⟨s, h _ _ he⟩, ht⟩
  distinct := hc.distinct

theorem getElem?_append_singleton {α : Type} {l : List α} {a c : α} {i : Nat} (h : (l ++ [a])[i]? = some c) :
    l[i]? = some c ∨ (i = l.length ∧ c = a) := by
  rw [List.getElem?_append] at h
  split at h
  · exact .inl h
  · right
    rename_i hi
    have : i - l.length = 0 := by
      by_cases h0 : i - l.length = 0
      · exact h0
      · rw [List.getElem?_eq_none (by simp; omega)] at h; cases h
    rw [this] at h
    simp only [List.getElem?_cons_zero, Option.some.injEq] at h
    exact ⟨by omega, h.symm⟩

/-- Appending a mix to the chain of the mix it names. -/
theorem Spec.IsMixChain.snoc {S : Store} {chain : List (Signed MixTx)} {p t : Signed MixTx} (hc : IsMixChain S chain)
    (hlast : chain.getLast? = some p) (hst : InStore S (.mix t)) (hprev : t.tx.prevMixId = some p.tx.id)
    (hmi : t.tx.mixIndex.toNat = p.tx.mixIndex.toNat + 1) (hti : t.tx.trusteeIndex = t.tx.mixIndex + 1)
    (h1 : t.tx.electionId = p.tx.electionId) (h2 : t.tx.contestIndex = p.tx.contestIndex) (h3 : t.tx.batch = p.tx.batch)
    (h4 : t.tx.voteIds = p.tx.voteIds) (hout : t.tx.mixedCiphertexts.length = t.tx.voteIds.length)
    (htr : ∃ e, ElectionAt S t.tx.electionId e ∧ IsTrustee e t.tx.trusteeIndex t.tx.trusteePublicKey) :
    IsMixChain S (chain ++ [t]) := by
  have hp : p ∈ chain := List.mem_of_getLast? hlast
  have hne : chain ≠ [] := List.ne_nil_of_mem hp
  have hpi : chain[chain.length - 1]? = some p := by rw [← List.getLast?_eq_getElem?]; exact hlast
  have hpl := (hc.index _ _ hpi).1
  have hpos : 0 < chain.length := List.length_pos_iff.2 hne
  have hmi' : t.tx.mixIndex.toNat = chain.length := by omega
  refine ⟨?_, ?_, ?_, ?_, ?_, ?_, ?_, ?_⟩
  · intro c hm
    rcases List.mem_append.1 hm with h | h
    · exact hc.stored c h
    · rw [List.mem_singleton.1 h]; exact hst
  · intro i c h
    rcases getElem?_append_singleton h with h | ⟨rfl, rfl⟩
    · exact hc.index i c h
    · exact ⟨hmi', hti⟩
  · have key : ∀ c ∈ chain ++ [t], c.tx.electionId = p.tx.electionId ∧ c.tx.contestIndex = p.tx.contestIndex ∧
        c.tx.batch = p.tx.batch ∧ c.tx.voteIds = p.tx.voteIds := by
      intro c hm
      rcases List.mem_append.1 hm with h | h
      · exact hc.same c h p hp
      · rw [List.mem_singleton.1 h]; exact ⟨h1, h2, h3, h4⟩
    intro c hm d hd
    obtain ⟨a1, a2, a3, a4⟩ := key c hm
    obtain ⟨b1, b2, b3, b4⟩ := key d hd
    exact ⟨a1.trans b1.symm, a2.trans b2.symm, a3.trans b3.symm, a4.trans b4.symm⟩
  · intro c h
    rcases getElem?_append_singleton h with h | ⟨h, _⟩
    · exact hc.first c h
    · omega
  · intro i c d h h'
    rcases getElem?_append_singleton h' with h' | ⟨hi, rfl⟩
    · have : chain[i]? = some c := by
        rcases getElem?_append_singleton h with h | ⟨rfl, _⟩
        · exact h
        · rw [List.getElem?_eq_none (by omega)] at h'; cases h'
      exact hc.linked i c d this h'
    · have : chain[i]? = some c := by
        rcases getElem?_append_singleton h with h | ⟨hi', _⟩
        · exact h
        · omega
      have hii : i = chain.length - 1 := by omega
      rw [hii, hpi] at this
      cases this
      exact hprev
  · intro c hm
    rcases List.mem_append.1 hm with h | h
    · exact hc.outputs c h
    · rw [List.mem_singleton.1 h]; exact hout
  · intro c hm
    rcases List.mem_append.1 hm with h | h
    · exact hc.trustees c h
    · rw [List.mem_singleton.1 h]; exact htr
  · rw [List.map_append, List.nodup_append]
    refine ⟨hc.distinct, by simp, ?_⟩
    intro a ha b hb
    simp only [List.map_cons, List.map_nil, List.mem_singleton] at hb
    subst hb
    obtain ⟨c, hcm, rfl⟩ := List.mem_map.1 ha
    obtain ⟨i, hi, hget⟩ := List.mem_iff_getElem.1 hcm
    obtain ⟨hci, hct⟩ := hc.index i c (by rw [List.getElem?_eq_getElem hi, hget])
    intro heq
    rw [hct, hti, UInt8.add_left_inj] at heq
    rw [heq] at hci
    omega

theorem Spec.IsMixChain.single {S : Store} {t : Signed MixTx} (hst : InStore S (.mix t)) (hprev : t.tx.prevMixId = none)
    (hmi : t.tx.mixIndex = 0) (hti : t.tx.trusteeIndex = t.tx.mixIndex + 1)
    (hout : t.tx.mixedCiphertexts.length = t.tx.voteIds.length)
    (htr : ∃ e, ElectionAt S t.tx.electionId e ∧ IsTrustee e t.tx.trusteeIndex t.tx.trusteePublicKey) :
    IsMixChain S [t] := by
  have key : ∀ (i : Nat) (c : Signed MixTx), ([t] : List _)[i]? = some c → i = 0 ∧ c = t := by
    intro i c h
    cases i with
    | zero => simpa [eq_comm] using h
    | succ => simp at h
  refine ⟨?_, ?_, ?_, ?_, ?_, ?_, ?_, by simp⟩
  · simpa using hst
  · intro i c h
    obtain ⟨rfl, rfl⟩ := key i c h
    exact ⟨by rw [hmi]; rfl, hti⟩
  · intro c hc d hd
    rw [List.mem_singleton.1 hc, List.mem_singleton.1 hd]
    exact ⟨rfl, rfl, rfl, rfl⟩
  · intro c h
    obtain ⟨_, rfl⟩ := key 0 c h
    exact hprev
  · intro i c d _ h
    obtain ⟨h, _⟩ := key (i + 1) d h
    omega
  · intro c hc
    rw [List.mem_singleton.1 hc]; exact hout
  · intro c hc
    rw [List.mem_singleton.1 hc]; exact htr

theorem Spec.Ledger.mix_valid {E : Env} {m : MemStore} (h : Ledger E m) {t : Signed MixTx} (ht : InStore m.toStore (.mix t)) :
    t.tx.id = MixTx.buildId t.tx.electionId t.tx.contestIndex t.tx.batch t.tx.mixIndex t.tx.trusteeIndex := by
  obtain ⟨m0, hm0, _, hv, _⟩ := h.accepted ht
  exact ((MixTx.validateTx_ok hm0.lawful).1 (SignedTx.validate_ok.1 hv).2.2).1

/-- The chain of the mix named by a fresh accepted mix, and the facts needed to extend it. -/
theorem mix_step {E : Env} {m : MemStore} (hm : Ledger E m) {t : Signed MixTx} (hf : m.getTransaction t.tx.id = none)
    (hv : t.tx.validateTx E m.toStore = .ok ())
    (ih : ∀ c : Signed MixTx, InStore m.toStore (.mix c) → ∃ chain, IsMixChain m.toStore chain ∧ chain.getLast? = some c) :
    (t.tx.prevMixId = none ∧ t.tx.mixIndex = 0) ∨ ∃ p chain, IsMixChain m.toStore chain ∧ chain.getLast? = some p ∧ InStore m.toStore (.mix p) ∧
      t.tx.prevMixId = some p.tx.id ∧ t.tx.mixIndex.toNat = p.tx.mixIndex.toNat + 1 ∧ t.tx.electionId = p.tx.electionId ∧
      t.tx.contestIndex = p.tx.contestIndex ∧ t.tx.batch = p.tx.batch ∧ t.tx.voteIds = p.tx.voteIds ∧
      MixInputs m.toStore t.tx p.tx.mixedCiphertexts := by
  obtain ⟨hid, e, he, _, htr, _, hti, hout, inputs, hin, _, _⟩ := (MixTx.validateTx_ok hm.lawful).1 hv
  have hin0 := hin
  cases hin with
  | @first votes hp hmi _ _ => exact .inl ⟨hp, hmi⟩
  | @next pid p sig hp hg hmi h1 h2 h3 h4 =>
    right
    have hpid : p.id = pid := hm.lawful.keyed _ _ hg
    have hps : InStore m.toStore (.mix ⟨p, sig⟩) := by show m.toStore.getTransaction p.id = _; rw [hpid]; exact hg
    obtain ⟨chain, hc, hl⟩ := ih ⟨p, sig⟩ hps
    refine ⟨⟨p, sig⟩, chain, hc, hl, hps, by rw [hp, ← hpid], ?_, h1, h2, h3, h4, hin0⟩
    show t.tx.mixIndex.toNat = p.mixIndex.toNat + 1
    rw [hmi, UInt8.toNat_add]
    by_cases h255 : p.mixIndex.toNat + 1 < 256
    · simp; omega
    exfalso
    -- the chain already has a mix with the id of `t`
    have hlt := p.mixIndex.toNat_lt
    have h255' : p.mixIndex.toNat = 255 := by omega
    have hne : chain ≠ [] := by rintro rfl; simp at hl
    have hpos : 0 < chain.length := List.length_pos_iff.2 hne
    have hmem : chain[0] ∈ chain := List.getElem_mem hpos
    obtain ⟨hi0, ht0⟩ := hc.index 0 chain[0] (List.getElem?_eq_getElem hpos)
    obtain ⟨s1, s2, s3, _⟩ := hc.same chain[0] hmem ⟨p, sig⟩ (List.mem_of_getLast? hl)
    have hst := hc.stored _ hmem
    have hid0 := hm.mix_valid hst
    have e1 : t.tx.mixIndex = chain[0].tx.mixIndex := by
      rw [hmi, ← UInt8.toNat_inj, UInt8.toNat_add, h255', hi0]; rfl
    have e2 : t.tx.trusteeIndex = chain[0].tx.trusteeIndex := by rw [MixTx.index_facts hm.lawful hv, ht0, e1]
    have : t.tx.id = chain[0].tx.id := by
      rw [hid, hid0, e1, e2, h1, h2, h3, s1, s2, s3]
    rw [this] at hf
    have hst' : m.getTransaction chain[0].tx.id = some (.mix chain[0]) := hst
    rw [hst'] at hf
    cases hf

/-- **C24** In an append-only history every stored mix ends a chain of stored mixes of the same election, contest, batch and vote list, with mix indexes
0, 1, …, by pairwise different trustees of the election, that starts at a first mix. -/
theorem C24_mix_chain (E : Env) (m : MemStore) (hm : Ledger E m) (t : Signed MixTx) (ht : InStore m.toStore (.mix t)) :
    ∃ chain, IsMixChain m.toStore chain ∧ chain.getLast? = some t := by
  induction hm generalizing t with
  | empty => exact nomatch (show none = some (SignedTx.mix t) from ht)
  | @append m u hm hf hv ih =>
    have hext : Extends m (m.set u) := .set_fresh hf
    unfold InStore at ht
    rw [show (m.set u).toStore.getTransaction _ = _ from MemStore.get_set _ _ _] at ht
    split at ht
    · cases ht
      have hst : InStore (m.set (.mix t)).toStore (.mix t) := by
        show (m.set (.mix t)).getTransaction _ = _
        rw [MemStore.get_set, if_pos rfl]
      have h3 := (SignedTx.validate_ok.1 hv).2.2
      obtain ⟨_, e, ⟨s, he⟩, _, htr, _, _, hout, _⟩ := (MixTx.validateTx_ok hm.lawful).1 h3
      have hti := MixTx.index_facts hm.lawful h3
      have htr' : ∃ e, ElectionAt (m.set (.mix t)).toStore t.tx.electionId e ∧ IsTrustee e t.tx.trusteeIndex t.tx.trusteePublicKey :=
        ⟨e, ⟨s, hext _ _ he⟩, htr⟩
      rcases mix_step hm hf h3 ih with ⟨hp, hmi⟩ | ⟨p, chain, hc, hl, _, hp, hmi, h1, h2, h3, h4, _⟩
      · exact ⟨[t], .single hst hp hmi hti hout htr', rfl⟩
      · exact ⟨chain ++ [t], (hc.extend hext).snoc hl hst hp hmi hti h1 h2 h3 h4 hout htr', by simp⟩
    · obtain ⟨chain, hc, hl⟩ := ih t ht
      exact ⟨chain, hc.extend hext, hl⟩

/-- the complete example election stores a second mix -/
example : Ledger Toy.env (MemStore.ofList Toy.complete) ∧ ∃ t, Toy.mix2Tx = .mix t ∧ t.tx.mixIndex = 1 ∧
    InStore (MemStore.ofList Toy.complete).toStore (.mix t) := ⟨Toy.complete_ledger, _, rfl, rfl, by rfl⟩

/-! ## C25 -/

/-- **C25** If shuffle proofs are sound, the outputs of a stored mix decrypt to a permutation of what the encrypted votes of its contest decrypt to, those that
were stored when the first mix of its chain was accepted; the key is the election's stored encryption key. -/
theorem C25_mixing_preserves_votes {P : Type} (E : Env) (plain : ElGamalKey → Ciphertext → P) (hs : ShuffleSound E plain) (m : MemStore)
    (hm : Ledger E m) (t : Signed MixTx) (ht : InStore m.toStore (.mix t)) :
    ∃ (m0 : MemStore) (f : Signed MixTx) (votes : List (Signed VoteTx)) (key : EncryptionKeyTx) (ksig : Signature),
      Ledger E m0 ∧ (SignedTx.mix f).validate E m0.toStore = .ok () ∧ LedgerSteps E (m0.set (.mix f)) m ∧ f.tx.prevMixId = none ∧
      f.tx.electionId = t.tx.electionId ∧ f.tx.contestIndex = t.tx.contestIndex ∧ f.tx.batch = t.tx.batch ∧
      AllVotes m0.toStore t.tx.electionId votes ∧ t.tx.voteIds = votes.map (·.tx.id) ∧
      m.getTransaction (singleId t.tx.electionId .encryptionKey) = some (.encryptionKey ⟨key, ksig⟩) ∧
      List.Perm (t.tx.mixedCiphertexts.map (·.map (plain key.encryptionKey)))
        ((contestVotes t.tx.contestIndex votes).map (·.map (plain key.encryptionKey))) := by
  induction hm generalizing t with
  | empty => exact nomatch (show none = some (SignedTx.mix t) from ht)
  | @append m u hm hf hv ih =>
    have hext : Extends m (m.set u) := .set_fresh hf
    unfold InStore at ht
    rw [show (m.set u).toStore.getTransaction _ = _ from MemStore.get_set _ _ _] at ht
    split at ht
    · cases ht
      have h3 := (SignedTx.validate_ok.1 hv).2.2
      obtain ⟨_, e, _, _, _, _, _, _, inputs, hin, _, key, ksig, hk, hver⟩ := (MixTx.validateTx_ok hm.lawful).1 h3
      have hperm := hs _ _ _ _ _ _ hver
      cases hin with
      | @first votes hp hmi hall hids =>
        exact ⟨m, t, votes, key, ksig, hm, hv, .refl, hp, rfl, rfl, rfl, hall, hids, hext _ _ hk, hperm.symm⟩
      | @next pid p sig hp hg hmi h1 h2 h3 h4 =>
        have hpid : p.id = pid := hm.lawful.keyed _ _ hg
        have hps : InStore m.toStore (.mix ⟨p, sig⟩) := by show m.toStore.getTransaction p.id = _; rw [hpid]; exact hg
        obtain ⟨m0, f, votes, key', ksig', a1, a2, a3, a4, a5, a6, a7, a8, a9, a10, a11⟩ := ih ⟨p, sig⟩ hps
        have hk' : m.getTransaction (singleId t.tx.electionId .encryptionKey) = some (.encryptionKey ⟨key', ksig'⟩) := by rw [h1]; exact a10
        have : some (SignedTx.encryptionKey ⟨key, ksig⟩) = some (.encryptionKey ⟨key', ksig'⟩) := by rw [← hk', ← hk]; rfl
        cases this
        refine ⟨m0, f, votes, key, ksig, a1, a2, .append a3 hf hv, a4, a5.trans h1.symm, a6.trans h2.symm, a7.trans h3.symm,
          by rw [h1]; exact a8, h4.trans a9, hext _ _ hk', ?_⟩
        rw [h2]
        exact hperm.symm.trans a11
    · obtain ⟨m0, f, votes, key', ksig', a1, a2, a3, a4, a5, a6, a7, a8, a9, a10, a11⟩ := ih t ht
      exact ⟨m0, f, votes, key', ksig', a1, a2, .append a3 hf hv, a4, a5, a6, a7, a8, a9, hext _ _ a10, a11⟩

/-- the toy shuffle proof is sound -/
theorem toy_shuffleSound (b : Bool) : ShuffleSound (Toy.env b) (fun _ c => Selection.decode c.raw) := by
  intro seed n proof inputs outputs key h
  have : inputs.Perm outputs := List.isPerm_iff.1 h
  exact this.map _

example : ShuffleSound Toy.env (fun _ c => Selection.decode c.raw) ∧ Ledger Toy.env (MemStore.ofList Toy.complete) ∧
    ∃ t, Toy.mix2Tx = .mix t ∧ InStore (MemStore.ofList Toy.complete).toStore (.mix t) := ⟨toy_shuffleSound _, Toy.complete_ledger, _, rfl, by rfl⟩

/-! ## C26 -/

/-- **C26 is false of the code**: a mix is accepted while voting is open, and a vote accepted afterwards is missing from it. -/
theorem C26_mix_after_end_false :
    ¬ ∀ (E : Env) (m : MemStore), Ledger E m → ∀ t : Signed MixTx, InStore m.toStore (.mix t) → SlotFilled m.toStore t.tx.electionId .votingEnd := by
  intro h
  obtain ⟨x, hx⟩ := h Toy.env (MemStore.ofList (Toy.setup ++ [Toy.voteTx 31 "a", Toy.mixTx 1 11 none (Toy.ids.take 1) [[Toy.ct "a"]],
    Toy.voteTx 32 "b"])) (ledger_of_run (by decide +kernel))
    ⟨MixTx.new Toy.eid none (Toy.trustee 1 11) 0 0 0 (Toy.ids.take 1) [[Toy.ct "a"]] ⟨[]⟩, Toy.sig 11⟩ (by rfl)
  have : ∀ {α : Type} {o : Option α} {y : α}, o = some y → o.isNone = true → False := by rintro _ _ _ rfl h; cases h
  exact this hx (by decide +kernel)

/-- **C26 (partial)** A mix is accepted only for an election with a mixnet and a stored encryption key; and if the voting-end slot was filled when a
first mix was accepted, it lists all votes the election has in every later ledger.  Missing: that the slot must be filled. -/
theorem C26_mix_after_end_partial (E : Env) (m : MemStore) (hm : Ledger E m) (t : Signed MixTx)
    (h : (SignedTx.mix t).validate E m.toStore = .ok ()) :
    SlotFilled m.toStore t.tx.electionId .encryptionKey ∧
    (∃ e, ElectionAt m.toStore t.tx.electionId e ∧ e.mixConfig ≠ none) ∧
    (t.tx.prevMixId = none → SlotFilled m.toStore t.tx.electionId .votingEnd →
      ∀ m', LedgerSteps E m m' → ∀ votes, AllVotes m'.toStore t.tx.electionId votes → t.tx.voteIds = votes.map (·.tx.id)) := by
  have h3 := (SignedTx.validate_ok.1 h).2.2
  obtain ⟨_, e, he, hmc, _, _, _, _, inputs, hin, _, key, ksig, hk, _⟩ := (MixTx.validateTx_ok hm.lawful).1 h3
  refine ⟨⟨_, hk⟩, ⟨e, he, hmc⟩, ?_⟩
  intro hp hend m' hsteps votes hall
  cases hin with
  | next hp' => rw [hp] at hp'; cases hp'
  | @first votes0 _ _ hall0 hids =>
    rw [hids]
    congr 1
    apply allVotes_unique hall0
    have hfz := (C17_no_votes_after_end E m t.tx.electionId hend).2 m' hsteps.replaySteps
    refine ⟨fun u => ?_, hall.2⟩
    rw [← hall.1 u]
    constructor
    · rintro ⟨a, b, c⟩; exact ⟨by unfold InStore; exact (hfz _ b c).trans a, b, c⟩
    · rintro ⟨a, b, c⟩; exact ⟨by unfold InStore; exact (hfz _ b c).symm.trans a, b, c⟩

example : Toy.mix1Tx.validate Toy.env (MemStore.ofList (Toy.complete.take 11)).toStore = .ok () ∧
    SlotFilled (MemStore.ofList (Toy.complete.take 11)).toStore Toy.eid .votingEnd := ⟨by decide +kernel, Toy.endTx, by rfl⟩

/-- **C22 (partial)** If verified shuffles have as many outputs as inputs, then in an accepted first mix the encrypted votes of all votes for the
contest are, in total, as many as there are votes (so a doubled one means another is missing); without a mixnet see `C28`: only the first
encrypted vote for a contest can be decrypted.  Missing: at most one per vote. -/
theorem C22_one_vote_per_contest_partial (E : Env) (S : Store) (hS : Lawful S) (t : MixTx) (sig : Signature)
    (hlen : ∀ seed n proof inputs outputs key, E.shuffleVerify seed n proof inputs outputs key = true → inputs.length = outputs.length)
    (h : (SignedTx.mix ⟨t, sig⟩).validate E S = .ok ()) (hprev : t.prevMixId = none) :
    ∃ votes, AllVotes S t.electionId votes ∧ (contestVotes t.contestIndex votes).length = votes.length := by
  have h3 := (SignedTx.validate_ok.1 h).2.2
  obtain ⟨_, e, _, _, _, _, _, hout, inputs, hin, _, key, ksig, _, hver⟩ := (MixTx.validateTx_ok hS).1 h3
  cases hin with
  | next hp' => rw [hprev] at hp'; cases hp'
  | @first votes _ _ hall hids =>
    refine ⟨votes, hall, ?_⟩
    rw [hlen _ _ _ _ _ _ hver, hout, hids, List.length_map]

example : (∀ seed n proof inputs outputs key, Toy.env.shuffleVerify seed n proof inputs outputs key = true → inputs.length = outputs.length) ∧
    Toy.mix1Tx.validate Toy.env (MemStore.ofList (Toy.complete.take 11)).toStore = .ok () :=
  ⟨fun _ _ _ _ _ _ h => (List.isPerm_iff.1 h).length_eq, by decide +kernel⟩

end CB
