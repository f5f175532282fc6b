import Verif.Lemmas.Server
import Verif.Examples.ToyNode
/-!
# C42, C43: what trustee nodes submit during the set-up

A node acts on the store that holds the committed transactions.  The theorems ask of the store only that it is lawful and that ids carry their
transaction's type, which holds after every history (`Replay.lawful`, `Replay.typed`) and, on the Exonum ledger, by C37/C38.
-/

namespace CB
open Spec Server

theorem Spec.Replay.typedStore {E : Env} {m : MemStore} (h : Replay E m) : Typed m.toStore := fun t ht => by
  have := h.typed (id := t.id) (t := t) ht
  rw [this]
  cases t <;> rfl

/-! ## C42 -/

/-- **C42** (commitments) When an election is committed, a node returns normally; if it holds the key of one of the election's trustees it submits one
commitment in that trustee's slot, otherwise nothing; and what it submits passes validation against the same store. -/
theorem C42_commitment_accepted (N : NodeEnv) (hN : SignCorrect N.toEnv) (rng : Rng) (sk : SecretKey) (S : Store) (e : ElectionTx) (sig : Signature)
    (hst : InStore S (.election ⟨e, sig⟩)) :
    ∃ l, generateTransactions N rng sk S (.election ⟨e, sig⟩) = .ok l ∧ (∀ x ∈ l, x.validate N.toEnv S = .ok ()) ∧
      (¬ TrusteeKey e (N.edPublic sk) → l = []) ∧
      (TrusteeKey e (N.edPublic sk) → ∃ c tr, l = [.keyGenCommitment c] ∧ tr ∈ e.trustees ∧ tr.publicKey = N.edPublic sk ∧
        c.tx.id = stepId e.id (.commitment tr.index) ∧ c.tx.election = e.id ∧ c.tx.trusteeIndex = tr.index ∧ c.tx.trusteePublicKey = tr.publicKey) := by
  cases htr : trusteeFromElection e (N.edPublic sk) with
  | none =>
    refine ⟨[], by simp only [generateTransactions, processElection, htr]; rfl, by simp, fun _ => rfl, fun h => absurd h (trusteeFromElection_none.1 htr)⟩
  | some tr =>
    obtain ⟨hk, tr0, hm, hi, hk0⟩ := trusteeFromElection_some htr
    have hs := sign_eq (N := N) (sk := sk) (tx := KeyGenCommitmentTx.new e.id tr.index tr.publicKey (Trustee.x25519Key N sk e.id) (tr.keygenCommitment N sk e.id))
      (by rintro k ⟨⟩; exact hk)
    refine ⟨_, by simp only [generateTransactions, processElection, htr, hs, Res.bind_def, Res.ok_bind, Res.pure_def]; rfl, ?_, fun h => absurd ⟨tr0, hm, hk0⟩ h, fun _ => ?_⟩
    · intro x hx
      rw [List.mem_singleton] at hx
      subst hx
      refine SignedTx.validate_ok.2 ⟨rfl, ?_, ?_⟩
      · rintro k ⟨⟩
        show N.edVerify tr.publicKey _ _ = true
        rw [hk]
        exact hN sk _
      · exact KeyGenCommitmentTx.validateTx_ok.2 ⟨e, ⟨sig, hst⟩, tr0, hm, hi, hk0.trans hk.symm⟩
    · exact ⟨_, tr0, rfl, hm, hk0, by rw [hi]; rfl, rfl, hi.symm, by rw [hk0]; exact hk⟩

example : SignCorrect Toy.node.toEnv := by intro sk msg; show ((_ : Bytes) == _) = true; simp [Toy.node, Toy.env]
example : InStore (MemStore.ofList Toy.nodeElection).toStore Toy.electionTx ∧ TrusteeKey Toy.election (Toy.node.edPublic (Toy.key 12)) := by
  refine ⟨rfl, Toy.trustee 2 12, by decide +kernel, rfl⟩

/-- a node of trustee `tr`'s key emits a correctly signed share transaction -/
theorem share_emitted {N : NodeEnv} {rng : Rng} {sk : SecretKey} {S : Store} (hS : Lawful S) (hT : Typed S) {e : ElectionTx} {t : KeyGenCommitmentTx} {sig : Signature}
    (he : ElectionAt S t.election e) {l : List SignedTx} (h : generateTransactions N rng sk S (.keyGenCommitment ⟨t, sig⟩) = .ok l) :
    (l = [] ∧ (¬ TrusteeKey e (N.edPublic sk) ∨ ¬ CountIs S e .keyGenCommitment e.trustees.length)) ∨
    (CountIs S e .keyGenCommitment e.trustees.length ∧ ∃ (commits : List (Signed KeyGenCommitmentTx)) (tr : Trustee) (g : N.Gen) (shares : IndexMap UInt8 EncryptedShare),
      StepTxs S e .keyGenCommitment (commits.map .keyGenCommitment) ∧ commits.length = e.trustees.length ∧ IsTrustee e tr.index (N.edPublic sk) ∧ tr.publicKey = N.edPublic sk ∧
      (Trustee.encryptShares N rng sk e.id g 0 IndexMap.empty (commits.map fun c => (c.tx.trusteeIndex, c.tx.x25519PublicKey)) : SRes _) = .ok shares ∧
      l = [.keyGenShare ⟨KeyGenShareTx.new e.id tr.index tr.publicKey shares, N.edSign sk (KeyGenShareTx.new e.id tr.index tr.publicKey shares).toCbor.encode⟩]) := by
  obtain ⟨esig, hel⟩ := getElection_at he
  obtain ⟨ss, hss, hst⟩ := getAll_commits hS hT e
  simp only [generateTransactions, processKeygenCommitment, hel, v_ok, Res.bind_def, Res.ok_bind] at h
  split at h
  · rename_i tr htr
    rw [hss] at h
    simp only [Res.ok_bind, List.length_map] at h
    split at h
    · rename_i hlen
      right
      refine ⟨(countIs_iff hst).2 (by simpa using hlen), ?_⟩
      simp only [Res.bind_eq_ok, Trustee.generateShares] at h
      obtain ⟨shares, ⟨g, hg, hsh⟩, s, hs, hl⟩ := h
      obtain ⟨rfl, _⟩ := sign_ok hs
      obtain ⟨hk, hit⟩ := trusteeFromElection_some htr
      cases hl
      rw [List.map_map] at hsh
      exact ⟨ss, tr, g, shares, hst, hlen, hit, hk, hsh, rfl⟩
    · rename_i hlen
      cases h
      exact .inl ⟨rfl, .inr fun hc => hlen (by simpa using (countIs_iff hst).1 hc)⟩
  · rename_i htr
    cases h
    exact .inl ⟨rfl, .inl (trusteeFromElection_none.1 htr)⟩

/-- **C42** (shares), with every stored commitment of the election in the slot of the trustee it is by.  Missing: commitments elsewhere
(`C42_share_accepted_false`). -/
theorem C42_share_accepted_partial (N : NodeEnv) (hN : SignCorrect N.toEnv) (rng : Rng) (sk : SecretKey) (S : Store) (hS : Lawful S) (hT : Typed S) (e : ElectionTx)
    (t : KeyGenCommitmentTx) (sig : Signature) (he : ElectionAt S t.election e) (ho : OwnSlots S e .keyGenCommitment) (l : List SignedTx)
    (h : generateTransactions N rng sk S (.keyGenCommitment ⟨t, sig⟩) = .ok l) : ∀ x ∈ l, x.validate N.toEnv S = .ok () := by
  rcases share_emitted hS hT he h with ⟨rfl, _⟩ | ⟨_, ss, tr, g, shares, hst, hlen, hit, hk, hsh, rfl⟩
  · simp
  · intro x hx
    rw [List.mem_singleton] at hx
    subst hx
    have hown : ∀ c ∈ ss, ∃ tr ∈ e.trustees, tr.index = c.tx.trusteeIndex ∧ c.tx.id = stepId e.id (.commitment tr.index) := by
      intro c hc
      obtain ⟨a1, a2, a3⟩ := (hst.2 _).1 (List.mem_map_of_mem (f := SignedTx.keyGenCommitment) hc)
      obtain ⟨tr, htr, h1, s, h2, h3⟩ := ho _ a1 a2 a3
      simp only [trusteeOf, Option.some.injEq, Prod.mk.injEq] at h1
      cases h2
      exact ⟨tr, htr, h1.1.symm, h3⟩
    have hnd : (ss.map (·.tx.trusteeIndex)).Nodup := by
      have h1 := hst.1
      rw [List.map_map] at h1
      refine List.Nodup.map_on ?_ (List.Nodup.of_map _ h1)
      intro a ha b hb hab
      obtain ⟨ta, _, h1, h2⟩ := hown a ha
      obtain ⟨tb, _, h3, h4⟩ := hown b hb
      rw [h1, hab, ← h3, ← h4] at h2
      obtain ⟨a1, _, _⟩ := (hst.2 _).1 (List.mem_map_of_mem (f := SignedTx.keyGenCommitment) ha)
      obtain ⟨b1, _, _⟩ := (hst.2 _).1 (List.mem_map_of_mem (f := SignedTx.keyGenCommitment) hb)
      have a1 : S.getTransaction a.tx.id = some (.keyGenCommitment a) := a1
      have b1 : S.getTransaction b.tx.id = some (.keyGenCommitment b) := b1
      rw [h2, b1] at a1
      cases a1
      rfl
    have hperm : (ss.map (·.tx.trusteeIndex)).Perm (e.trustees.map (·.index)) := by
      refine perm_of_nodup_subset hnd ?_ (by simp [hlen])
      intro i hi
      obtain ⟨c, hc, rfl⟩ := List.mem_map.1 hi
      obtain ⟨tr, htr, h1, _⟩ := hown c hc
      exact h1 ▸ List.mem_map_of_mem htr
    obtain ⟨hkeys, hcount⟩ := encryptShares_keys hsh
    refine SignedTx.validate_ok.2 ⟨rfl, ?_, ?_⟩
    · rintro k ⟨⟩
      show N.edVerify tr.publicKey _ _ = true
      rw [hk]
      exact hN sk _
    · rw [← electionAt_id hS he] at he
      refine KeyGenShareTx.validateTx_ok.2 ⟨e, he, hk ▸ hit, ?_, ?_⟩
      · have := hcount (by simpa [List.map_map, Function.comp_def] using hnd) (by simp [IndexMap.empty])
        simp only [KeyGenShareTx.new]
        rw [this]
        simp [IndexMap.empty, hlen]
      · intro tr' htr'
        refine (IndexMap.get_isSome _ _).2 ?_
        simp only [KeyGenShareTx.new]
        rw [hkeys]
        right
        have := hperm.mem_iff.2 (List.mem_map_of_mem (f := (·.index)) htr')
        simpa [List.map_map, Function.comp_def] using this

theorem forall_inStore {l : List SignedTx} {P : SignedTx → Prop} (h : ∀ t ∈ l, P t) : ∀ t, InStore (MemStore.ofList l).toStore t → P t := by
  intro t ht
  obtain ⟨before, after, rfl, _⟩ := (MemStore.stored_iff l t).1 ht
  exact h t (by simp)

/-- a check of `OwnSlots` for concrete histories -/
theorem ownSlots_of_check {l : List SignedTx} {e : ElectionTx} {ty : TxType}
    (h : (l.all fun t => !(t.id.electionId == e.id.electionId && kindOf t == ty) || e.trustees.any fun tr => decide (trusteeOf t = some (tr.index, tr.publicKey)) &&
      match keygenStep tr.index ty with | some s => t.id == stepId e.id s | none => false) = true) : OwnSlots (MemStore.ofList l).toStore e ty := by
  intro t ht h1 h2
  have := forall_inStore (List.all_eq_true.1 h) t ht
  simp only [h1, h2, beq_self_eq_true, Bool.and_self, Bool.not_true, Bool.false_or, List.any_eq_true, Bool.and_eq_true, decide_eq_true_eq] at this
  obtain ⟨tr, htr, h3, h4⟩ := this
  refine ⟨tr, htr, h3, ?_⟩
  split at h4
  · rename_i s hs
    exact ⟨s, hs, beq_iff_eq.1 h4⟩
  · cases h4

/-- an own-slot history in which the node does emit a share -/
example : OwnSlots (MemStore.ofList Toy.nodeCommits).toStore Toy.election .keyGenCommitment ∧ Ledger Toy.env (MemStore.ofList Toy.nodeCommits) ∧
    (Toy.reaction 11 Toy.nodeCommits (Toy.nodeCommits.getLastD Toy.endTx)).length = 1 :=
  ⟨ownSlots_of_check (by decide +kernel), ledger_of_run (by decide +kernel), by decide +kernel⟩

/-- a second commitment by trustee 1, under an id that is not built from its index -/
def strayCommit : SignedTx :=
  .keyGenCommitment ⟨{ KeyGenCommitmentTx.new Toy.eid 1 (Toy.key 11) (Toy.key 0) ⟨[]⟩ with id := ⟨BArr.fill 15 7, .keyGenCommitment, BArr.fill 16 9⟩ }, Toy.sig 11⟩

def strayLedger : List SignedTx := [Toy.electionTx, Toy.commitTx 1 11, strayCommit]

/-- **C42** fails for shares in general: one trustee alone can fill the ledger with as many commitments as there are trustees (ids of commitments are
not checked), upon which a node submits a share transaction that misses the other trustees and is refused. -/
theorem C42_share_accepted_false :
    ¬ ∀ (N : NodeEnv), SignCorrect N.toEnv → ∀ (rng : Rng) (sk : SecretKey) (m : MemStore), Ledger N.toEnv m → ∀ (t : KeyGenCommitmentTx) (sig : Signature),
      InStore m.toStore (.keyGenCommitment ⟨t, sig⟩) → ∀ l, generateTransactions N rng sk m.toStore (.keyGenCommitment ⟨t, sig⟩) = .ok l →
      ∀ x ∈ l, x.validate N.toEnv m.toStore = .ok () := by
  intro h
  have hl : Ledger Toy.node.toEnv (MemStore.ofList strayLedger) := ledger_of_run (by decide +kernel)
  have hx : (match generateTransactions Toy.node Toy.rng (Toy.key 11) (MemStore.ofList strayLedger).toStore strayCommit with
    | .ok [x] => decide (x.validate Toy.node.toEnv (MemStore.ofList strayLedger).toStore = .err .wrongNumberOfShares)
    | _ => false) = true := by decide +kernel
  split at hx
  · rename_i x hg
    have := h Toy.node (by intro sk msg; show ((_ : Bytes) == _) = true; simp [Toy.node, Toy.env]) Toy.rng (Toy.key 11) _ hl _ _ (by rfl) _ hg x (by simp)
    rw [of_decide_eq_true hx] at this
    cases this
  · cases hx

/-- **C42** (public keys) Whatever a node submits in reaction to a share transaction is a public-key transaction by that trustee and passes validation. -/
theorem C42_public_key_accepted (N : NodeEnv) (hN : SignCorrect N.toEnv) (rng : Rng) (sk : SecretKey) (S : Store) (hS : Lawful S) (e : ElectionTx)
    (t : KeyGenShareTx) (sig : Signature) (he : ElectionAt S t.election e) (l : List SignedTx)
    (h : generateTransactions N rng sk S (.keyGenShare ⟨t, sig⟩) = .ok l) :
    ∀ x ∈ l, x.validate N.toEnv S = .ok () ∧ kindOf x = .keyGenPublicKey ∧ ∃ tr ∈ e.trustees, tr.publicKey = N.edPublic sk ∧
      x.id = stepId e.id (.publicKey tr.index) ∧ trusteeOf x = some (tr.index, tr.publicKey) := by
  obtain ⟨esig, hel⟩ := getElection_at he
  simp only [generateTransactions, processKeygenShare, hel, v_ok, Res.bind_def, Res.ok_bind] at h
  split at h
  · rename_i tr htr
    simp only [Res.bind_eq_ok] at h
    obtain ⟨ss, hss, h⟩ := h
    split at h
    · cases h; simp
    · simp only [Res.bind_eq_ok] at h
      obtain ⟨commits, _, shares, _, pk, _, s, hs, hl⟩ := h
      cases hl
      intro x hx
      rw [List.mem_singleton] at hx
      subst hx
      obtain ⟨rfl, _⟩ := sign_ok hs
      obtain ⟨hk, tr0, hm, hi, hk0⟩ := trusteeFromElection_some htr
      refine ⟨SignedTx.validate_ok.2 ⟨rfl, ?_, ?_⟩, rfl, tr0, hm, hk0, by rw [hi]; rfl, by rw [hi, hk0, ← hk]; rfl⟩
      · rintro k ⟨⟩
        show N.edVerify tr.publicKey _ _ = true
        rw [hk]
        exact hN sk _
      · rw [← electionAt_id hS he] at he
        exact KeyGenPublicKeyTx.validateTx_ok.2 ⟨e, he, hk ▸ ⟨tr0, hm, hi, hk0⟩⟩
  · cases h; simp

example : (Toy.reaction 12 Toy.nodeShares (Toy.nodeShares.getLastD Toy.endTx)).length = 1 := by decide +kernel

/-- what the authority's node does on a public-key transaction -/
theorem encryptionKey_emitted {N : NodeEnv} {rng : Rng} {sk : SecretKey} {S : Store} (hS : Lawful S) (hT : Typed S) {e : ElectionTx} {t : KeyGenPublicKeyTx} {sig : Signature}
    (he : ElectionAt S t.election e) :
    generateTransactions N rng sk S (.keyGenPublicKey ⟨t, sig⟩) = .ok
      (open Classical in if e.authorityPublic = N.edPublic sk ∧ CountIs S e .keyGenPublicKey e.trustees.length then
        [.encryptionKey ⟨EncryptionKeyTx.new e.id e.authorityPublic t.publicKey, N.edSign sk (EncryptionKeyTx.new e.id e.authorityPublic t.publicKey).toCbor.encode⟩]
      else []) := by
  classical
  obtain ⟨esig, hel⟩ := getElection_at he
  obtain ⟨ss, _, hss, hst⟩ := getAll_pks hS hT e
  simp only [generateTransactions, processKeygenPublicKey, hel, v_ok, Res.bind_def, Res.ok_bind]
  by_cases ha : e.authorityPublic = N.edPublic sk
  · rw [if_pos ha, hss]
    simp only [Res.ok_bind, List.length_map]
    by_cases hc : e.trustees.length = ss.length
    · rw [if_pos hc, if_pos ⟨ha, (countIs_iff hst).2 (by simpa using hc.symm)⟩]
      rw [sign_eq (by rintro k ⟨⟩; exact ha)]
      rfl
    · rw [if_neg hc, if_neg fun hh => hc (by simpa using ((countIs_iff hst).1 hh.2).symm)]
      rfl
  · rw [if_neg ha, if_neg fun hh => ha hh.1]
    rfl

/-- **C42** (encryption key) When the authority's node submits the encryption key, it passes validation exactly when every trustee has posted a public
key and all posted public keys of the election are the one it submits. -/
theorem C42_encryption_key_accepted (N : NodeEnv) (hN : SignCorrect N.toEnv) (rng : Rng) (sk : SecretKey) (S : Store) (hS : Lawful S) (hT : Typed S) (e : ElectionTx)
    (t : KeyGenPublicKeyTx) (sig : Signature) (he : ElectionAt S t.election e) (l : List SignedTx)
    (h : generateTransactions N rng sk S (.keyGenPublicKey ⟨t, sig⟩) = .ok l) (x : SignedTx) (hx : x ∈ l) :
    x.validate N.toEnv S = .ok () ↔ StepDone S e .keyGenPublicKey ∧
      ∀ p : Signed KeyGenPublicKeyTx, InStore S (.keyGenPublicKey p) → p.tx.id.electionId = e.id.electionId → p.tx.publicKey = t.publicKey := by
  classical
  rw [encryptionKey_emitted hS hT he] at h
  cases h
  split at hx
  · rename_i hc
    rw [List.mem_singleton] at hx
    subst hx
    obtain ⟨ss, h0, hss, hst⟩ := getAll_pks hS hT e
    have hlen := (countIs_iff hst).1 hc.2
    rw [← electionAt_id hS he] at he
    have hin : ∀ p : Signed KeyGenPublicKeyTx, p ∈ ss ↔ InStore S (.keyGenPublicKey p) ∧ p.tx.id.electionId = e.id.electionId := by
      intro p
      have := hst.2 (.keyGenPublicKey p)
      simp only [List.mem_map, SignedTx.keyGenPublicKey.injEq, exists_eq_right, kindOf, and_true] at this
      exact this
    constructor
    · intro hv
      obtain ⟨e', he', _, pks, hp, _, hcov, hsame⟩ := EncryptionKeyTx.validateTx_ok.1 (SignedTx.validate_ok.1 hv).2.2
      have hee : e' = e := by
        obtain ⟨_, h1⟩ := he
        obtain ⟨_, h2⟩ := he'
        have h2 : S.getTransaction e.id = _ := h2
        rw [h1] at h2
        cases h2
        rfl
      subst hee
      have hpk : pks = ss := by
        have hp : S.getMultiple e'.id .keyGenPublicKey = _ := hp
        rw [h0] at hp
        have := Res.ok.inj hp
        exact ((List.map_injective_iff.2 fun a b h => SignedTx.keyGenPublicKey.inj h) this).symm
      subst hpk
      refine ⟨fun tr htr => ?_, fun p hp1 hp2 => hsame p ((hin p).2 ⟨hp1, hp2⟩)⟩
      obtain ⟨p, hp, h1, h2⟩ := hcov tr htr
      obtain ⟨h3, h4⟩ := (hin p).1 hp
      exact ⟨.keyGenPublicKey p, h3, h4, rfl, by rw [← h1, ← h2]; rfl⟩
    · rintro ⟨hdone, hsame⟩
      refine SignedTx.validate_ok.2 ⟨rfl, ?_, ?_⟩
      · rintro k ⟨⟩
        show N.edVerify e.authorityPublic _ _ = true
        rw [hc.1]
        exact hN sk _
      · refine EncryptionKeyTx.validateTx_ok.2 ⟨e, he, rfl, ss, h0, by simpa using hlen, fun tr htr => ?_, fun p hp => ?_⟩
        · obtain ⟨u, h1, h2, h3, h4⟩ := hdone tr htr
          cases u <;> simp only [kindOf, reduceCtorEq] at h3
          rename_i p
          simp only [trusteeOf, Option.some.injEq, Prod.mk.injEq] at h4
          exact ⟨p, (hin p).2 ⟨h1, h2⟩, h4⟩
        · exact hsame p ((hin p).1 hp).1 ((hin p).1 hp).2
  · simp at hx

example : (Toy.reaction 1 Toy.nodeKeys (Toy.nodeKeys.getLastD Toy.endTx)).length = 1 := by decide +kernel

/-! ## C43 -/

/-- **C43** (shares) A node without a trustee's key submits nothing; a trustee's node submits nothing unless the commitments stored for the election are as
many as its trustees, and when they are it submits its share transaction or crashes (never returns an error).  With the commitments in their trustees' own
slots and distinct trustees, "as many" means that every trustee has posted one.  Missing: without own slots it does not (`C43_step_complete_false`). -/
theorem C43_share_when_complete_partial (N : NodeEnv) (rng : Rng) (sk : SecretKey) (S : Store) (hS : Lawful S) (hT : Typed S) (e : ElectionTx)
    (t : KeyGenCommitmentTx) (sig : Signature) (he : ElectionAt S t.election e) :
    (generateTransactions N rng sk S (.keyGenCommitment ⟨t, sig⟩) = .ok [] ↔
      ¬ TrusteeKey e (N.edPublic sk) ∨ ¬ CountIs S e .keyGenCommitment e.trustees.length) ∧
    (∀ er, generateTransactions N rng sk S (.keyGenCommitment ⟨t, sig⟩) ≠ .err er) ∧
    (∀ l, generateTransactions N rng sk S (.keyGenCommitment ⟨t, sig⟩) = .ok l → l ≠ [] →
      ∃ s, l = [.keyGenShare s] ∧ s.tx.election = e.id ∧ s.tx.trusteePublicKey = N.edPublic sk ∧ IsTrustee e s.tx.trusteeIndex (N.edPublic sk) ∧
        s.tx.id = stepId e.id (.share s.tx.trusteeIndex)) ∧
    (DistinctTrustees e → OwnSlots S e .keyGenCommitment → (CountIs S e .keyGenCommitment e.trustees.length ↔ StepDone S e .keyGenCommitment)) := by
  refine ⟨⟨fun h => ?_, fun h => ?_⟩, fun er h => ?_, fun l h hne => ?_, countIs_done⟩
  · rcases share_emitted hS hT he h with ⟨_, h⟩ | ⟨_, _, _, _, _, _, _, _, _, _, h⟩
    · exact h
    · cases h
  · obtain ⟨esig, hel⟩ := getElection_at he
    obtain ⟨ss, hss, hst⟩ := getAll_commits hS hT e
    simp only [generateTransactions, processKeygenCommitment, hel, v_ok, Res.bind_def, Res.ok_bind]
    split
    · rename_i tr htr
      obtain ⟨hk, tr0, hm, _, hk0⟩ := trusteeFromElection_some htr
      have h := h.resolve_left fun hh => hh ⟨tr0, hm, hk0⟩
      rw [hss]
      simp only [Res.ok_bind, List.length_map]
      rw [if_neg fun hh => h ((countIs_iff hst).2 (by simpa using hh))]
      rfl
    · rfl
  · obtain ⟨esig, hel⟩ := getElection_at he
    obtain ⟨ss, hss, hst⟩ := getAll_commits hS hT e
    simp only [generateTransactions, processKeygenCommitment, hel, v_ok, Res.bind_def, Res.ok_bind] at h
    split at h
    · rename_i tr htr
      obtain ⟨hk, _⟩ := trusteeFromElection_some htr
      rw [hss] at h
      simp only [Res.ok_bind] at h
      split at h
      · rw [Res.bind_eq_err] at h
        rcases h with h | ⟨shares, _, h⟩
        · exact generateShares_no_err h
        · rw [sign_eq (by rintro k ⟨⟩; exact hk)] at h
          cases h
      · cases h
    · cases h
  · rcases share_emitted hS hT he h with ⟨h, _⟩ | ⟨_, ss, tr, g, shares, _, _, hit, hk, _, h⟩
    · exact absurd h hne
    · exact ⟨_, h, rfl, hk, hit, rfl⟩

example : DistinctTrustees Toy.election ∧ CountIs (MemStore.ofList Toy.nodeCommits).toStore Toy.election .keyGenCommitment 2 := by
  refine ⟨by unfold DistinctTrustees; decide +kernel, Toy.nodeCommits.drop 1, ⟨by decide +kernel, fun t => ?_⟩, by decide +kernel⟩
  have hall : (Toy.nodeCommits.drop 1).all (fun t => t.id.electionId == Toy.election.id.electionId && kindOf t == .keyGenCommitment) = true := by decide +kernel
  constructor
  · intro ht
    have := List.all_eq_true.1 hall t ht
    simp only [Bool.and_eq_true, beq_iff_eq] at this
    refine ⟨(MemStore.stored_iff _ _).2 ?_, this⟩
    obtain ⟨a, b, hab⟩ := List.append_of_mem ht
    have hnd : (Toy.nodeCommits.map SignedTx.id).Nodup := by decide +kernel
    have hcons : Toy.nodeCommits = (Toy.nodeCommits.take 1 ++ a) ++ t :: b := by rw [List.append_assoc, ← hab, List.take_append_drop]
    refine ⟨_, _, hcons, fun u hu heq => ?_⟩
    rw [hcons, List.map_append, List.map_cons, List.nodup_append] at hnd
    exact (List.nodup_cons.1 hnd.2.1).1 (List.mem_map.2 ⟨u, hu, heq⟩)
  · rintro ⟨h1, _, h3⟩
    obtain ⟨before, after, hsplit, _⟩ := (MemStore.stored_iff _ _).1 h1
    have hm : t ∈ Toy.nodeCommits := by rw [hsplit]; simp
    have : Toy.nodeCommits = Toy.electionTx :: Toy.nodeCommits.drop 1 := rfl
    rw [this] at hm
    rcases List.mem_cons.1 hm with rfl | hm
    · cases h3
    · exact hm

/-- **C43** (public keys) A node without a trustee's key submits nothing; a trustee's node submits nothing unless the share transactions stored for the election
are as many as its trustees; when they are and the node returns normally, it submits its public-key transaction.  With the shares in their trustees' own slots
and distinct trustees, "as many" means that every trustee has posted one.  Missing: as for shares. -/
theorem C43_public_key_when_complete_partial (N : NodeEnv) (rng : Rng) (sk : SecretKey) (S : Store) (hS : Lawful S) (hT : Typed S) (e : ElectionTx)
    (t : KeyGenShareTx) (sig : Signature) (he : ElectionAt S t.election e) :
    (generateTransactions N rng sk S (.keyGenShare ⟨t, sig⟩) = .ok [] ↔
      ¬ TrusteeKey e (N.edPublic sk) ∨ ¬ CountIs S e .keyGenShare e.trustees.length) ∧
    (∀ l, generateTransactions N rng sk S (.keyGenShare ⟨t, sig⟩) = .ok l → l ≠ [] →
      ∃ s, l = [.keyGenPublicKey s] ∧ s.tx.election = e.id ∧ s.tx.trusteePublicKey = N.edPublic sk ∧ IsTrustee e s.tx.trusteeIndex (N.edPublic sk) ∧
        s.tx.id = stepId e.id (.publicKey s.tx.trusteeIndex)) ∧
    (DistinctTrustees e → OwnSlots S e .keyGenShare → (CountIs S e .keyGenShare e.trustees.length ↔ StepDone S e .keyGenShare)) := by
  obtain ⟨esig, hel⟩ := getElection_at he
  obtain ⟨ss, hss, hst⟩ := getAll_shares hS hT e
  have key : ∀ l, generateTransactions N rng sk S (.keyGenShare ⟨t, sig⟩) = .ok l →
      (l = [] ∧ (¬ TrusteeKey e (N.edPublic sk) ∨ ¬ CountIs S e .keyGenShare e.trustees.length)) ∨
      ∃ s, l = [.keyGenPublicKey s] ∧ s.tx.election = e.id ∧ s.tx.trusteePublicKey = N.edPublic sk ∧ IsTrustee e s.tx.trusteeIndex (N.edPublic sk) ∧
        s.tx.id = stepId e.id (.publicKey s.tx.trusteeIndex) := by
    intro l h
    simp only [generateTransactions, processKeygenShare, hel, v_ok, Res.bind_def, Res.ok_bind] at h
    split at h
    · rename_i tr htr
      rw [hss] at h
      simp only [Res.ok_bind, List.length_map] at h
      split at h
      · rename_i hlen
        cases h
        exact .inl ⟨rfl, .inr fun hc => hlen (by simpa using (countIs_iff hst).1 hc)⟩
      · simp only [Res.bind_eq_ok] at h
        obtain ⟨commits, _, shares, _, pk, _, s, hs, hl⟩ := h
        cases hl
        obtain ⟨rfl, _⟩ := sign_ok hs
        obtain ⟨hk, hit⟩ := trusteeFromElection_some htr
        exact .inr ⟨_, rfl, rfl, hk, hit, rfl⟩
    · rename_i htr
      cases h
      exact .inl ⟨rfl, .inl (trusteeFromElection_none.1 htr)⟩
  refine ⟨⟨fun h => ?_, fun h => ?_⟩, fun l h hne => ?_, countIs_done⟩
  · rcases key _ h with ⟨_, h⟩ | ⟨_, h, _⟩
    · exact h
    · cases h
  · simp only [generateTransactions, processKeygenShare, hel, v_ok, Res.bind_def, Res.ok_bind]
    split
    · rename_i tr htr
      obtain ⟨hk, tr0, hm, _, hk0⟩ := trusteeFromElection_some htr
      have h := h.resolve_left fun hh => hh ⟨tr0, hm, hk0⟩
      rw [hss]
      simp only [Res.ok_bind, List.length_map]
      rw [if_pos fun hh => h ((countIs_iff hst).2 (by simpa using hh))]
      rfl
    · rfl
  · rcases key _ h with ⟨h, _⟩ | h
    · exact absurd h hne
    · exact h

/-- **C43** (encryption key) A node always returns normally on a public-key transaction.  It submits the encryption key, namely the key of that transaction, exactly when
it holds the authority's key and the public-key transactions stored for the election are as many as its trustees; with these in their trustees' own slots and
distinct trustees, that means that every trustee has posted one.  Missing: as for shares. -/
theorem C43_encryption_key_when_complete_partial (N : NodeEnv) (rng : Rng) (sk : SecretKey) (S : Store) (hS : Lawful S) (hT : Typed S) (e : ElectionTx)
    (t : KeyGenPublicKeyTx) (sig : Signature) (he : ElectionAt S t.election e) :
    (∃ l, generateTransactions N rng sk S (.keyGenPublicKey ⟨t, sig⟩) = .ok l ∧
      (l ≠ [] ↔ e.authorityPublic = N.edPublic sk ∧ CountIs S e .keyGenPublicKey e.trustees.length) ∧
      (l ≠ [] → ∃ s, l = [.encryptionKey s] ∧ s.tx.election = e.id ∧ s.tx.authorityPublicKey = e.authorityPublic ∧ s.tx.encryptionKey = t.publicKey ∧
        s.tx.id = stepId e.id .encryptionKey)) ∧
    (DistinctTrustees e → OwnSlots S e .keyGenPublicKey → (CountIs S e .keyGenPublicKey e.trustees.length ↔ StepDone S e .keyGenPublicKey)) := by
  classical
  refine ⟨⟨_, encryptionKey_emitted hS hT he, ?_, ?_⟩, countIs_done⟩
  · split
    · rename_i h; exact ⟨fun _ => h, fun _ h' => by cases h'⟩
    · rename_i h; exact ⟨fun h' => absurd rfl h', fun h' => absurd h' h⟩
  · intro h
    split at h
    · rename_i h'
      rw [if_pos h']
      exact ⟨_, rfl, rfl, rfl, rfl, rfl⟩
    · exact absurd rfl h

/-- **C43** (outsiders) A node whose key is neither a trustee's nor the authority's submits nothing, whatever transaction of the election is committed. -/
theorem C43_outsiders_silent (N : NodeEnv) (rng : Rng) (sk : SecretKey) (S : Store) (e : ElectionTx) (x : SignedTx) (hx : InStore S x)
    (he : ElectionAt S (electionOf x) e) (h1 : ¬ TrusteeKey e (N.edPublic sk)) (h2 : e.authorityPublic ≠ N.edPublic sk) :
    generateTransactions N rng sk S x = .ok [] := by
  obtain ⟨esig, hel⟩ := getElection_at he
  have hn := trusteeFromElection_none.2 h1
  cases x <;> simp only [electionOf] at hel <;>
    simp only [generateTransactions, processKeygenCommitment, processKeygenShare, processKeygenPublicKey, processVotingEnd, processMix,
      processPartialDecryption, hel, hn, v_ok, Res.bind_def, Res.ok_bind, if_neg h2, Res.pure_def]
  obtain ⟨sig', he⟩ := he
  have hx : S.getTransaction _ = some _ := hx
  simp only [electionOf] at he
  simp only [SignedTx.id] at hx
  rw [he] at hx
  cases hx
  simp only [processElection, hn, Res.pure_def]

example : ¬ TrusteeKey Toy.election (Toy.node.edPublic (Toy.key 99)) ∧ Toy.election.authorityPublic ≠ Toy.node.edPublic (Toy.key 99) := by
  refine ⟨?_, by decide +kernel⟩
  rintro ⟨tr, htr, hk⟩
  have : (Toy.election.trustees.all fun tr => tr.publicKey != Toy.key 99) = true := by decide +kernel
  have := List.all_eq_true.1 this tr htr
  simp only [bne_iff_ne] at this
  exact this hk

/-- **C43** fails in general: a node submits its share although a trustee has posted no commitment, because another trustee posted two. -/
theorem C43_step_complete_false :
    ¬ ∀ (N : NodeEnv) (rng : Rng) (sk : SecretKey) (m : MemStore), Ledger N.toEnv m → ∀ (e : ElectionTx) (t : KeyGenCommitmentTx) (sig : Signature),
      ElectionAt m.toStore t.election e → InStore m.toStore (.keyGenCommitment ⟨t, sig⟩) →
      ∀ l, generateTransactions N rng sk m.toStore (.keyGenCommitment ⟨t, sig⟩) = .ok l → l ≠ [] → StepDone m.toStore e .keyGenCommitment := by
  intro h
  have hl : Ledger Toy.node.toEnv (MemStore.ofList strayLedger) := ledger_of_run (by decide +kernel)
  have hx : (match generateTransactions Toy.node Toy.rng (Toy.key 11) (MemStore.ofList strayLedger).toStore strayCommit with
    | .ok [_] => true
    | _ => false) = true := by decide +kernel
  split at hx
  · rename_i x hg
    have hd := h Toy.node Toy.rng (Toy.key 11) _ hl Toy.election _ _ ⟨Toy.sig 1, rfl⟩ (by rfl) _ hg (by simp)
    obtain ⟨t, h1, _, _, h4⟩ := hd (Toy.trustee 2 12) (by decide +kernel)
    have hno : (strayLedger.all fun t => decide (trusteeOf t ≠ some ((Toy.trustee 2 12).index, (Toy.trustee 2 12).publicKey))) = true := by decide +kernel
    have := forall_inStore (List.all_eq_true.1 hno) t h1
    exact of_decide_eq_true this h4
  · cases hx

/-- The nodes' reactions to each other really complete a set-up: eight transactions, each accepted. -/
theorem Toy.nodeSetup_runs : (runLedger Toy.env .empty Toy.nodeSetup).isSome = true := by decide +kernel
example : Toy.nodeSetup.length = 8 := by decide +kernel

end CB
