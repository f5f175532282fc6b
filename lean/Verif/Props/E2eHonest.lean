import Verif.Props.E2e
import Verif.Props.Mixing
import Verif.Props.Voting
import Verif.Lemmas.AcceptDec
import Verif.Props.Api
/-!
# C59: an honest ledger passes end-to-end verification
-/

namespace CB
open Spec

namespace Spec

/-- What honest participants observe beyond what validation checks. -/
def Orderly (m : MemStore) : SignedTx → Prop
  -- trustees are numbered from 1
  | .election s => ∀ tr ∈ s.tx.trustees, tr.index ≠ 0
  -- key generation, encryption key and voting end are filed under the election they are about
  | .keyGenCommitment s => s.tx.election.electionId = s.tx.id.electionId
  | .keyGenShare s => s.tx.election.electionId = s.tx.id.electionId
  | .encryptionKey s => s.tx.election.electionId = s.tx.id.electionId
  | .votingEnd s => s.tx.election.electionId = s.tx.id.electionId
  -- one public key per trustee: the id is made of election and trustee index
  | .keyGenPublicKey s => s.tx.id = KeyGenPublicKeyTx.buildId s.tx.election s.tx.trusteeIndex
  -- voters' keys differ in their first ten bytes
  | .vote s => ∀ v : Signed VoteTx, InStore m.toStore (.vote v) → v.tx.election.electionId = s.tx.election.electionId →
      v.tx.anonymousKey.val.take 10 ≠ s.tx.anonymousKey.val.take 10
  -- mixing starts after the end of voting
  | .mix s => SlotFilled m.toStore s.tx.electionId .votingEnd
  -- what is decrypted is of the same election
  | .partialDecryption s => s.tx.upstreamId.electionId = s.tx.electionId.electionId
  | .decryption s => s.tx.upstreamId.electionId = s.tx.electionId.electionId

/-- An append-only ledger on which everything filed under an election in `P` is orderly; about other elections nothing is said. -/
inductive OrderlyLedger (E : Env) (P : BArr 15 → Prop) : MemStore → Prop
  | empty : OrderlyLedger E P .empty
  | append {m : MemStore} {t : SignedTx} : OrderlyLedger E P m → m.getTransaction t.id = none → t.validate E m.toStore = .ok () →
      (P t.id.electionId → Orderly m t) → OrderlyLedger E P (m.set t)

end Spec

namespace E2e

theorem orderly_ledger {E : Env} {P : BArr 15 → Prop} {m : MemStore} (h : OrderlyLedger E P m) : Ledger E m := by
  induction h with
  | empty => exact .empty
  | append _ hf hv _ ih => exact .append ih hf hv

theorem orderly_accepted {E : Env} {P : BArr 15 → Prop} {eid : BArr 15} (hP : P eid) {m : MemStore} (h : OrderlyLedger E P m) {id : Identifier} {t : SignedTx}
    (ht : m.getTransaction id = some t) (heid : id.electionId = eid) :
    ∃ m0, OrderlyLedger E P m0 ∧ m0.getTransaction t.id = none ∧ t.validate E m0.toStore = .ok () ∧ Orderly m0 t ∧ LedgerSteps E (m0.set t) m := by
  induction h with
  | empty => rw [MemStore.get_empty] at ht; cases ht
  | @append m u hm hf hv ho ih =>
    rw [MemStore.get_set] at ht
    split at ht
    · rename_i heq
      cases ht
      exact ⟨m, hm, hf, hv, ho (by rw [← heq, heid]; exact hP), .refl⟩
    · obtain ⟨m0, a, b, c, d, e⟩ := ih ht
      exact ⟨m0, a, b, c, d, .append e hf hv⟩

theorem steps_trans {E : Env} {a b c : MemStore} (h : LedgerSteps E a b) (h' : LedgerSteps E b c) : LedgerSteps E a c := by
  induction h' with
  | refl => exact h
  | append _ hf hv ih => exact .append ih hf hv

theorem id_lt_of_type {a b : Identifier} (h : a.electionId = b.electionId) (ht : a.txType.toU8 < b.txType.toU8) : a.cmp b = .lt := by
  unfold Identifier.cmp
  rw [h, cmpBytes_refl]
  have : compare a.txType.toU8 b.txType.toU8 = .lt := by
    simp [compare, compareOfLessAndEq, ht]
  simp [this]

theorem not_id_lt_of_type {a b : Identifier} (h : a.electionId = b.electionId) (ht : b.txType.toU8 < a.txType.toU8) : a.cmp b ≠ .lt := by
  unfold Identifier.cmp
  rw [h, cmpBytes_refl]
  have : compare a.txType.toU8 b.txType.toU8 = .gt := by
    have h1 : ¬ a.txType.toU8 < b.txType.toU8 := UInt8.lt_asymm ht
    have h2 : a.txType.toU8 ≠ b.txType.toU8 := fun h => by rw [h] at ht; exact UInt8.lt_irrefl _ ht
    simp [compare, compareOfLessAndEq, h1, h2]
  simp [this]

/-- `B` holds exactly the transactions of the elections in `P` that come before `t` in the order of ids. -/
structure Below (m : MemStore) (P : BArr 15 → Prop) (t : SignedTx) (B : MemStore) : Prop where
  wf : B.WF
  get : ∀ id u, B.getTransaction id = some u ↔ m.getTransaction id = some u ∧ P id.electionId ∧ id.cmp t.id = .lt

namespace Below
variable {m : MemStore} {P : BArr 15 → Prop} {eid : BArr 15} {t : SignedTx} {B : MemStore}

theorem lookup (h : Below m P t B) (hP : P eid) {m0 : MemStore} (hx : Extends m0 m) {id : Identifier} {u : SignedTx} (hu : m0.getTransaction id = some u)
    (he : id.electionId = eid) (ht : t.id.electionId = eid) (hty : id.txType.toU8 < t.id.txType.toU8) : B.getTransaction id = some u :=
  (h.get _ _).2 ⟨hx _ _ hu, he ▸ hP, id_lt_of_type (he.trans ht.symm) hty⟩

theorem election (h : Below m P t B) (hP : P eid) {E : Env} {m0 : MemStore} (hr : Replay E m0) (hx : Extends m0 m) {id : Identifier} {e : ElectionTx}
    (hu : ElectionAt m0.toStore id e) (he : id.electionId = eid) (ht : t.id.electionId = eid) (hty : (1 : UInt8) < t.id.txType.toU8) :
    ElectionAt B.toStore id e := by
  obtain ⟨sig, hs⟩ := hu
  refine ⟨sig, h.lookup hP hx hs he ht ?_⟩
  have := hr.typed hs
  rw [this]
  exact hty

theorem slot (h : Below m P t B) (hP : P eid) {m0 : MemStore} (hx : Extends m0 m) {id : Identifier} {ty : TxType}
    (hu : SlotFilled m0.toStore id ty) (he : id.electionId = eid) (ht : t.id.electionId = eid) (hty : ty.toU8 < t.id.txType.toU8) :
    SlotFilled B.toStore id ty := by
  obtain ⟨x, hs⟩ := hu
  exact ⟨x, h.lookup hP hx hs he ht hty⟩

end Below

/-- Elections are filed under the one id their election id allows. -/
theorem election_id_eq {E : Env} {m : MemStore} (hr : Replay E m) {id : Identifier} {e : ElectionTx} (h : ElectionAt m.toStore id e) :
    id = ⟨id.electionId, .election, zero16⟩ := by
  obtain ⟨sig, hs⟩ := h
  obtain ⟨m0, _, hv⟩ := hr.accepted hs
  have h1 := (ElectionTx.validateTx_ok.1 (SignedTx.validate_ok.1 hv).2.2).1
  have h2 : e.id = id := MemStore.get_id hr.wf hs
  rw [h2] at h1
  exact h1

theorem electionAt_unique {E : Env} {m m' : MemStore} (hr : Replay E m) (hr' : Replay E m') (hx : Extends m m') {id id' : Identifier} {e e' : ElectionTx}
    (h : ElectionAt m.toStore id e) (h' : ElectionAt m'.toStore id' e') (hid : id.electionId = id'.electionId) : e = e' := by
  have h1 := election_id_eq hr h
  have h2 := election_id_eq hr' h'
  obtain ⟨s, hs⟩ := h
  obtain ⟨s', hs'⟩ := h'
  have : id = id' := by rw [h1, h2, hid]
  subst this
  have := hx _ _ hs
  rw [show m'.getTransaction id = some (.election ⟨e', s'⟩) from hs'] at this
  cases this
  rfl

/-- Once the encryption key is accepted, no public key of the election is ever added. -/
theorem pks_complete {E : Env} {P : BArr 15 → Prop} {eid : BArr 15} (hP : P eid) {m0 m : MemStore} (hm0 : OrderlyLedger E P m0) (hm : OrderlyLedger E P m) (hx : Extends m0 m)
    {k : Signed EncryptionKeyTx} (hk : (SignedTx.encryptionKey k).validate E m0.toStore = .ok ()) (hke : k.tx.election.electionId = eid)
    {id : Identifier} {p : SignedTx} (hp : m.getTransaction id = some p) (hpe : id.electionId = eid) (hpt : id.txType = .keyGenPublicKey) :
    m0.getTransaction id = some p := by
  have hr0 := (orderly_ledger hm0).replay
  have hr := (orderly_ledger hm).replay
  obtain ⟨e, he, _, pks, hmul, _, hall, _⟩ := EncryptionKeyTx.validateTx_ok.1 (SignedTx.validate_ok.1 hk).2.2
  have hty := hr.typed hp
  rw [hpt] at hty
  have hpk : ∃ s, p = .keyGenPublicKey s := by cases p <;> simp [SignedTx.transactionType] at hty ⊢
  obtain ⟨s, rfl⟩ := hpk
  obtain ⟨m1, hm1, _, hv, ho, hst⟩ := orderly_accepted hP hm hp hpe
  have hid : s.tx.id = id := MemStore.get_id hr.wf hp
  have ho : s.tx.id = KeyGenPublicKeyTx.buildId s.tx.election s.tx.trusteeIndex := ho
  have hse : s.tx.election.electionId = eid := by
    rw [← hpe, ← hid, ho]; rfl
  obtain ⟨e1, he1, tr, htr, hti, htk⟩ := KeyGenPublicKeyTx.validateTx_ok.1 (SignedTx.validate_ok.1 hv).2.2
  have hx1 : Extends m1 m := fun i u hu => hst.extends _ _ (Extends.set_fresh (by assumption) _ _ hu)
  obtain ⟨sg1, hs1⟩ := he1
  have heq : e = e1 := electionAt_unique hr0 hr hx he ⟨sg1, hx1 _ _ hs1⟩ (hke.trans hse.symm)
  subst heq
  obtain ⟨q, hq, hqi, hqk⟩ := hall tr htr
  obtain ⟨l, hl1, hl2, _⟩ := (orderly_ledger hm0).lawful.getMultiple k.tx.election .keyGenPublicKey
  rw [hmul] at hl1
  cases hl1
  obtain ⟨hq1, hq2, _⟩ := (hl2 (.keyGenPublicKey q)).1 (List.mem_map.2 ⟨q, hq, rfl⟩)
  have hq1' : m0.getTransaction q.tx.id = some (.keyGenPublicKey q) := hq1
  have hq2' : q.tx.id.electionId = k.tx.election.electionId := hq2
  obtain ⟨_, _, _, _, hoq, _⟩ := orderly_accepted hP hm0 hq1' (hq2'.trans hke)
  have hoq : q.tx.id = KeyGenPublicKeyTx.buildId q.tx.election q.tx.trusteeIndex := hoq
  have hqe : q.tx.election.electionId = eid := by
    rw [← hke, ← hq2', hoq]; rfl
  have : q.tx.id = id := by
    rw [← hid, ho, hoq]
    simp only [KeyGenPublicKeyTx.buildId, Identifier.new, hqe, hse, hqi, hti]
  rw [this] at hq1'
  have h3 := hx _ _ hq1'
  rw [hp] at h3
  rw [hq1', h3]

/-- The list of public keys of the election is the same in any ledger after the encryption key. -/
theorem pks_same {E : Env} {P : BArr 15 → Prop} {eid : BArr 15} (hP : P eid) {m0 m : MemStore} (hm0 : OrderlyLedger E P m0) (hm : OrderlyLedger E P m) (hx : Extends m0 m)
    {k : Signed EncryptionKeyTx} (hk : (SignedTx.encryptionKey k).validate E m0.toStore = .ok ()) (hke : k.tx.election.electionId = eid)
    {t : SignedTx} {B : MemStore} (hB : Below m P t B) (ht : t.id.electionId = eid) (hty : (4 : UInt8) < t.id.txType.toU8) {e : Identifier} (hee : e.electionId = eid)
    {m1 : MemStore} (hm1 : OrderlyLedger E P m1) (hx01 : Extends m0 m1) (hx1 : Extends m1 m) :
    B.toStore.getMultiple e .keyGenPublicKey = m1.toStore.getMultiple e .keyGenPublicKey := by
  obtain ⟨l, h1, h2, h3⟩ := (MemStore.lawful hB.wf).getMultiple e .keyGenPublicKey
  obtain ⟨l', h1', h2', h3'⟩ := (orderly_ledger hm1).lawful.getMultiple e .keyGenPublicKey
  rw [h1, h1']
  congr 1
  refine MemStore.idLt_ext h3 h3' fun u => ?_
  rw [h2, h2']
  constructor
  · rintro ⟨a, b, c⟩
    have := ((hB.get _ _).1 a).1
    exact ⟨hx01 _ _ (pks_complete hP hm0 hm hx hk hke this (b.trans hee) c), b, c⟩
  · rintro ⟨a, b, c⟩
    exact ⟨hB.lookup hP hx1 a (b.trans hee) ht (by rw [c]; exact hty), b, c⟩

/-- No two votes of the election share the first ten bytes of their key. -/
theorem votes_distinct {E : Env} {P : BArr 15 → Prop} {eid : BArr 15} (hP : P eid) {m : MemStore} (hm : OrderlyLedger E P m) {u v : Signed VoteTx}
    (hu : m.getTransaction u.tx.id = some (.vote u)) (hv : m.getTransaction v.tx.id = some (.vote v)) (hue : u.tx.id.electionId = eid)
    (hve : v.tx.id.electionId = eid) (h : u.tx.anonymousKey.val.take 10 = v.tx.anonymousKey.val.take 10) : u = v := by
  induction hm with
  | empty => rw [MemStore.get_empty] at hu; cases hu
  | @append m t hm hf hval ho ih =>
    have helec : ∀ w : Signed VoteTx, (Replay E m) → m.getTransaction w.tx.id = some (.vote w) → w.tx.id.electionId = w.tx.election.electionId := by
      intro w hr hw
      obtain ⟨m0, _, hv⟩ := hr.accepted hw
      rw [(VoteTx.validateTx_ok_store.1 (SignedTx.validate_ok.1 hv).2.2).1]; rfl
    have helec' : ∀ w : Signed VoteTx, t = .vote w → w.tx.id.electionId = w.tx.election.electionId := by
      rintro w rfl
      rw [(VoteTx.validateTx_ok_store.1 (SignedTx.validate_ok.1 hval).2.2).1]; rfl
    have hr := (orderly_ledger hm).replay
    rw [MemStore.get_set] at hu hv
    split at hu <;> split at hv
    · cases hu; cases hv; rfl
    · cases hu
      refine absurd h.symm (ho (hue ▸ hP) v hv ?_)
      rw [← helec v hr hv, ← helec' u rfl, hue, hve]
    · cases hv
      refine absurd h (ho (hve ▸ hP) u hu ?_)
      rw [← helec u hr hu, ← helec' v rfl, hue, hve]
    · exact ih hu hv

theorem upstream_congr {S S' : Store} {up : Identifier} {i : UInt16} {c : UInt32} {cfg : Option MixConfig} (h : S.getTransaction up = S'.getTransaction up) :
    encryptedVoteFromUpstream S up i c cfg = encryptedVoteFromUpstream S' up i c cfg := by
  unfold encryptedVoteFromUpstream
  simp only [Store.getVote, Store.getMix, h]

/-- What is decrypted is a vote or a mix that is in the store. -/
theorem upstream_present {m : MemStore} {up : Identifier} {i : UInt16} {c : UInt32} {cfg : Option MixConfig} {cts : List Ciphertext}
    (h : encryptedVoteFromUpstream m.toStore up i c cfg = .ok cts) :
    ∃ u, m.getTransaction up = some u ∧ (up.txType = .vote ∨ up.txType = .mix) := by
  cases encryptedVoteFromUpstream_sound h with
  | ofVote a b => exact ⟨_, a, .inl b⟩
  | ofMix a b => exact ⟨_, a, .inr b⟩

theorem mix_id_lt {e : Identifier} {c b : UInt32} {i j ti tj : UInt8} (h : i < j) : (MixTx.buildId e c b i ti).cmp (MixTx.buildId e c b j tj) = .lt := by
  unfold Identifier.cmp
  simp only [MixTx.buildId, Identifier.new, Option.getD_some, cmpBytes_refl, MixTx.uniqueInfo, List.append_assoc, cmpBytes_append_left]
  simp [cmpBytes, compare, compareOfLessAndEq, h]

/-- Before a vote or mix there was the encryption key, itself accepted. -/
theorem upstream_key {E : Env} {P : BArr 15 → Prop} {eid : BArr 15} (hP : P eid) {m : MemStore} (hm : OrderlyLedger E P m) {up : Identifier} {u : SignedTx}
    (hu : m.getTransaction up = some u) (he : up.electionId = eid) (ht : up.txType = .vote ∨ up.txType = .mix) :
    ∃ (k : Signed EncryptionKeyTx) (mk : MemStore), OrderlyLedger E P mk ∧ (SignedTx.encryptionKey k).validate E mk.toStore = .ok () ∧
      k.tx.election.electionId = eid ∧ Extends mk m := by
  have hr := (orderly_ledger hm).replay
  obtain ⟨m0, hm0, hf, hv, -, hst⟩ := orderly_accepted hP hm hu he
  have hx : Extends m0 m := fun i u hu => hst.extends _ _ (Extends.set_fresh hf _ _ hu)
  have hr0 := (orderly_ledger hm0).replay
  have hid : u.id = up := MemStore.get_id hr.wf hu
  have hty := hr.typed hu
  have hslot : ∃ x e, e.electionId = eid ∧ m0.getTransaction (singleId e .encryptionKey) = some x := by
    rcases ht with ht | ht <;> rw [ht] at hty
    · cases u <;> simp [SignedTx.transactionType] at hty
      rename_i s
      obtain ⟨hid', e, _, _, ⟨x, hk⟩, _⟩ := (VoteTx.validateTx_ok hr0.lawful).1 (SignedTx.validate_ok.1 hv).2.2
      refine ⟨x, s.tx.election, ?_, hk⟩
      rw [← he, ← hid]; show _ = s.tx.id.electionId; rw [hid']; rfl
    · cases u <;> simp [SignedTx.transactionType] at hty
      rename_i s
      obtain ⟨hid', e, _, _, _, _, _, _, _, _, _, key, ksig, hk, _⟩ := (MixTx.validateTx_ok hr0.lawful).1 (SignedTx.validate_ok.1 hv).2.2
      refine ⟨_, s.tx.electionId, ?_, hk⟩
      rw [← he, ← hid]; show _ = s.tx.id.electionId; rw [hid']; rfl
  obtain ⟨x, e, hee, hk⟩ := hslot
  have hkt : x.transactionType = .encryptionKey := (hr0.typed hk).symm
  cases x <;> simp [SignedTx.transactionType] at hkt
  rename_i k
  obtain ⟨mk, hmk, hfk, hvk, hok, hstk⟩ := orderly_accepted hP hm0 hk hee
  refine ⟨k, mk, hmk, hvk, ?_, fun i u h => hx _ _ (hstk.extends _ _ (Extends.set_fresh hfk _ _ h))⟩
  have hkid : k.tx.id = singleId e .encryptionKey := MemStore.get_id hr0.wf hk
  have hok : k.tx.election.electionId = k.tx.id.electionId := hok
  rw [hok, hkid]
  exact hee

/-- **The heart of C59**: what was accepted onto the ledger is accepted again against only those transactions of the election that have smaller ids. -/
theorem validates_below {E : Env} {P : BArr 15 → Prop} {eid : BArr 15} (hP : P eid) {m : MemStore} (hm : OrderlyLedger E P m) {t : SignedTx} (ht : m.getTransaction t.id = some t)
    (heid : t.id.electionId = eid) {B : MemStore} (hB : Below m P t B) : t.validate E B.toStore = .ok () := by
  obtain ⟨m0, hm0, hf, hv, ho, hst⟩ := orderly_accepted hP hm ht heid
  have hx : Extends m0 m := fun i u hu => hst.extends _ _ (Extends.set_fresh hf _ _ hu)
  have hr0 := (orderly_ledger hm0).replay
  have hr := (orderly_ledger hm).replay
  obtain ⟨h1, h2, h3⟩ := SignedTx.validate_ok.1 hv
  refine SignedTx.validate_ok.2 ⟨h1, h2, ?_⟩
  have hty : t.id.txType.toU8 = t.transactionType.toU8 := by rw [h1]
  cases t with
  | election s => exact h3
  | keyGenCommitment s =>
    have hty : _ = (2 : UInt8) := hty
    obtain ⟨e, he, htr⟩ := KeyGenCommitmentTx.validateTx_ok.1 h3
    exact KeyGenCommitmentTx.validateTx_ok.2 ⟨e, hB.election hP hr0 hx he (Eq.trans ho heid) heid (by rw [hty]; decide), htr⟩
  | keyGenShare s =>
    have hty : _ = (3 : UInt8) := hty
    obtain ⟨e, he, htr⟩ := KeyGenShareTx.validateTx_ok.1 h3
    exact KeyGenShareTx.validateTx_ok.2 ⟨e, hB.election hP hr0 hx he (Eq.trans ho heid) heid (by rw [hty]; decide), htr⟩
  | keyGenPublicKey s =>
    have hty : _ = (4 : UInt8) := hty
    obtain ⟨e, he, htr⟩ := KeyGenPublicKeyTx.validateTx_ok.1 h3
    have ho : s.tx.id = KeyGenPublicKeyTx.buildId s.tx.election s.tx.trusteeIndex := ho
    have hse : s.tx.election.electionId = eid := by
      rw [← heid]; show _ = s.tx.id.electionId; rw [ho]; rfl
    exact KeyGenPublicKeyTx.validateTx_ok.2 ⟨e, hB.election hP hr0 hx he hse heid (by rw [hty]; decide), htr⟩
  | votingEnd s =>
    have hty : _ = (7 : UInt8) := hty
    obtain ⟨e, he, htr⟩ := VotingEndTx.validateTx_ok.1 h3
    exact VotingEndTx.validateTx_ok.2 ⟨e, hB.election hP hr0 hx he (Eq.trans ho heid) heid (by rw [hty]; decide), htr⟩
  | encryptionKey s =>
    have hty : _ = (5 : UInt8) := hty
    obtain ⟨e, he, hau, pks, hmul, hrest⟩ := EncryptionKeyTx.validateTx_ok.1 h3
    have hse : s.tx.election.electionId = eid := Eq.trans ho heid
    refine EncryptionKeyTx.validateTx_ok.2 ⟨e, hB.election hP hr0 hx he hse heid (by rw [hty]; decide), hau, pks, ?_, hrest⟩
    rw [pks_same hP hm0 hm hx hv hse hB heid (by rw [hty]; decide) hse hm0 (.refl _) hx]
    exact hmul
  | vote s =>
    have hty : _ = (6 : UInt8) := hty
    obtain ⟨hid, e, he, hcol, hkey, hend, hau, hba⟩ := (VoteTx.validateTx_ok hr0.lawful).1 h3
    have hse : s.tx.election.electionId = eid := by
      rw [← heid]; show _ = s.tx.id.electionId; rw [hid]; rfl
    refine (VoteTx.validateTx_ok (MemStore.lawful hB.wf)).2 ⟨hid, e, hB.election hP hr0 hx he hse heid (by rw [hty]; decide), ?_,
      hB.slot hP hx hkey hse heid (by rw [hty]; decide), ?_, hau, hba⟩
    · cases hc : B.toStore.getTransaction (collisionId s.tx.election s.tx.anonymousKey) with
      | none => rfl
      | some u =>
        exfalso
        obtain ⟨a, b, c⟩ := (hB.get _ _).1 hc
        have hut := hr.typed a
        have hu : ∃ w, u = .vote w := by
          have : u.transactionType = .vote := hut.symm
          cases u <;> simp [SignedTx.transactionType] at this ⊢
        obtain ⟨w, rfl⟩ := hu
        have hwid : w.tx.id = collisionId s.tx.election s.tx.anonymousKey := MemStore.get_id hr.wf a
        obtain ⟨m1, _, hv1⟩ := hr.accepted a
        have hwb := (VoteTx.validateTx_ok_store.1 (SignedTx.validate_ok.1 hv1).2.2).1
        have hpre : w.tx.anonymousKey.val.take 10 = s.tx.anonymousKey.val.take 10 := by
          have h5 := congrArg (fun i : Identifier => i.uniqueInfo.val.take 10) (hwb.symm.trans hwid)
          simp only [VoteTx.buildId, Identifier.new, Option.getD_some, VoteTx.keyPrefix16, collisionId, List.take_take] at h5
          rw [List.take_append_of_le_length (by have := s.tx.anonymousKey.property; simp; omega), List.take_take] at h5
          simpa using h5
        have := votes_distinct hP hm (by rw [hwid]; exact a) ht (by rw [hwid]; exact hse) heid hpre
        subst this
        rw [← hwid] at c
        change w.tx.id.cmp w.tx.id = .lt at c
        rw [(Identifier.cmp_eq_iff _ _).2 rfl] at c
        cases c
    · rintro ⟨x, hxx⟩
      have := ((hB.get _ _).1 hxx).2.2
      exact not_id_lt_of_type (a := singleId s.tx.election .votingEnd) (hse.trans heid.symm) (by rw [hty]; show (6 : UInt8) < 7; decide) this
  | mix s =>
    have hty : _ = (8 : UInt8) := hty
    obtain ⟨hid, e, he, hmc, htr, hov, hmi, hlen, inputs, hin, hov2, key, ksig, hk, hver⟩ := (MixTx.validateTx_ok hr0.lawful).1 h3
    have hse : s.tx.electionId.electionId = eid := by
      rw [← heid]; show _ = s.tx.id.electionId; rw [hid]; rfl
    have hkB := hB.lookup hP hx hk hse heid (by rw [hty]; show (5 : UInt8) < 8; decide)
    refine (MixTx.validateTx_ok (MemStore.lawful hB.wf)).2 ⟨hid, e, hB.election hP hr0 hx he hse heid (by rw [hty]; decide), hmc, htr, hov, hmi, hlen,
      inputs, ?_, ?_, key, ksig, hkB, hver⟩
    · cases hin with
      | @first votes hp h0 hall hids =>
        refine .first hp h0 ⟨fun u => ?_, hall.2⟩ hids
        rw [← hall.1 u]
        have hfz := (C17_no_votes_after_end E m0 s.tx.electionId ho).2 m
          (LedgerSteps.replaySteps (by
            exact steps_trans (.append .refl hf hv) hst))
        constructor
        · rintro ⟨a, b, c⟩
          have := ((hB.get _ _).1 a).1
          rw [hfz _ b c] at this
          exact ⟨this, b, c⟩
        · rintro ⟨a, b, c⟩
          exact ⟨hB.lookup hP hx a (b.trans hse) heid (by rw [c, hty]; decide), b, c⟩
      | @next pid prev psig hp hg hmi' hel hco hba hvi =>
        refine .next hp ((hB.get _ _).2 ⟨hx _ _ hg, ?_⟩) hmi' hel hco hba hvi
        have hpid : prev.id = pid := MemStore.get_id hr0.wf hg
        obtain ⟨m1, hm1, _, hv1, hst1⟩ := (orderly_ledger hm0).accepted hg
        obtain ⟨hid1, e1, he1, _, htr1, _, hmi1, _⟩ := (MixTx.validateTx_ok hm1.lawful).1 (SignedTx.validate_ok.1 hv1).2.2
        have hpe : pid.electionId = eid := by rw [← hpid, hid1, ← hse, hel]; rfl
        refine ⟨hpe ▸ hP, ?_⟩
        have hx1 : Extends m1 m0 := fun i u hu => hst1.extends _ _ (Extends.set_fresh (by assumption) _ _ hu)
        have hee : e1 = e := electionAt_unique hm1.replay hr0 hx1 he1 he (by rw [← hel])
        subst hee
        have hnz : prev.trusteeIndex ≠ 0 := by
          intro h0
          obtain ⟨tr, htr, hti, _⟩ := htr1
          obtain ⟨sg, hsg⟩ := he
          obtain ⟨_, _, _, _, hoe, _⟩ := orderly_accepted hP hm0 hsg hse
          exact hoe tr htr (hti.trans h0)
        have hlt : prev.mixIndex < s.tx.mixIndex := by
          rw [hmi', hmi1]
          have : prev.trusteeIndex.toNat ≠ 0 := fun h => hnz (UInt8.toNat_inj.1 h)
          have := prev.trusteeIndex.toNat_lt
          rw [UInt8.lt_iff_toNat_lt]
          simp only [UInt8.toNat_add, UInt8.toNat_sub]
          simp
          omega
        rw [← hpid, hid1]
        show Identifier.cmp _ s.tx.id = .lt
        rw [hid, ← hel, ← hco, ← hba]
        exact mix_id_lt hlt
    · intro pid prev sg hpm hgm
      cases hin with
      | first hp => rw [hp] at hpm; cases hpm
      | @next pid' prev' psig hp hg =>
        rw [hp] at hpm
        cases hpm
        have h6 := ((hB.get _ _).1 hgm).1
        rw [hx _ _ hg] at h6
        cases h6
        exact hov2 _ _ _ hp hg
  | partialDecryption s =>
    have hty : _ = (9 : UInt8) := hty
    obtain ⟨e, he, htr, hid, hend, cts, hcts, pk, psig, hpk, hrest⟩ := PartialDecryptionTx.validateTx_ok.1 h3
    have hse : s.tx.electionId.electionId = eid := by
      rw [← heid]; show _ = s.tx.id.electionId; rw [hid]; rfl
    refine PartialDecryptionTx.validateTx_ok.2 ⟨e, hB.election hP hr0 hx he hse heid (by rw [hty]; decide), htr, hid, hB.slot hP hx hend hse heid (by rw [hty]; decide), cts, ?_,
      pk, psig, hB.lookup hP hx hpk hse heid (by rw [hty]; show (4 : UInt8) < 9; decide), hrest⟩
    rw [← hcts]
    obtain ⟨u, hu, hut⟩ := upstream_present hcts
    refine upstream_congr ((hB.lookup hP hx hu (Eq.trans ho hse) heid ?_).trans hu.symm)
    rw [hty]
    rcases hut with hut | hut <;> rw [hut] <;> decide
  | decryption s =>
    have hty : _ = (10 : UInt8) := hty
    obtain ⟨hid, e, he, cts, hcts, pks, hpks, ps, hlen, hps, hth, hdec⟩ := DecryptionTx.validateTx_ok.1 h3
    have hse : s.tx.electionId.electionId = eid := by
      rw [← heid]; show _ = s.tx.id.electionId; rw [hid]; rfl
    obtain ⟨u, hu, hut⟩ := upstream_present hcts
    have hue : s.tx.upstreamId.electionId = eid := Eq.trans ho hse
    refine DecryptionTx.validateTx_ok.2 ⟨hid, e, hB.election hP hr0 hx he hse heid (by rw [hty]; decide), cts, ?_, pks, ?_, ps, hlen, ?_, hth, hdec⟩
    · rw [← hcts]
      refine upstream_congr ((hB.lookup hP hx hu hue heid ?_).trans hu.symm)
      rw [hty]
      rcases hut with hut | hut <;> rw [hut] <;> decide
    · obtain ⟨k, mk, hmk, hvk, hke, hxk⟩ := upstream_key hP hm0 hu hue hut
      rw [pks_same hP hmk hm (fun i u h => hx _ _ (hxk _ _ h)) hvk hke hB heid (by rw [hty]; decide) hse hm0 hxk hx]
      exact hpks
    · intro n i p hn hp
      obtain ⟨a, b⟩ := hps n i p hn hp
      exact ⟨a, hB.lookup hP hx b hse heid (by rw [hty]; show (9 : UInt8) < 10; decide)⟩

/-- A transaction accepted against an empty store is an election. -/
theorem first_is_election {E : Env} {t : SignedTx} (h : t.validate E MemStore.empty.toStore = .ok ()) : ∃ s, t = .election s := by
  have h3 := (SignedTx.validate_ok.1 h).2.2
  have no : ∀ {id e}, ElectionAt MemStore.empty.toStore id e → False := by
    rintro id e ⟨sig, h⟩
    change MemStore.empty.getTransaction id = _ at h
    rw [MemStore.get_empty] at h
    cases h
  cases t with
  | election s => exact ⟨s, rfl⟩
  | keyGenCommitment s => obtain ⟨e, he, _⟩ := (KeyGenCommitmentTx.validateTx_ok (t := s.tx) (S := MemStore.empty.toStore)).1 h3; exact (no he).elim
  | keyGenShare s => obtain ⟨e, he, _⟩ := (KeyGenShareTx.validateTx_ok (t := s.tx) (S := MemStore.empty.toStore)).1 h3; exact (no he).elim
  | keyGenPublicKey s => obtain ⟨e, he, _⟩ := (KeyGenPublicKeyTx.validateTx_ok (t := s.tx) (S := MemStore.empty.toStore)).1 h3; exact (no he).elim
  | encryptionKey s => obtain ⟨e, he, _⟩ := (EncryptionKeyTx.validateTx_ok (t := s.tx) (S := MemStore.empty.toStore)).1 h3; exact (no he).elim
  | vote s => obtain ⟨_, e, he, _⟩ := (VoteTx.validateTx_ok (MemStore.lawful MemStore.wf_empty)).1 h3; exact (no he).elim
  | votingEnd s => obtain ⟨e, he, _⟩ := (VotingEndTx.validateTx_ok (t := s.tx) (S := MemStore.empty.toStore)).1 h3; exact (no he).elim
  | mix s => obtain ⟨_, e, he, _⟩ := (MixTx.validateTx_ok (MemStore.lawful MemStore.wf_empty)).1 h3; exact (no he).elim
  | partialDecryption s => obtain ⟨e, he, _⟩ := (PartialDecryptionTx.validateTx_ok (E := E) (t := s.tx) (S := MemStore.empty.toStore)).1 h3; exact (no he).elim
  | decryption s => obtain ⟨_, e, he, _⟩ := (DecryptionTx.validateTx_ok (t := s.tx) (S := MemStore.empty.toStore)).1 h3; exact (no he).elim

theorem below_of_sorted {m : MemStore} {P : BArr 15 → Prop} {txs : List SignedTx} (hs : txs.Pairwise IdLt)
    (hm : ∀ t, t ∈ txs ↔ InStore m.toStore t ∧ P t.id.electionId) (hw : m.WF) {before after : List SignedTx} {t : SignedTx} (h : txs = before ++ t :: after) :
    Below m P t (MemStore.ofList before) := by
  refine ⟨MemStore.wf_ofList _, fun id u => ?_⟩
  rw [h, List.pairwise_append] at hs
  obtain ⟨hb, ha, hba⟩ := hs
  rw [(C06_memstore_is_map before).1]
  constructor
  · rintro ⟨rfl, b1, b2, hb', _⟩
    have hu : u ∈ before := by rw [hb']; simp
    obtain ⟨x, y⟩ := (hm u).1 (by rw [h]; simp [hu])
    exact ⟨x, y, hba u hu t (by simp)⟩
  · rintro ⟨a, b, c⟩
    have hid := MemStore.get_id hw a
    subst hid
    refine ⟨rfl, ?_⟩
    have hmem := (hm u).2 ⟨a, b⟩
    rw [h] at hmem
    have nolt : ∀ x y : SignedTx, IdLt x y → IdLt y x → False := by
      intro x y h1 h2
      unfold IdLt at h1 h2
      rw [Identifier.cmp_eq_cmpBytes] at h1 h2
      have := cmpBytes_lt_trans h1 h2
      rw [cmpBytes_refl] at this
      cases this
    have hu : u ∈ before := by
      rcases List.mem_append.1 hmem with h1 | h1
      · exact h1
      · exfalso
        rcases List.mem_cons.1 h1 with rfl | h1
        · exact nolt _ _ c c
        · exact nolt _ _ c ((List.pairwise_cons.1 ha).1 u h1)
    obtain ⟨b1, b2, hb'⟩ := List.append_of_mem hu
    refine ⟨b1, b2, hb', fun v hv heq => ?_⟩
    rw [hb', List.pairwise_append] at hb
    have := (List.pairwise_cons.1 hb.2.1).1 v hv
    unfold IdLt at this
    rw [heq, (Identifier.cmp_eq_iff _ _).2 rfl] at this
    cases this

/-- **C59 (partial)** Take any append-only ledger on which the transactions of some elections (`P`) were posted in an orderly way, in any interleaving, with any number of
transactions of other elections around them, and list all stored transactions of those elections in ascending order of id.  If there are any, the e2e command reports success for the
list.  Missing: validation does not make the ledger orderly. -/
theorem C59_honest_ledger_verifies_partial (E : Env) (P : BArr 15 → Prop) (m : MemStore) (hm : OrderlyLedger E P m) (txs : List SignedTx) (hne : txs ≠ [])
    (hsorted : txs.Pairwise IdLt) (hmem : ∀ t, t ∈ txs ↔ InStore m.toStore t ∧ P t.id.electionId) :
    verify E txs = .ok (MemStore.ofList txs) := by
  have hv : ∀ before t after, txs = before ++ t :: after → t.validate E (MemStore.ofList before).toStore = .ok () := by
    intro before t after h
    obtain ⟨ht, hp⟩ := (hmem t).1 (by rw [h]; simp)
    exact validates_below hp hm ht rfl (below_of_sorted hsorted hmem (orderly_ledger hm).replay.wf h)
  refine (C40_e2e_replays E txs _).2 ⟨?_, rfl, hv⟩
  cases txs with
  | nil => exact absurd rfl hne
  | cons t ts =>
    obtain ⟨s, rfl⟩ := first_is_election (hv [] t ts rfl)
    exact ⟨s, ts, rfl⟩

/-- **C59** (what the command asks for) The command refuses ids of fewer than 15 characters, and asks for the transactions whose id starts with the first 15 characters of any longer one
(in ASCII, as election ids are). -/
theorem C59_query (id : Str) : (id.length < 15 → queryPrefix id = .err .invalidElectionId) ∧ (15 ≤ id.length → (∀ b ∈ id, b < 0x80) → queryPrefix id = .ok (id.take 15)) := by
  unfold queryPrefix
  refine ⟨fun h => by rw [if_pos h], fun h ha => ?_⟩
  rw [if_neg (by omega)]
  split
  · rename_i b hb
    have h1 : ¬ (128 : UInt8) ≤ b := by
      have := ha b (List.mem_of_getElem? hb)
      exact fun h2 => absurd (UInt8.lt_of_lt_of_le this h2) (UInt8.lt_irrefl _)
    simp [h1]
  · rfl

/-- shortest ids: 15 zeros -/
example : queryPrefix (List.replicate 15 0x30) = .ok (List.replicate 15 0x30) ∧ queryPrefix (List.replicate 14 0x30) = .err .invalidElectionId := by decide

/-- **C59 (partial), as the command runs it**: when the ledger service received envelopes labelled with the ids of their transactions, and the elections whose id starts with the
15 characters the command asks for were run in an orderly way, the command reports success on the answer of the read API. -/
theorem C59_honest_service_verifies_partial (E : Env) (subs : List Exonum.Envelope) (hl : ∀ e ∈ subs, Labelled e) (election p : Str) (hq : queryPrefix election = .ok p)
    (m : MemStore) (hm : OrderlyLedger E (fun eid => p <+: hexEncode eid.val) m)
    (hsame : ∀ id, Exonum.getTransaction (Exonum.deliverAll E OMap.empty subs) id = m.getTransaction id) (txs : List SignedTx) (hne : txs ≠ [])
    (htxs : Api.getAll (Exonum.deliverAll E OMap.empty subs) (some p) = .ok txs) : verify E txs = .ok (MemStore.ofList txs) := by
  obtain ⟨l, h1, h2, h3⟩ := (Api.C39_prefix_query_exact_partial E subs hl).1 p
  rw [htxs] at h1
  cases h1
  refine C59_honest_ledger_verifies_partial E _ m hm txs hne h3 fun t => ?_
  rw [h2, hsame]
  have hp : p.length ≤ 30 := by
    unfold queryPrefix at hq
    split at hq
    · cases hq
    · split at hq
      · split at hq
        · cases hq
        · cases hq; simp; omega
      · cases hq; simp; omega
  have : p <+: t.id.toString ↔ p <+: hexEncode t.id.electionId.val := by
    have hx : hexEncode t.id.electionId.val <+: t.id.toString := by
      unfold Identifier.toString Identifier.toArray
      rw [List.append_assoc, hexEncode_append]
      exact List.prefix_append _ _
    refine ⟨fun h => List.prefix_of_prefix_length_le h hx ?_, fun h => h.trans hx⟩
    have := t.id.electionId.property
    rw [hexEncode_length, this]
    omega
  rw [this]
  rfl

/-! ## A concrete orderly history -/

/-- `Orderly`, computed from the list of what is stored. -/
def orderlyB (before : List SignedTx) : SignedTx → Bool
  | .election s => s.tx.trustees.all fun tr => tr.index != 0
  | .keyGenCommitment s => s.tx.election.electionId == s.tx.id.electionId
  | .keyGenShare s => s.tx.election.electionId == s.tx.id.electionId
  | .encryptionKey s => s.tx.election.electionId == s.tx.id.electionId
  | .votingEnd s => s.tx.election.electionId == s.tx.id.electionId
  | .keyGenPublicKey s => s.tx.id == KeyGenPublicKeyTx.buildId s.tx.election s.tx.trusteeIndex
  | .vote s => before.all fun | .vote v => v.tx.anonymousKey.val.take 10 != s.tx.anonymousKey.val.take 10 | _ => true
  | .mix s => ((MemStore.ofList before).getTransaction (singleId s.tx.electionId .votingEnd)).isSome
  | .partialDecryption s => s.tx.upstreamId.electionId == s.tx.electionId.electionId
  | .decryption s => s.tx.upstreamId.electionId == s.tx.electionId.electionId

theorem orderly_of_B {before : List SignedTx} {t : SignedTx} (h : orderlyB before t = true) : Orderly (MemStore.ofList before) t := by
  cases t <;> simp only [orderlyB, beq_iff_eq, List.all_eq_true, bne_iff_ne] at h <;> try exact h
  · rename_i s
    intro v hv _
    obtain ⟨_, b, a, hb, _⟩ := ((C06_memstore_is_map before).1 _ _).1 (show (MemStore.ofList before).getTransaction (SignedTx.vote v).id = _ from hv)
    have := h (.vote v) (by rw [hb]; simp)
    simpa using this
  · exact Option.isSome_iff_exists.1 h

def runOrderly (E : Env) : List SignedTx → List SignedTx → Bool
  | _, [] => true
  | before, t :: ts => ((MemStore.ofList before).getTransaction t.id).isNone && decide (t.validate E (MemStore.ofList before).toStore = .ok ()) && orderlyB before t &&
      runOrderly E (before ++ [t]) ts

theorem orderly_of_run {E : Env} (P : BArr 15 → Prop) {before ts : List SignedTx} (hb : OrderlyLedger E P (MemStore.ofList before)) (h : runOrderly E before ts = true) :
    OrderlyLedger E P (MemStore.ofList (before ++ ts)) := by
  induction ts generalizing before with
  | nil => simpa using hb
  | cons t ts ih =>
    simp only [runOrderly, Bool.and_eq_true, decide_eq_true_eq, Option.isNone_iff_eq_none] at h
    obtain ⟨⟨⟨h1, h2⟩, h3⟩, h4⟩ := h
    have := ih (before := before ++ [t]) (by rw [(C06_memstore_is_map before).2.2.1]; exact .append hb h1 h2 fun _ => orderly_of_B h3) h4
    simpa using this

/-- the sample election as honest participants might post it: the second trustee before the first, the votes and the partial decryptions not in the order of their ids -/
def _root_.CB.Toy.interleaved : List SignedTx :=
  [Toy.electionTx, Toy.commitTx 2 12, Toy.commitTx 1 11, Toy.shareTx 2 12, Toy.shareTx 1 11, Toy.pkTx 2 12, Toy.pkTx 1 11, Toy.encTx,
    Toy.voteTx 32 "b", Toy.voteTx 31 "a", Toy.endTx, Toy.mix1Tx, Toy.mix2Tx, Toy.partialTx 1 "b" 2 12, Toy.partialTx 1 "b" 1 11, Toy.decTx 1 "b",
    Toy.partialTx 0 "a" 2 12, Toy.partialTx 0 "a" 1 11, Toy.decTx 0 "a"]

theorem interleaved_orderly (P : BArr 15 → Prop) : OrderlyLedger Toy.env P (MemStore.ofList Toy.interleaved) :=
  orderly_of_run P (before := []) .empty (by decide +kernel)

/-- The list of all stored transactions of one election, in the order of ids. -/
theorem listing_of_perm {txs txs' : List SignedTx} (P : BArr 15 → Prop) (hp : txs'.Perm txs) (hs : txs.Pairwise IdLt) (hP : ∀ t ∈ txs, P t.id.electionId) (t : SignedTx) :
    t ∈ txs ↔ InStore (MemStore.ofList txs').toStore t ∧ P t.id.electionId := by
  have hn : (txs.map SignedTx.id).Nodup := by
    rw [List.Nodup, List.pairwise_map]
    refine hs.imp fun {a b} h heq => ?_
    unfold IdLt at h
    rw [heq, (Identifier.cmp_eq_iff _ _).2 rfl] at h
    cases h
  rw [← (C06_memstore_is_map txs).2.2.2 txs' hp.symm hn]
  have : InStore (MemStore.ofList txs).toStore t ↔ t ∈ txs := by
    show (MemStore.ofList txs).getTransaction t.id = some t ↔ _
    rw [(C06_memstore_is_map txs).1]
    constructor
    · rintro ⟨_, b, a, h, _⟩; rw [h]; simp
    · intro ht
      refine ⟨rfl, ?_⟩
      obtain ⟨b, a, rfl⟩ := List.append_of_mem ht
      refine ⟨b, a, rfl, fun u hu heq => ?_⟩
      rw [List.map_append, List.map_cons, List.nodup_append] at hn
      exact (List.nodup_cons.1 hn.2.1).1 (List.mem_map.2 ⟨u, hu, heq⟩)
  rw [this]
  exact ⟨fun h => ⟨h, hP t h⟩, fun h => h.1⟩

theorem sorted_of_decide {txs : List SignedTx} (h : (txs.map SignedTx.id).Pairwise fun a b => a.cmp b = .lt) : txs.Pairwise IdLt :=
  (List.pairwise_map (f := SignedTx.id)).1 h

theorem filed_of_decide {txs : List SignedTx} {eid : BArr 15} (h : ∀ i ∈ txs.map SignedTx.id, i.electionId = eid) : ∀ t ∈ txs, t.id.electionId = eid :=
  fun _ ht => h _ (List.mem_map_of_mem ht)

theorem interleaved_perm : Toy.interleaved.Perm Toy.complete :=
  List.Perm.map (fun i => Toy.complete.getD i Toy.endTx)
    (show [0, 2, 1, 4, 3, 6, 5, 7, 9, 8, 10, 11, 12, 16, 15, 18, 14, 13, 17].Perm (List.range 19) by decide)

/-- The hypotheses of C59 hold of the interleaved history: its listing is the sample election in the order of ids. -/
example : verify Toy.env Toy.complete = .ok (MemStore.ofList Toy.complete) :=
  C59_honest_ledger_verifies_partial Toy.env (fun eid => eid = Toy.eid.electionId) (MemStore.ofList Toy.interleaved) (interleaved_orderly _) Toy.complete (by decide)
    (sorted_of_decide (by decide +kernel))
    (listing_of_perm (fun eid => eid = Toy.eid.electionId) interleaved_perm (sorted_of_decide (by decide +kernel))
      (filed_of_decide (txs := Toy.complete) (by decide +kernel)))

theorem accepted_at {E : Env} {ts : List SignedTx} (h : (runLedger E .empty ts).isSome = true) {n : Nat} (hn : n < ts.length) :
    (MemStore.ofList (ts.take n)).getTransaction ts[n].id = none ∧ ts[n].validate E (MemStore.ofList (ts.take n)).toStore = .ok () := by
  suffices ∀ (m : MemStore) (ts : List SignedTx) (n : Nat) (hn : n < ts.length), (runLedger E m ts).isSome = true →
      ((ts.take n).foldl MemStore.set m).getTransaction ts[n].id = none ∧ ts[n].validate E ((ts.take n).foldl MemStore.set m).toStore = .ok () from this .empty ts n hn h
  intro m ts
  induction ts generalizing m with
  | nil => intro n hn; simp at hn
  | cons t ts ih =>
    intro n hn hr
    simp only [runLedger] at hr
    split at hr
    · rename_i hc
      cases n with
      | zero => exact ⟨by simpa using hc.1, hc.2⟩
      | succ n => exact ih (m.set t) n (by simpa using hn) hr
    · simp at hr

/-- What a ledger accepts one after the other, the service stores when it is sent in the same order. -/
theorem delivered {E : Env} {ts : List SignedTx} (hr : ∀ t ∈ ts, RustData t) (hfo : ∀ t ∈ ts, forget t = t) (hrun : (runLedger E .empty ts).isSome = true) (id : Identifier) :
    Exonum.getTransaction (Exonum.deliverAll E OMap.empty (ts.map Exonum.Envelope.ofTx)) id = (MemStore.ofList ts).getTransaction id := by
  have key : ∀ (n : Nat), ∀ id, Exonum.getTransaction (Exonum.deliverAll E OMap.empty ((ts.take n).map Exonum.Envelope.ofTx)) id =
      (MemStore.ofList (ts.take n)).getTransaction id := by
    intro n
    induction n with
    | zero => intro id; rfl
    | succ n ih =>
      by_cases hn : n < ts.length
      · have hlab : ∀ e ∈ (ts.take n).map Exonum.Envelope.ofTx, Labelled e := by
          intro e he
          obtain ⟨t, ht, rfl⟩ := List.mem_map.1 he
          exact (Exonum.C37_envelope_roundtrip t (hr t (List.mem_of_mem_take ht))).2.2.1
        obtain ⟨m, hm, ⟨hg, _⟩, hnext⟩ := Exonum.C38_exonum_refines_memstore_partial E _ hlab
        have hmeq : m = MemStore.ofList (ts.take n) := MemStore.ext hm.replay.wf (MemStore.wf_ofList _) fun id => ((hg id).symm.trans (ih id))
        subst hmeq
        obtain ⟨hround, _, hlabn, _⟩ := Exonum.C37_envelope_roundtrip ts[n] (hr _ (List.getElem_mem hn))
        rw [hfo _ (List.getElem_mem hn)] at hround
        obtain ⟨hacc, hsame⟩ := hnext (Exonum.Envelope.ofTx ts[n]) ts[n] hround hlabn
        obtain ⟨s', hs'⟩ := hacc.2 (accepted_at hrun hn)
        have := (hsame s' hs').1
        rw [List.take_add_one, List.getElem?_eq_getElem hn, Option.toList_some, List.map_append, List.map_singleton, Exonum.deliverAll_snoc,
          (C06_memstore_is_map _).2.2.1]
        intro id
        unfold Exonum.deliver
        rw [hs']
        exact this id
      · have : ts.take (n + 1) = ts.take n := by
          rw [List.take_of_length_le (by omega), List.take_of_length_le (by omega)]
        rw [this]
        exact ih
  have := key ts.length id
  rwa [List.take_length] at this

/-- The hypotheses of the service version hold when the interleaved history is sent to the service. -/
example : ∃ txs, Api.getAll (Exonum.deliverAll Toy.env OMap.empty (Toy.interleaved.map Exonum.Envelope.ofTx)) (some (Toy.eid.toString.take 15)) = .ok txs ∧ txs.length = 19 ∧
    verify Toy.env txs = .ok (MemStore.ofList txs) := by
  have hr : ∀ t ∈ Toy.interleaved, RustData t := fun t ht => toy_rustData t (interleaved_perm.mem_iff.1 ht)
  have hlab : ∀ e ∈ Toy.interleaved.map Exonum.Envelope.ofTx, Labelled e := by
    intro e he
    obtain ⟨t, ht, rfl⟩ := List.mem_map.1 he
    exact (Exonum.C37_envelope_roundtrip t (hr t ht)).2.2.1
  have hlen : (match Api.getAll (Exonum.deliverAll Toy.env OMap.empty (Toy.interleaved.map Exonum.Envelope.ofTx)) (some (Toy.eid.toString.take 15)) with
    | .ok txs => txs.length | _ => 0) = 19 := by decide +kernel
  obtain ⟨txs, h, _⟩ := (Api.C39_prefix_query_exact_partial Toy.env _ hlab).1 (Toy.eid.toString.take 15)
  rw [h] at hlen
  refine ⟨txs, h, hlen, ?_⟩
  exact C59_honest_service_verifies_partial Toy.env _ hlab Toy.eid.toString (Toy.eid.toString.take 15) (by decide +kernel) _ (interleaved_orderly _)
    (delivered hr (List.map_inj_left.1 (show Toy.interleaved.map forget = Toy.interleaved.map id from rfl)) (by decide +kernel)) txs (by rintro rfl; simp at hlen) h

/-- the history of `C59_honest_ledger_verifies_false`, and its listing in the order of ids -/
def _root_.CB.Toy.earlyMix : List SignedTx := Toy.setup ++ [Toy.voteTx 31 "a", Toy.mixTx 1 11 none (Toy.ids.take 1) [[Toy.ct "a"]], Toy.voteTx 32 "b"]
def _root_.CB.Toy.earlyMixListed : List SignedTx := Toy.setup ++ [Toy.voteTx 31 "a", Toy.voteTx 32 "b", Toy.mixTx 1 11 none (Toy.ids.take 1) [[Toy.ct "a"]]]

/-- **C59 (false)** Every transaction was accepted onto the ledger, but their list in the order of ids is refused: a vote posted after the first mix (which validation allows, as
mixing does not wait for the end of voting) is replayed before it, and the mix then misses a vote. -/
theorem C59_honest_ledger_verifies_false :
    ¬ ∀ (E : Env) (eid : BArr 15) (m : MemStore) (txs : List SignedTx), Ledger E m → txs ≠ [] → txs.Pairwise IdLt →
      (∀ t, t ∈ txs ↔ InStore m.toStore t ∧ t.id.electionId = eid) → ∃ m', verify E txs = .ok m' := by
  intro h
  have hs : Toy.earlyMixListed.Pairwise IdLt := sorted_of_decide (by decide +kernel)
  obtain ⟨m', hm⟩ := h Toy.env Toy.eid.electionId (MemStore.ofList Toy.earlyMix) Toy.earlyMixListed (ledger_of_run (by decide +kernel)) (by decide) hs
    (listing_of_perm (fun eid => eid = Toy.eid.electionId) (txs := Toy.earlyMixListed) (txs' := Toy.earlyMix) ((List.Perm.swap _ _ []).append_left (Toy.setup ++ [Toy.voteTx 31 "a"])) hs
      (filed_of_decide (txs := Toy.earlyMixListed) (by decide +kernel)))
  have : (match verify Toy.env Toy.earlyMixListed with | .ok _ => true | _ => false) = false := by decide +kernel
  rw [hm] at this
  cases this

end E2e
end CB
