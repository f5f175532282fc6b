import Verif.Lemmas.Network
import Verif.Spec.Network
import Verif.Props.Server
import Mathlib.Data.List.Sort
/-!
# What stores hold while honest nodes set an election up, and how nodes react to it
-/

namespace CB
open Spec Server

namespace Setup

/-- the election with its trustees in the order of their indices -/
def sorted (e : ElectionTx) : ElectionTx := { e with trustees := e.trustees.mergeSort fun a b => decide (a.index ≤ b.index) }

section
variable {e : ElectionTx}

theorem sorted_perm (e : ElectionTx) : (sorted e).trustees.Perm e.trustees := List.mergeSort_perm _ _

theorem sorted_full (e : ElectionTx) : (sorted e).getFullTrustees.Perm e.getFullTrustees := by
  have hlen : (sorted e).trustees.length = e.trustees.length := (sorted_perm e).length_eq
  unfold ElectionTx.getFullTrustees
  rw [hlen]
  exact (sorted_perm e).map _

theorem mem_sorted_full {tr : Trustee} : tr ∈ (sorted e).getFullTrustees ↔ tr ∈ e.getFullTrustees := (sorted_full e).mem_iff

theorem full_length (e : ElectionTx) : e.getFullTrustees.length = e.trustees.length := by simp [ElectionTx.getFullTrustees]

theorem sorted_proper (h : ProperTrustees e) : ProperTrustees (sorted e) where
  distinct := (((sorted_perm e).map _).nodup_iff).2 h.distinct
  nonzero tr htr := h.nonzero tr ((sorted_perm e).mem_iff.1 htr)
  threshold := h.threshold
  enough := by rw [(sorted_perm e).length_eq]; exact h.enough

theorem sorted_asc (h : ProperTrustees e) : (sorted e).getFullTrustees.Pairwise fun a b => a.index < b.index := by
  have h1 : (sorted e).trustees.Pairwise fun a b => a.index ≤ b.index := by
    have := List.pairwise_mergeSort (le := fun a b : Trustee => decide (a.index ≤ b.index)) (fun a b c hab hbc => by
      simp only [decide_eq_true_eq] at *
      exact UInt8.le_trans hab hbc) (fun a b => by
      simp only [Bool.or_eq_true, decide_eq_true_eq]
      exact UInt8.le_total a.index b.index) e.trustees
    exact this.imp (by simp)
  have h2 : (sorted e).trustees.Pairwise fun a b => a.index ≠ b.index := List.pairwise_map.1 (sorted_proper h).distinct
  unfold ElectionTx.getFullTrustees
  rw [List.pairwise_map]
  exact (h1.and h2).imp fun ⟨a, b⟩ => by
    simp only
    exact UInt8.lt_of_le_of_ne a b

/-- a trustee's slot for a key-generation step -/
def slot (e : ElectionTx) (ty : TxType) (tr : Trustee) : Identifier := Identifier.new e.id ty (some (trusteeUnique tr.index))

theorem slot_inj {ty : TxType} {a b : Trustee} (h : slot e ty a = slot e ty b) : a.index = b.index := by
  simp only [slot, Identifier.new, Option.getD_some, Identifier.mk.injEq, true_and] at h
  exact trusteeUnique_inj h

theorem full_inj (hT : ProperTrustees e) {a b : Trustee} (ha : a ∈ e.getFullTrustees) (hb : b ∈ e.getFullTrustees) (h : a.index = b.index) : a = b :=
  List.inj_on_of_nodup_map (full_index_nodup hT) ha hb h

theorem slot_lt {ty : TxType} {a b : Trustee} (h : a.index < b.index) : (slot e ty a).cmp (slot e ty b) = .lt := by
  unfold slot Identifier.new
  simp only [Option.getD_some, Identifier.cmp, cmpBytes_refl, trusteeUnique, cmpBytes, h, if_true]
  have : compare ty.toU8 ty.toU8 = .eq := by rw [Identifier.cmp_u8, cmpBytes_refl]
  rw [this]

theorem slots_asc (hT : ProperTrustees e) (ty : TxType) : ((sorted e).getFullTrustees.map (slot e ty)).Pairwise fun a b => a.cmp b = .lt := by
  rw [List.pairwise_map]
  exact (sorted_asc hT).imp slot_lt

theorem cmp_asymm {a b : Identifier} (h : a.cmp b = .lt) (h' : b.cmp a = .lt) : False := by
  rw [Identifier.cmp_eq_cmpBytes] at h h'
  rw [cmpBytes_swap, h] at h'
  cases h'

theorem slots_nodup (hT : ProperTrustees e) (ty : TxType) : ((sorted e).getFullTrustees.map (slot e ty)).Nodup :=
  (slots_asc hT ty).imp fun h heq => by subst heq; exact cmp_asymm h h

/-- A listing with one entry per slot has the ids of all slots, in the order of the indices. -/
theorem listing (hT : ProperTrustees e) {l : List SignedTx} (hp : l.Pairwise IdLt) {ty : TxType}
    (hmem : ∀ t ∈ l, ∃ tr ∈ e.getFullTrustees, t.id = slot e ty tr) (hlen : l.length = e.trustees.length) :
    l.map SignedTx.id = (sorted e).getFullTrustees.map (slot e ty) := by
  have hperm : (l.map SignedTx.id).Perm ((sorted e).getFullTrustees.map (slot e ty)) := by
    refine perm_of_nodup_subset (idLt_nodup hp) ?_ ?_
    · intro x hx
      obtain ⟨t, ht, rfl⟩ := List.mem_map.1 hx
      obtain ⟨tr, htr, h⟩ := hmem t ht
      exact List.mem_map.2 ⟨tr, mem_sorted_full.2 htr, h.symm⟩
    · rw [List.length_map, List.length_map, hlen, (sorted_full e).length_eq, full_length]
  exact List.Perm.eq_of_pairwise (le := fun a b => a.cmp b = .lt) (fun a b _ _ h h' => (cmp_asymm h h').elim) (by rw [List.pairwise_map]; exact hp) (slots_asc hT ty) hperm

/-- … and if all slots are stored, it has one entry per slot. -/
theorem listing_length (hT : ProperTrustees e) {l : List SignedTx} (hp : l.Pairwise IdLt) {ty : TxType}
    (hmem : ∀ t ∈ l, ∃ tr ∈ e.getFullTrustees, t.id = slot e ty tr) :
    l.length = e.trustees.length ↔ ∀ tr ∈ e.getFullTrustees, slot e ty tr ∈ l.map SignedTx.id := by
  constructor
  · intro h tr htr
    rw [listing hT hp hmem h]
    exact List.mem_map_of_mem (mem_sorted_full.2 htr)
  · intro h
    apply Nat.le_antisymm
    · have := (List.Nodup.subperm (idLt_nodup hp) (l₂ := (sorted e).getFullTrustees.map (slot e ty)) (by
        intro x hx
        obtain ⟨t, ht, rfl⟩ := List.mem_map.1 hx
        obtain ⟨tr, htr, h⟩ := hmem t ht
        exact List.mem_map.2 ⟨tr, mem_sorted_full.2 htr, h.symm⟩)).length_le
      rwa [List.length_map, List.length_map, (sorted_full e).length_eq, full_length] at this
    · have := (List.Nodup.subperm (slots_nodup hT ty) (l₂ := l.map SignedTx.id) (by
        intro x hx
        obtain ⟨tr, htr, rfl⟩ := List.mem_map.1 hx
        exact h tr (mem_sorted_full.1 htr))).length_le
      rwa [List.length_map, List.length_map, (sorted_full e).length_eq, full_length] at this

theorem map_eq_map {α β γ : Type} {l : List α} {L : List β} {f : α → γ} {g : β → γ} {h : β → α} (hm : l.map f = L.map g)
    (hh : ∀ a ∈ l, ∀ b ∈ L, f a = g b → a = h b) : l = L.map h := by
  induction l generalizing L with
  | nil => cases L with
    | nil => rfl
    | cons b L => simp at hm
  | cons a l ih => cases L with
    | nil => simp at hm
    | cons b L =>
      simp only [List.map_cons, List.cons.injEq] at hm ⊢
      exact ⟨hh a (by simp) b (by simp) hm.1, ih hm.2 fun a ha b hb => hh a (by simp [ha]) b (by simp [hb])⟩

end

/-! ## Honest transactions -/

section
variable (N : NodeEnv) (e : ElectionTx) (sk : UInt8 → SecretKey)

/-- signed by trustee `tr` -/
def signedBy {T : Type} [CBTransaction T] (tr : Trustee) (tx : T) : Signed T := ⟨tx, N.edSign (sk tr.index) (CBTransaction.asBytes tx)⟩

/-- the commitment trustee `tr` posts -/
def commitTx (tr : Trustee) : KeyGenCommitmentTx :=
  KeyGenCommitmentTx.new e.id tr.index tr.publicKey (Trustee.x25519Key N (sk tr.index) e.id) (tr.keygenCommitment N (sk tr.index) e.id)
/-- a share transaction of trustee `tr` -/
def shareTx (tr : Trustee) (posted : IndexMap UInt8 EncryptedShare) : KeyGenShareTx := KeyGenShareTx.new e.id tr.index tr.publicKey posted
/-- the public key transaction trustee `tr` posts -/
def pkTx (run : KeyGenRun N) (key : ElGamalKey) (tr : Trustee) : KeyGenPublicKeyTx :=
  KeyGenPublicKeyTx.new e.id tr.index tr.publicKey key (N.partyProof (run.party tr.index.toNat))

/-- `posted` is what `generate_shares` gives trustee `tr` on all trustees' commitments (in the order of the indices) -/
def Shares (tr : Trustee) (posted : IndexMap UInt8 EncryptedShare) : Prop :=
  ∃ rng, (tr.generateShares N rng (sk tr.index) (dhKeys N (sorted e) sk) e.id (commitments N (sorted e) sk) : VRes _) = .ok posted

/-- a set-up transaction as honest nodes make it -/
def Honest (run : KeyGenRun N) (key : ElGamalKey) : SignedTx → Prop
  | .keyGenCommitment s => ∃ tr ∈ e.getFullTrustees, s = signedBy N sk tr (commitTx N e sk tr)
  | .keyGenShare s => ∃ tr ∈ e.getFullTrustees, ∃ posted, Shares N e sk tr posted ∧ s = signedBy N sk tr (shareTx e tr posted)
  | .keyGenPublicKey s => ∃ tr ∈ e.getFullTrustees, s = signedBy N sk tr (pkTx N e run key tr)
  | .encryptionKey s => ∃ k, s.tx = EncryptionKeyTx.new e.id e.authorityPublic k
  | _ => True

/-- all slots of the kind are filled -/
def Filled (S : Store) (ty : TxType) : Prop := ∀ tr ∈ e.getFullTrustees, ∃ x, S.getTransaction (slot e ty tr) = some x

/-- what honest nodes have stored under the election -/
structure View (run : KeyGenRun N) (key : ElGamalKey) (S : Store) : Prop where
  lawful : Lawful S
  typed : Typed S
  election : ElectionAt S e.id e
  honest : ∀ t, InStore S t → t.id.electionId = e.id.electionId → Honest N e sk run key t
  /-- shares are posted only after all commitments -/
  order : ∀ t, InStore S t → t.id.electionId = e.id.electionId → kindOf t = .keyGenShare → Filled e S .keyGenCommitment

end

variable {N : NodeEnv} {K : List SecretKey} {e : ElectionTx} {sk : UInt8 → SecretKey} {run : KeyGenRun N} {key : ElGamalKey} {S : Store}

theorem full_iff {tr : Trustee} : tr ∈ e.getFullTrustees ↔ ∃ tr0 ∈ e.trustees, tr = { tr0 with numTrustees := e.trustees.length, threshold := e.trusteesThreshold } := by
  simp only [ElectionTx.getFullTrustees, List.mem_map]
  exact ⟨fun ⟨a, b, c⟩ => ⟨a, b, c.symm⟩, fun ⟨a, b, c⟩ => ⟨a, b, c.symm⟩⟩

theorem full_trustee {tr : Trustee} (h : tr ∈ e.getFullTrustees) : ∃ tr0 ∈ e.trustees, tr0.index = tr.index ∧ tr0.publicKey = tr.publicKey := by
  obtain ⟨tr0, h0, rfl⟩ := full_iff.1 h
  exact ⟨tr0, h0, rfl, rfl⟩

theorem full_isTrustee {tr : Trustee} (h : tr ∈ e.getFullTrustees) : IsTrustee e tr.index tr.publicKey := full_trustee h

theorem _root_.CB.Spec.Nodes.held' (hN : Nodes N K e sk) {tr : Trustee} (h : tr ∈ e.getFullTrustees) : N.edPublic (sk tr.index) = tr.publicKey := by
  obtain ⟨tr0, h0, h1, h2⟩ := full_trustee h
  rw [← h1, ← h2]; exact hN.held tr0 h0

theorem _root_.CB.Spec.Nodes.reactor (hN : Nodes N K e sk) {k : SecretKey} (hk : k ∈ K) {tr : Trustee} (h : trusteeFromElection e (N.edPublic k) = some tr) :
    tr ∈ e.getFullTrustees ∧ k = sk tr.index ∧ tr.publicKey = N.edPublic k := by
  have h1 := List.mem_of_find?_eq_some h
  have h2 := (trusteeFromElection_some h).1
  refine ⟨h1, ?_, h2⟩
  obtain ⟨tr0, h0, h3, h4⟩ := full_trustee h1
  rw [← h3]
  exact hN.only k hk tr0 h0 (by rw [h4, h2])

theorem _root_.CB.Spec.Nodes.reactor_of (hN : Nodes N K e sk) {tr : Trustee} (h : tr ∈ e.getFullTrustees) : trusteeFromElection e (N.edPublic (sk tr.index)) = some tr := by
  obtain ⟨tr0, h0, h1, h2⟩ := full_trustee h
  obtain ⟨tr', htr'⟩ := trusteeFromElection_of (e := e) (key := N.edPublic (sk tr.index)) ⟨tr0, h0, by rw [hN.held' h, h2]⟩
  rw [htr']
  have h3 := List.mem_of_find?_eq_some htr'
  have h4 := (trusteeFromElection_some htr').1
  obtain ⟨tr1, h5, h6, h7⟩ := full_trustee h3
  have : tr1 = tr0 := List.inj_on_of_nodup_map hN.keys h5 h0 (by rw [h7, h4, h2, hN.held' h])
  subst this
  rw [full_inj hN.trustees h3 h (by rw [← h6, h1])]

theorem honest_slot {t : SignedTx} (h : Honest N e sk run key t) (hk : kindOf t = .keyGenCommitment ∨ kindOf t = .keyGenShare ∨ kindOf t = .keyGenPublicKey) :
    ∃ tr ∈ e.getFullTrustees, t.id = slot e (kindOf t) tr := by
  cases t with
  | keyGenCommitment s => obtain ⟨tr, htr, rfl⟩ := h; exact ⟨tr, htr, rfl⟩
  | keyGenShare s => obtain ⟨tr, htr, p, -, rfl⟩ := h; exact ⟨tr, htr, rfl⟩
  | keyGenPublicKey s => obtain ⟨tr, htr, rfl⟩ := h; exact ⟨tr, htr, rfl⟩
  | _ => simp [kindOf] at hk

/-- Counting the transactions of a kind tells whether all slots are filled. -/
theorem View.count (hN : Nodes N K e sk) (hV : View N e sk run key S) {ty : TxType} (hty : ty = .keyGenCommitment ∨ ty = .keyGenShare ∨ ty = .keyGenPublicKey)
    {l : List SignedTx} (hl : StepTxs S e ty l) (hp : l.Pairwise IdLt) :
    (∀ t ∈ l, ∃ tr ∈ e.getFullTrustees, t.id = slot e ty tr) ∧ (l.length = e.trustees.length ↔ Filled e S ty) := by
  have hmem : ∀ t ∈ l, ∃ tr ∈ e.getFullTrustees, t.id = slot e ty tr := by
    intro t ht
    obtain ⟨h1, h2, h3⟩ := (hl.2 t).1 ht
    have := honest_slot (hV.honest t h1 h2) (by rw [h3]; exact hty)
    rwa [h3] at this
  refine ⟨hmem, (listing_length hN.trustees hp hmem).trans (forall_congr' fun tr => imp_congr_right fun htr => ?_)⟩
  constructor
  · intro h
    obtain ⟨t, ht, hid⟩ := List.mem_map.1 h
    exact ⟨t, hid ▸ ((hl.2 t).1 ht).1⟩
  · rintro ⟨x, hx⟩
    have hid := hV.lawful.keyed _ _ hx
    have hin : InStore S x := by unfold InStore; rw [hid]; exact hx
    refine List.mem_map.2 ⟨x, (hl.2 x).2 ⟨hin, by rw [hid]; rfl, ?_⟩, hid⟩
    rw [← hV.typed x hin, hid]
    rfl

/-- The commitments nodes read. -/
theorem View.commits (hN : Nodes N K e sk) (hV : View N e sk run key S) :
    ∃ cs : List KeyGenCommitmentTx, getAll S e.id .keyGenCommitment SignedTx.intoKeyGenCommitment = .ok cs ∧
      (cs.length = e.trustees.length ↔ Filled e S .keyGenCommitment) ∧
      (Filled e S .keyGenCommitment → cs = (sorted e).getFullTrustees.map (commitTx N e sk)) := by
  obtain ⟨ss, -, h, h', hp⟩ := getAll_spec hV.lawful hV.typed e (ty := .keyGenCommitment) (wrap := .keyGenCommitment)
    (fun t s => SignedTx.intoKeyGenCommitment_ok (t := t) (s := s)) (fun t ht => by cases t <;> simp_all [kindOf])
  obtain ⟨hmem, hc⟩ := hV.count hN (.inl rfl) h' hp
  refine ⟨_, h, by simpa using hc, fun hf => ?_⟩
  have hids := listing hN.trustees hp hmem (hc.2 hf)
  rw [List.map_map] at hids
  refine map_eq_map (f := fun c => c.id) (g := slot e .keyGenCommitment) (by rw [List.map_map]; exact hids) ?_
  intro c hc' tr htr hid
  obtain ⟨s, hs, rfl⟩ := List.mem_map.1 hc'
  obtain ⟨h1, h2, -⟩ := (h'.2 _).1 (List.mem_map_of_mem (f := SignedTx.keyGenCommitment) hs)
  obtain ⟨tr', htr', rfl⟩ := hV.honest _ h1 h2
  have := full_inj hN.trustees htr' (mem_sorted_full.1 htr) (slot_inj (ty := .keyGenCommitment) (e := e) hid)
  rw [this]
  rfl

/-- The shares nodes read. -/
theorem View.shares (hN : Nodes N K e sk) (hV : View N e sk run key S) :
    ∃ ss : List KeyGenShareTx, getAll S e.id .keyGenShare SignedTx.intoKeyGenShare = .ok ss ∧ (ss.length = e.trustees.length ↔ Filled e S .keyGenShare) ∧
      (Filled e S .keyGenShare → ∃ rng posted, PostedHonestly N (sorted e) sk rng posted ∧
        ss = (sorted e).getFullTrustees.map fun tr => shareTx e tr (posted tr.index)) := by
  obtain ⟨ss, -, h, h', hp⟩ := getAll_spec hV.lawful hV.typed e (ty := .keyGenShare) (wrap := .keyGenShare)
    (fun t s => SignedTx.intoKeyGenShare_ok (t := t) (s := s)) (fun t ht => by cases t <;> simp_all [kindOf])
  obtain ⟨hmem, hc⟩ := hV.count hN (.inr (.inl rfl)) h' hp
  refine ⟨_, h, by simpa using hc, fun hf => ?_⟩
  have hids := listing hN.trustees hp hmem (hc.2 hf)
  have hget : ∀ tr ∈ (sorted e).getFullTrustees, ∃ x : Rng × IndexMap UInt8 EncryptedShare,
      (tr.generateShares N x.1 (sk tr.index) (dhKeys N (sorted e) sk) e.id (commitments N (sorted e) sk) : VRes _) = .ok x.2 ∧
      ∀ s ∈ ss, s.tx.id = slot e .keyGenShare tr → s.tx = shareTx e tr x.2 := by
    intro tr htr
    have : slot e .keyGenShare tr ∈ (ss.map SignedTx.keyGenShare).map SignedTx.id := by rw [hids]; exact List.mem_map_of_mem htr
    obtain ⟨t, ht, hid⟩ := List.mem_map.1 this
    obtain ⟨s, hs, rfl⟩ := List.mem_map.1 ht
    obtain ⟨h1, h2, -⟩ := (h'.2 _).1 ht
    obtain ⟨tr', htr', posted, ⟨rng, hg⟩, rfl⟩ := hV.honest _ h1 h2
    have := full_inj hN.trustees htr' (mem_sorted_full.1 htr) (slot_inj (ty := .keyGenShare) (e := e) hid)
    subst this
    refine ⟨(rng, posted), hg, fun s' hs' hid' => ?_⟩
    obtain ⟨h3, -, -⟩ := (h'.2 _).1 (List.mem_map_of_mem (f := SignedTx.keyGenShare) hs')
    have h1 : S.getTransaction (slot e .keyGenShare tr') = some _ := h1
    have h3 : S.getTransaction s'.tx.id = some (.keyGenShare s') := h3
    rw [hid', h1] at h3
    cases h3
    rfl
  have : Nonempty (Rng × IndexMap UInt8 EncryptedShare) := ⟨⟨⟨fun _ => BArr.fill 12 0, fun _ => []⟩, IndexMap.empty⟩⟩
  obtain ⟨f, hf⟩ := skolem_key (key := fun tr : Trustee => tr.index) (full_index_nodup (sorted_proper hN.trustees)) hget
  refine ⟨fun i => (f i).1, fun i => (f i).2, fun tr htr => (hf tr htr).1, ?_⟩
  rw [List.map_map] at hids
  refine map_eq_map (f := fun c => c.id) (g := slot e .keyGenShare) (by rw [List.map_map]; exact hids) ?_
  intro c hc' tr htr hid
  obtain ⟨s, hs, rfl⟩ := List.mem_map.1 hc'
  exact (hf tr htr).2 s hs hid

/-- The public keys nodes read. -/
theorem View.pks (hN : Nodes N K e sk) (hV : View N e sk run key S) :
    ∃ ps : List (Signed KeyGenPublicKeyTx), S.getMultiple e.id .keyGenPublicKey = .ok (ps.map .keyGenPublicKey) ∧
      getAll S e.id .keyGenPublicKey SignedTx.intoKeyGenPublicKey = .ok (ps.map (·.tx)) ∧ StepTxs S e .keyGenPublicKey (ps.map .keyGenPublicKey) ∧
      (ps.length = e.trustees.length ↔ Filled e S .keyGenPublicKey) ∧
      (Filled e S .keyGenPublicKey → ps.map (·.tx) = (sorted e).getFullTrustees.map (pkTx N e run key)) := by
  obtain ⟨ss, h0, h, h', hp⟩ := getAll_spec hV.lawful hV.typed e (ty := .keyGenPublicKey) (wrap := .keyGenPublicKey)
    (fun t s => SignedTx.intoKeyGenPublicKey_ok (t := t) (s := s)) (fun t ht => by cases t <;> simp_all [kindOf])
  obtain ⟨hmem, hc⟩ := hV.count hN (.inr (.inr rfl)) h' hp
  refine ⟨_, h0, h, h', by simpa using hc, fun hf => ?_⟩
  have hids := listing hN.trustees hp hmem (hc.2 hf)
  rw [List.map_map] at hids
  refine map_eq_map (f := fun c => c.id) (g := slot e .keyGenPublicKey) (by rw [List.map_map]; exact hids) ?_
  intro c hc' tr htr hid
  obtain ⟨s, hs, rfl⟩ := List.mem_map.1 hc'
  obtain ⟨h1, h2, -⟩ := (h'.2 _).1 (List.mem_map_of_mem (f := SignedTx.keyGenPublicKey) hs)
  obtain ⟨tr', htr', rfl⟩ := hV.honest _ h1 h2
  have := full_inj hN.trustees htr' (mem_sorted_full.1 htr) (slot_inj (ty := .keyGenPublicKey) (e := e) hid)
  rw [this]
  rfl

/-! ## Reactions -/

/-- the run of the key generation among the trustees in the order of their indices -/
def Run (N : NodeEnv) (e : ElectionTx) (sk : UInt8 → SecretKey) (run : KeyGenRun N) (key : ElGamalKey) : Prop :=
  run.Honest (idxs (sorted e)) e.trusteesThreshold.toNat (seedOf N e sk) ∧ ∀ i ∈ idxs (sorted e), N.partyKey (run.party i) = key

theorem react_election (hN : Nodes N K e sk) (rng : Rng) {k : SecretKey} (hk : k ∈ K) (S : Store) (sig : Signature) :
    ∃ l, generateTransactions N rng k S (.election ⟨e, sig⟩) = .ok l ∧
      (∀ x ∈ l, ∃ tr ∈ e.getFullTrustees, k = sk tr.index ∧ x = .keyGenCommitment (signedBy N sk tr (commitTx N e sk tr))) ∧
      ∀ tr ∈ e.getFullTrustees, k = sk tr.index → ∃ x ∈ l, x.id = slot e .keyGenCommitment tr := by
  simp only [generateTransactions, processElection]
  split
  · rename_i tr htr
    obtain ⟨h1, rfl, h2⟩ := hN.reactor hk htr
    rw [sign_eq (by rintro k ⟨⟩; exact h2)]
    refine ⟨_, rfl, ?_, ?_⟩
    · intro x hx
      rw [List.mem_singleton] at hx
      exact ⟨tr, h1, rfl, hx⟩
    · intro tr' htr' heq
      have := hN.reactor_of htr'
      rw [← heq, htr] at this
      cases this
      exact ⟨_, List.mem_singleton.2 rfl, rfl⟩
  · rename_i htr
    refine ⟨[], rfl, by simp, fun tr htr' heq => ?_⟩
    subst heq
    rw [hN.reactor_of htr'] at htr
    cases htr

theorem encryptShares_cast {ε ε' : Type} {rng : Rng} {k : SecretKey} {id : Identifier} {g : N.Gen} (keys : List (UInt8 × X25519Pub)) {n : Nat}
    {m m' : IndexMap UInt8 EncryptedShare} (h : (Trustee.encryptShares N rng k id g n m keys : Res ε _) = .ok m') :
    (Trustee.encryptShares N rng k id g n m keys : Res ε' _) = .ok m' := by
  induction keys generalizing n m with
  | nil => simp only [Trustee.encryptShares, Res.ok.injEq] at h ⊢; exact h
  | cons x xs ih =>
    obtain ⟨i, key⟩ := x
    simp only [Trustee.encryptShares] at h ⊢
    cases hs : N.genShare g i.toNat with
    | error c => rw [hs] at h; simp [Res.expect] at h
    | ok s =>
      rw [hs] at h
      simp only [Res.expect, Res.ok_bind] at h ⊢
      exact ih h

theorem react_commitment (hN : Nodes N K e sk) (hR : Run N e sk run key) (hV : View N e sk run key S) (rng : Rng) {k : SecretKey} (hk : k ∈ K)
    {t : KeyGenCommitmentTx} {sig : Signature} (ht : t.election = e.id) :
    ∃ l, generateTransactions N rng k S (.keyGenCommitment ⟨t, sig⟩) = .ok l ∧
      (∀ x ∈ l, Filled e S .keyGenCommitment ∧ ∃ tr ∈ e.getFullTrustees, k = sk tr.index ∧ ∃ posted, Shares N e sk tr posted ∧
        x = .keyGenShare (signedBy N sk tr (shareTx e tr posted))) ∧
      (Filled e S .keyGenCommitment → ∀ tr ∈ e.getFullTrustees, k = sk tr.index → ∃ x ∈ l, x.id = slot e .keyGenShare tr) := by
  obtain ⟨esig, hel⟩ := getElection_at hV.election
  obtain ⟨cs, hcs, hlen, heq⟩ := hV.commits hN
  simp only [generateTransactions, processKeygenCommitment, ht, hel, v_ok, Res.bind_def, Res.ok_bind]
  split
  · rename_i tr htr
    obtain ⟨h1, rfl, h2⟩ := hN.reactor hk htr
    rw [hcs]
    simp only [Res.ok_bind]
    by_cases hc : cs.length = e.trustees.length
    · rw [if_pos hc]
      have hF := hlen.1 hc
      have hk1 : cs.map (fun c => (c.trusteeIndex, c.x25519PublicKey)) = dhKeys N (sorted e) sk := by
        rw [heq hF, List.map_map]; rfl
      have hk2 : cs.map (fun c => (c.trusteeIndex, c.commitment)) = commitments N (sorted e) sk := by
        rw [heq hF, List.map_map]; rfl
      rw [hk1, hk2]
      obtain ⟨posted, hp⟩ := posted_exists (N := N) (e := sorted e) (sk := sk) (sorted_proper hN.trustees) hR.1 fun _ => rng
      have hp := hp tr (mem_sorted_full.2 h1)
      have hp' : (tr.generateShares N rng (sk tr.index) (dhKeys N (sorted e) sk) e.id (commitments N (sorted e) sk) : SRes _) = .ok (posted tr.index) := by
        have hid : (sorted e).id = e.id := rfl
        simp only [Trustee.generateShares] at hp ⊢
        rw [← hid]
        simp only [commitments_received hR.1 (mem_sorted_full.2 h1), Res.ok_bind] at hp ⊢
        exact encryptShares_cast _ hp
      rw [hp']
      simp only [Res.ok_bind]
      rw [sign_eq (by rintro k ⟨⟩; exact h2)]
      refine ⟨_, rfl, ?_, ?_⟩
      · intro x hx
        rw [List.mem_singleton] at hx
        exact ⟨hF, tr, h1, rfl, _, ⟨rng, hp⟩, hx⟩
      · intro _ tr' htr' heq
        have := hN.reactor_of htr'
        rw [← heq, htr] at this
        cases this
        exact ⟨_, List.mem_singleton.2 rfl, rfl⟩
    · rw [if_neg hc]
      exact ⟨[], rfl, by simp, fun hF => absurd (hlen.2 hF) hc⟩
  · rename_i htr
    refine ⟨[], rfl, by simp, fun _ tr htr' heq => ?_⟩
    subst heq
    rw [hN.reactor_of htr'] at htr
    cases htr

theorem react_share (hN : Nodes N K e sk) (hR : Run N e sk run key) (hV : View N e sk run key S) (rng : Rng) {k : SecretKey} (hk : k ∈ K)
    {t : KeyGenShareTx} {sig : Signature} (ht : t.election = e.id) :
    ∃ l, generateTransactions N rng k S (.keyGenShare ⟨t, sig⟩) = .ok l ∧
      (∀ x ∈ l, Filled e S .keyGenShare ∧ ∃ tr ∈ e.getFullTrustees, k = sk tr.index ∧ x = .keyGenPublicKey (signedBy N sk tr (pkTx N e run key tr))) ∧
      (Filled e S .keyGenShare → ∀ tr ∈ e.getFullTrustees, k = sk tr.index → ∃ x ∈ l, x.id = slot e .keyGenPublicKey tr) := by
  obtain ⟨esig, hel⟩ := getElection_at hV.election
  obtain ⟨cs, hcs, hlen, heq⟩ := hV.commits hN
  obtain ⟨ss, hss, hlen', heq'⟩ := hV.shares hN
  simp only [generateTransactions, processKeygenShare, ht, hel, v_ok, Res.bind_def, Res.ok_bind]
  split
  · rename_i tr htr
    obtain ⟨h1, rfl, h2⟩ := hN.reactor hk htr
    rw [hss]
    simp only [Res.ok_bind]
    by_cases hc : ss.length = e.trustees.length
    · rw [if_neg (not_not.2 hc)]
      have hF' := hlen'.1 hc
      have hF : Filled e S .keyGenCommitment := by
        obtain ⟨x, hx⟩ := hF' tr h1
        have hid := hV.lawful.keyed _ _ hx
        have hin : InStore S x := by unfold InStore; rw [hid]; exact hx
        refine hV.order x hin (by rw [hid]; rfl) ?_
        rw [← hV.typed x hin, hid]
        rfl
      have hk1 : cs.map (fun c => (c.trusteeIndex, c.x25519PublicKey)) = dhKeys N (sorted e) sk := by
        rw [heq hF, List.map_map]; rfl
      have hk2 : cs.map (fun c => (c.trusteeIndex, c.commitment)) = commitments N (sorted e) sk := by
        rw [heq hF, List.map_map]; rfl
      obtain ⟨rng', posted, hp, hs⟩ := heq' hF'
      have hbox : Server.sharesFor tr ss = .ok (inbox (sorted e) posted tr.index) := by
        rw [hs]
        unfold Server.sharesFor inbox
        have hget : ∀ tr' ∈ (sorted e).getFullTrustees, ∃ es, (posted tr'.index).get tr.index = some es := by
          intro tr' htr'
          obtain ⟨n, hn⟩ := posted_spec (sorted_proper hN.trustees) hR.1 hp htr' (mem_sorted_full.2 h1)
          exact ⟨_, hn⟩
        generalize (sorted e).getFullTrustees = L at hget
        induction L with
        | nil => rfl
        | cons a L ih =>
          obtain ⟨es, hes⟩ := hget a (by simp)
          rw [List.map_cons, Res.mapM', ih fun tr' h => hget tr' (by simp [h])]
          simp only [List.filterMap_cons, hes, Option.map_some, shareTx, KeyGenShareTx.new, Res.unwrap, Res.bind_def, Res.ok_bind, Res.pure_def]
      rw [hcs, hbox]
      simp only [Res.ok_bind]
      rw [hk1, hk2]
      have hpk : tr.generatePublicKey N (sk tr.index) (dhKeys N (sorted e) sk) (commitments N (sorted e) sk) (inbox (sorted e) posted tr.index) e.id =
          .ok (key, N.partyProof (run.party tr.index.toNat)) := by
        have := party_eq hN.aes hN.dh (sorted_proper hN.trustees) hR.1 hp (mem_sorted_full.2 h1)
        have hid : (sorted e).id = e.id := rfl
        rw [hid] at this
        simp only [Trustee.generatePublicKey, this, Res.bind_def, Res.ok_bind, Res.pure_def]
        rw [hR.2 _ (List.mem_map.2 ⟨tr, mem_sorted_full.2 h1, rfl⟩)]
      rw [hpk]
      simp only [v_ok, Res.ok_bind]
      rw [sign_eq (by rintro k ⟨⟩; exact h2)]
      refine ⟨_, rfl, ?_, ?_⟩
      · intro x hx
        rw [List.mem_singleton] at hx
        exact ⟨hF', tr, h1, rfl, hx⟩
      · intro _ tr' htr' heq
        have := hN.reactor_of htr'
        rw [← heq, htr] at this
        cases this
        exact ⟨_, List.mem_singleton.2 rfl, rfl⟩
    · rw [if_pos hc]
      exact ⟨[], rfl, by simp, fun hF => absurd (hlen'.2 hF) hc⟩
  · rename_i htr
    refine ⟨[], rfl, by simp, fun _ tr htr' heq => ?_⟩
    subst heq
    rw [hN.reactor_of htr'] at htr
    cases htr

theorem react_publicKey (hN : Nodes N K e sk) (hV : View N e sk run key S) (rng : Rng) (k : SecretKey)
    {t : KeyGenPublicKeyTx} {sig : Signature} (ht : t.election = e.id) :
    ∃ l, generateTransactions N rng k S (.keyGenPublicKey ⟨t, sig⟩) = .ok l ∧
      (∀ x ∈ l, N.edPublic k = e.authorityPublic ∧ Filled e S .keyGenPublicKey ∧ ∃ s, x = .encryptionKey s ∧
        s.tx = EncryptionKeyTx.new e.id e.authorityPublic t.publicKey ∧ s.sig = N.edSign k s.tx.toCbor.encode) ∧
      (Filled e S .keyGenPublicKey → N.edPublic k = e.authorityPublic → l ≠ []) := by
  classical
  obtain ⟨ps, -, -, hst, hlen, -⟩ := hV.pks hN
  refine ⟨_, encryptionKey_emitted hV.lawful hV.typed (by rw [ht]; exact hV.election), ?_, ?_⟩
  · intro x hx
    split at hx
    · rename_i hc
      rw [List.mem_singleton] at hx
      exact ⟨hc.1.symm, hlen.1 (by simpa using (countIs_iff hst).1 hc.2), _, hx, rfl, rfl⟩
    · cases hx
  · intro hF ha
    rw [if_pos ⟨ha.symm, (countIs_iff hst).2 (by simpa using hlen.2 hF)⟩]
    simp

/-! ## What honest nodes submit is accepted -/

/-- an honest set-up transaction which, if it is the encryption key, is the right one and due -/
def Due (N : NodeEnv) (e : ElectionTx) (sk : UInt8 → SecretKey) (run : KeyGenRun N) (key : ElGamalKey) (S : Store) : SignedTx → Prop
  | .encryptionKey s => s.tx = EncryptionKeyTx.new e.id e.authorityPublic key ∧ N.edVerify e.authorityPublic s.tx.toCbor.encode s.sig = true ∧ Filled e S .keyGenPublicKey
  | t => kindOf t ∈ [.keyGenCommitment, .keyGenShare, .keyGenPublicKey] ∧ Honest N e sk run key t

theorem due_valid (hN : Nodes N K e sk) (hR : Run N e sk run key) (hV : View N e sk run key S) {t : SignedTx} (h : Due N e sk run key S t) :
    t.validate N.toEnv S = .ok () := by
  cases t with
  | keyGenCommitment s =>
    obtain ⟨-, tr, htr, rfl⟩ := h
    refine SignedTx.validate_ok.2 ⟨rfl, ?_, KeyGenCommitmentTx.validateTx_ok.2 ⟨e, hV.election, full_isTrustee htr⟩⟩
    rintro k ⟨⟩
    show N.edVerify tr.publicKey _ _ = true
    rw [← hN.held' htr]
    exact hN.sign _ _
  | keyGenShare s =>
    obtain ⟨-, tr, htr, posted, ⟨rng, hp⟩, rfl⟩ := h
    refine SignedTx.validate_ok.2 ⟨rfl, ?_, KeyGenShareTx.validateTx_ok.2 ⟨e, hV.election, full_isTrustee htr, ?_, ?_⟩⟩
    · rintro k ⟨⟩
      show N.edVerify tr.publicKey _ _ = true
      rw [← hN.held' htr]
      exact hN.sign _ _
    · have hid : (sorted e).id = e.id := rfl
      rw [← hid] at hp
      simp only [Trustee.generateShares, commitments_received hR.1 (mem_sorted_full.2 htr), Res.ok_bind] at hp
      have := (encryptShares_keys hp).2 (dhKeys_nodup (sorted_proper hN.trustees)) (by simp [IndexMap.empty])
      show posted.entries.length = _
      rw [this]
      simp [IndexMap.empty, dhKeys, (sorted_full e).length_eq, full_length]
    · intro tr0 htr0
      have hid : (sorted e).id = e.id := rfl
      rw [← hid] at hp
      simp only [Trustee.generateShares, commitments_received hR.1 (mem_sorted_full.2 htr), Res.ok_bind] at hp
      refine (IndexMap.get_isSome _ _).2 (((encryptShares_keys hp).1 _).2 (.inr ?_))
      refine List.mem_map.2 ⟨_, dhKeys_mem (mem_sorted_full.2 (full_iff.2 ⟨tr0, htr0, rfl⟩)), rfl⟩
  | keyGenPublicKey s =>
    obtain ⟨-, tr, htr, rfl⟩ := h
    refine SignedTx.validate_ok.2 ⟨rfl, ?_, KeyGenPublicKeyTx.validateTx_ok.2 ⟨e, hV.election, full_isTrustee htr⟩⟩
    rintro k ⟨⟩
    show N.edVerify tr.publicKey _ _ = true
    rw [← hN.held' htr]
    exact hN.sign _ _
  | encryptionKey s =>
    obtain ⟨s, sig⟩ := s
    obtain ⟨rfl, hsig, hF⟩ := h
    obtain ⟨ps, hm, -, -, hlen, heq⟩ := hV.pks hN
    have heq := heq hF
    refine SignedTx.validate_ok.2 ⟨rfl, ?_, EncryptionKeyTx.validateTx_ok.2 ⟨e, hV.election, rfl, ps, hm, hlen.2 hF, ?_, ?_⟩⟩
    · rintro k ⟨⟩
      exact hsig
    · intro tr0 htr0
      have : pkTx N e run key { tr0 with numTrustees := e.trustees.length, threshold := e.trusteesThreshold } ∈ ps.map (·.tx) := by
        rw [heq]
        exact List.mem_map_of_mem (mem_sorted_full.2 (full_iff.2 ⟨tr0, htr0, rfl⟩))
      obtain ⟨p, hp, hpt⟩ := List.mem_map.1 this
      exact ⟨p, hp, by rw [hpt]; rfl, by rw [hpt]; rfl⟩
    · intro p hp
      have : p.tx ∈ ps.map (·.tx) := List.mem_map_of_mem hp
      rw [heq] at this
      obtain ⟨tr, -, htr⟩ := List.mem_map.1 this
      rw [← htr]
      rfl
  | _ => exact absurd h.1 (by simp [kindOf])

/-- An accepted encryption key is the one. -/
theorem accepted_key (hN : Nodes N K e sk) (hV : View N e sk run key S) {s : Signed EncryptionKeyTx} {k : ElGamalKey}
    (hs : s.tx = EncryptionKeyTx.new e.id e.authorityPublic k) (h : (SignedTx.encryptionKey s).validate N.toEnv S = .ok ()) : k = key ∧ Filled e S .keyGenPublicKey := by
  obtain ⟨s, sig⟩ := s
  simp only at hs
  subst hs
  obtain ⟨-, -, h⟩ := SignedTx.validate_ok.1 h
  obtain ⟨e', he', -, pks, hm, hlen, hall, heqk⟩ := EncryptionKeyTx.validateTx_ok.1 h
  have : e' = e := by
    obtain ⟨_, h1⟩ := he'
    obtain ⟨_, h2⟩ := hV.election
    have := h1.symm.trans h2
    cases this
    rfl
  subst this
  obtain ⟨ps, hm', -, -, hlen', heq⟩ := hV.pks hN
  have : S.getMultiple e'.id .keyGenPublicKey = .ok (pks.map .keyGenPublicKey) := hm
  rw [hm'] at this
  have : ps = pks := by
    have h := Res.ok.inj this
    exact List.map_injective_iff.2 (fun a b h => by cases h; rfl) h
  subst this
  have hF := hlen'.1 hlen
  refine ⟨?_, hF⟩
  have hpos : 0 < ps.length := by
    rw [hlen]
    have h1 := hN.trustees.threshold
    have h2 := hN.trustees.enough
    omega
  obtain ⟨p, hp⟩ := List.exists_mem_of_length_pos hpos
  have h1 := heqk p hp
  have : p.tx ∈ ps.map (·.tx) := List.mem_map_of_mem hp
  rw [heq hF] at this
  obtain ⟨tr, -, htr⟩ := List.mem_map.1 this
  rw [← htr] at h1
  exact h1.symm

end Setup
end CB
