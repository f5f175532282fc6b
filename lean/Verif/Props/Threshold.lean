import Verif.Props.Shares
import Verif.Props.Serialization
import Verif.Lemmas.AcceptDec
import Verif.Model.Client
import Verif.Examples.ElGamal
import Mathlib.Data.Rat.Encodable
/-!
# C56: any quorum of trustees decrypts what voters encrypted

The trustees run the code of trustee.rs honestly on each other's outputs; the voter runs `encrypt_vote`; `decrypt_vote` is run on any quorum's partial decryptions.
-/

namespace CB
open Spec

namespace Spec

/-- What each trustee of the election posts: the X25519 key and the commitment. -/
def dhKeys (N : NodeEnv) (e : ElectionTx) (sk : UInt8 → SecretKey) : List (UInt8 × X25519Pub) :=
  e.getFullTrustees.map fun tr => (tr.index, Trustee.x25519Key N (sk tr.index) e.id)
def commitments (N : NodeEnv) (e : ElectionTx) (sk : UInt8 → SecretKey) : List (UInt8 × KeygenCommitment) :=
  e.getFullTrustees.map fun tr => (tr.index, tr.keygenCommitment N (sk tr.index) e.id)

/-- The shares posted for trustee `j`: one from every trustee. -/
def inbox (e : ElectionTx) (posted : UInt8 → IndexMap UInt8 EncryptedShare) (j : UInt8) : List (UInt8 × EncryptedShare) :=
  e.getFullTrustees.filterMap fun tr => ((posted tr.index).get j).map fun s => (tr.index, s)

/-- Each trustee posted the shares that `generate_shares` gives. -/
def PostedHonestly (N : NodeEnv) (e : ElectionTx) (sk : UInt8 → SecretKey) (rng : UInt8 → Rng) (posted : UInt8 → IndexMap UInt8 EncryptedShare) : Prop :=
  ∀ tr ∈ e.getFullTrustees, (tr.generateShares N (rng tr.index) (sk tr.index) (dhKeys N e sk) e.id (commitments N e sk) : VRes _) = .ok (posted tr.index)

/-- The election's trustees have distinct indices, none of them 0, and at least `threshold ≥ 1` of them. -/
structure ProperTrustees (e : ElectionTx) : Prop where
  distinct : (e.trustees.map (·.index)).Nodup
  nonzero : ∀ tr ∈ e.trustees, tr.index ≠ 0
  threshold : 1 ≤ e.trusteesThreshold.toNat
  enough : e.trusteesThreshold.toNat ≤ e.trustees.length

end Spec

theorem expect_ok {ε ε' α : Type} {r : Except ε' α} {p : Panic} {a : α} : (Res.expect r p : Res ε α) = .ok a ↔ r = .ok a := by
  unfold Res.expect
  cases r <;> simp

theorem receiveCommitments_ok {ε : Type} {N : NodeEnv} (l : List (UInt8 × KeygenCommitment)) (g g' : N.Gen) :
    (Trustee.receiveCommitments N g l : Res ε _) = .ok g' ↔ l.foldlM (fun g c => N.genReceiveCommitment g c.1.toNat c.2) g = .ok g' := by
  induction l generalizing g with
  | nil => simp [Trustee.receiveCommitments, pure, Except.pure]
  | cons x xs ih =>
    obtain ⟨i, c⟩ := x
    simp only [Trustee.receiveCommitments, Res.bind_eq_ok, expect_ok, List.foldlM_cons, bind, Except.bind]
    cases N.genReceiveCommitment g i.toNat c with
    | error _ => simp
    | ok g1 => simpa using ih g1

theorem receiveShares_ok {ε : Type} {N : NodeEnv} (l : List (UInt8 × Scalar)) (g g' : N.Gen) :
    (Trustee.receiveShares N g l : Res ε _) = .ok g' ↔ l.foldlM (fun g c => N.genReceiveShare g c.1.toNat c.2) g = .ok g' := by
  induction l generalizing g with
  | nil => simp [Trustee.receiveShares, pure, Except.pure]
  | cons x xs ih =>
    obtain ⟨i, c⟩ := x
    simp only [Trustee.receiveShares, Res.bind_eq_ok, expect_ok, List.foldlM_cons, bind, Except.bind]
    cases N.genReceiveShare g i.toNat c with
    | error _ => simp
    | ok g1 => simpa using ih g1

theorem foldlM_congr {m : Type → Type} [Monad m] {α β : Type} {f f' : β → α → m β} (l : List α) (h : ∀ a ∈ l, ∀ b, f b a = f' b a) (b : β) :
    l.foldlM f b = l.foldlM f' b := by
  induction l generalizing b with
  | nil => rfl
  | cons a l ih =>
    rw [List.foldlM_cons, List.foldlM_cons, h a (by simp)]
    congr 1
    funext c
    exact ih (fun a ha => h a (by simp [ha])) c

theorem mapM'_filterMap {ε α β γ : Type} {f : β → Res ε γ} {g : α → Option β} {h : α → γ} (l : List α)
    (H : ∀ a ∈ l, ∃ b, g a = some b ∧ f b = .ok (h a)) : Res.mapM' f (l.filterMap g) = .ok (l.map h) := by
  induction l with
  | nil => rfl
  | cons a l ih =>
    obtain ⟨b, h1, h2⟩ := H a (by simp)
    rw [List.filterMap_cons, h1]
    simp only [Res.mapM', h2, Res.ok_bind, ih fun a ha => H a (by simp [ha]), List.map_cons]

theorem filter_key {α κ : Type} [DecidableEq κ] {key : α → κ} {l : List α} (hn : (l.map key).Nodup) {a : α} (ha : a ∈ l) :
    l.filter (fun b => key b == key a) = [a] := by
  induction l with
  | nil => cases ha
  | cons b l ih =>
    rw [List.map_cons, List.nodup_cons] at hn
    rcases List.mem_cons.1 ha with rfl | hm
    · rw [List.filter_cons_of_pos (by simp), List.filter_eq_nil_iff.2]
      intro c hc hk
      exact hn.1 (List.mem_map.2 ⟨c, hc, by simpa using hk⟩)
    · rw [List.filter_cons_of_neg, ih hn.2 hm]
      intro hk
      exact hn.1 (List.mem_map.2 ⟨a, hm, (by simpa using hk : key b = key a).symm⟩)

section
variable {N : NodeEnv} {e : ElectionTx} {sk : UInt8 → SecretKey}

/-- the trustees' indices -/
def idxs (e : ElectionTx) : List Nat := e.getFullTrustees.map fun tr => tr.index.toNat
/-- the seed of the trustee with an index -/
def seedOf (N : NodeEnv) (e : ElectionTx) (sk : UInt8 → SecretKey) (k : Nat) : BArr 32 :=
  N.hkdf e.id.toArray (sk (UInt8.ofNat k)).val (str "cryptoballot_trustee_generator")

theorem full_index_nodup (hT : ProperTrustees e) : (e.getFullTrustees.map (·.index)).Nodup := by
  have : e.getFullTrustees.map (·.index) = e.trustees.map (·.index) := by
    unfold ElectionTx.getFullTrustees
    rw [List.map_map]
    rfl
  rw [this]; exact hT.distinct

theorem idxs_nodup (hT : ProperTrustees e) : (idxs e).Nodup := by
  have : idxs e = (e.getFullTrustees.map (·.index)).map UInt8.toNat := by simp [idxs]
  rw [this]
  exact List.Pairwise.map _ (fun a b h h' => h (UInt8.toNat_inj.1 h')) (full_index_nodup hT)

theorem idxs_length : (idxs e).length = e.trustees.length := by simp [idxs, ElectionTx.getFullTrustees]

theorem idxs_bounds (hT : ProperTrustees e) : ∀ i ∈ idxs e, 1 ≤ i ∧ i ≤ 255 := by
  intro i hi
  obtain ⟨tr, htr, rfl⟩ := List.mem_map.1 hi
  obtain ⟨tr', htr', rfl⟩ := List.mem_map.1 htr
  have h1 := hT.nonzero tr' htr'
  have h2 : tr'.index.toNat ≠ 0 := fun h => h1 (UInt8.toNat_inj.1 (by simpa using h))
  have h3 := tr'.index.toNat_lt
  simp only
  omega

theorem generator_eq {tr : Trustee} (htr : tr ∈ e.getFullTrustees) :
    tr.generator N (sk tr.index) e.id = N.genNew (seedOf N e sk tr.index.toNat) tr.index.toNat e.trusteesThreshold.toNat (idxs e).length := by
  obtain ⟨tr', htr', rfl⟩ := List.mem_map.1 htr
  rw [idxs_length]
  simp [Trustee.generator, seedOf]

theorem commitments_received {run : KeyGenRun N} (hrun : run.Honest (idxs e) e.trusteesThreshold.toNat (seedOf N e sk)) {tr : Trustee}
    (htr : tr ∈ e.getFullTrustees) {ε : Type} :
    (Trustee.receiveCommitments N (tr.generator N (sk tr.index) e.id) (commitments N e sk) : Res ε _) = .ok (run.full tr.index.toNat) := by
  rw [receiveCommitments_ok]
  have h := (hrun tr.index.toNat (List.mem_map.2 ⟨tr, htr, rfl⟩)).1
  have hg : ∀ tr ∈ e.getFullTrustees, _ := fun tr htr => generator_eq (N := N) (sk := sk) htr
  rw [hg tr htr]
  generalize (idxs e).length = L at h hg ⊢
  rw [← h]
  unfold commitments idxs
  rw [List.foldlM_map, List.foldlM_map]
  apply foldlM_congr
  intro tr' htr' g
  simp only [Trustee.keygenCommitment, hg tr' htr']

theorem dhKeys_nodup (hT : ProperTrustees e) : ((dhKeys N e sk).map Prod.fst).Nodup := by
  have : (dhKeys N e sk).map Prod.fst = e.getFullTrustees.map (·.index) := by
    unfold dhKeys
    rw [List.map_map]
    rfl
  rw [this]; exact full_index_nodup hT

theorem dhKeys_mem {tr : Trustee} (htr : tr ∈ e.getFullTrustees) : (tr.index, Trustee.x25519Key N (sk tr.index) e.id) ∈ dhKeys N e sk :=
  List.mem_map.2 ⟨tr, htr, rfl⟩

theorem dhKeys_last (hT : ProperTrustees e) {tr : Trustee} (htr : tr ∈ e.getFullTrustees) :
    ((dhKeys N e sk).filter fun k => k.1 == tr.index).getLast? = some (tr.index, Trustee.x25519Key N (sk tr.index) e.id) := by
  rw [filter_key (key := Prod.fst) (dhKeys_nodup hT) (dhKeys_mem htr)]
  rfl

theorem encryptShares_total {ε : Type} {rng : Rng} {k : SecretKey} {id : Identifier} {g : N.Gen} (keys : List (UInt8 × X25519Pub))
    (h : ∀ x ∈ keys, ∃ s, N.genShare g x.1.toNat = .ok s) (n : Nat) (m : IndexMap UInt8 EncryptedShare) :
    ∃ m', (Trustee.encryptShares N rng k id g n m keys : Res ε _) = .ok m' := by
  induction keys generalizing n m with
  | nil => exact ⟨m, rfl⟩
  | cons x xs ih =>
    obtain ⟨i, key⟩ := x
    obtain ⟨s, hs⟩ := h (i, key) (by simp)
    simp only at hs
    simp only [Trustee.encryptShares, hs, Res.expect, Res.ok_bind]
    exact ih (fun x hx => h x (by simp [hx])) _ _

/-- What trustee `tr` posts for trustee `tr'`. -/
theorem posted_spec (hT : ProperTrustees e) {run : KeyGenRun N} (hrun : run.Honest (idxs e) e.trusteesThreshold.toNat (seedOf N e sk)) {rng : UInt8 → Rng}
    {posted : UInt8 → IndexMap UInt8 EncryptedShare} (hp : PostedHonestly N e sk rng posted) {tr tr' : Trustee}
    (htr : tr ∈ e.getFullTrustees) (htr' : tr' ∈ e.getFullTrustees) :
    ∃ nonce, (posted tr.index).get tr'.index = some (EncryptedShare.new N nonce
      (Trustee.sharedSecret N (sk tr.index) e.id (Trustee.x25519Key N (sk tr'.index) e.id)) (run.share tr.index.toNat tr'.index.toNat)) := by
  have h := hp tr htr
  simp only [Trustee.generateShares, commitments_received hrun htr, Res.ok_bind] at h
  obtain ⟨share, nonce, h1, h2⟩ := (encryptShares_get _ _ _ _ h).2 (dhKeys_nodup hT) _ _ (dhKeys_mem htr')
  have h3 := ((hrun tr.index.toNat (List.mem_map.2 ⟨tr, htr, rfl⟩)).2.1 tr'.index.toNat (List.mem_map.2 ⟨tr', htr', rfl⟩)).1
  rw [h1] at h3
  cases h3
  exact ⟨nonce, h2⟩

theorem posted_exists (hT : ProperTrustees e) {run : KeyGenRun N} (hrun : run.Honest (idxs e) e.trusteesThreshold.toNat (seedOf N e sk)) (rng : UInt8 → Rng) :
    ∃ posted, PostedHonestly N e sk rng posted := by
  have h : ∀ tr ∈ e.getFullTrustees, ∃ m,
      (tr.generateShares N (rng tr.index) (sk tr.index) (dhKeys N e sk) e.id (commitments N e sk) : VRes _) = .ok m := by
    intro tr htr
    simp only [Trustee.generateShares, commitments_received hrun htr, Res.ok_bind]
    apply encryptShares_total
    intro x hx
    obtain ⟨tr', htr', rfl⟩ := List.mem_map.1 hx
    exact ⟨_, ((hrun tr.index.toNat (List.mem_map.2 ⟨tr, htr, rfl⟩)).2.1 tr'.index.toNat (List.mem_map.2 ⟨tr', htr', rfl⟩)).1⟩
  refine ⟨fun i => match e.getFullTrustees.filter (fun b => b.index == i) with
    | [tr] => match (tr.generateShares N (rng tr.index) (sk tr.index) (dhKeys N e sk) e.id (commitments N e sk) : VRes _) with
      | .ok m => m
      | _ => IndexMap.empty
    | _ => IndexMap.empty, fun tr htr => ?_⟩
  obtain ⟨m, hm⟩ := h tr htr
  have hk := filter_key (key := fun b : Trustee => b.index) (full_index_nodup hT) htr
  simp only [hk, hm]

/-- The party a trustee computes is that of the honest run. -/
theorem party_eq (hA : AesCorrect N) (hD : DhAgrees N) (hT : ProperTrustees e) {run : KeyGenRun N}
    (hrun : run.Honest (idxs e) e.trusteesThreshold.toNat (seedOf N e sk)) {rng : UInt8 → Rng}
    {posted : UInt8 → IndexMap UInt8 EncryptedShare} (hp : PostedHonestly N e sk rng posted) {tr : Trustee} (htr : tr ∈ e.getFullTrustees) :
    tr.party N (sk tr.index) (dhKeys N e sk) (commitments N e sk) (inbox e posted tr.index) e.id = .ok (run.party tr.index.toNat) := by
  have hdec : Trustee.decryptShares N (sk tr.index) (dhKeys N e sk) e.id (inbox e posted tr.index) =
      .ok (e.getFullTrustees.map fun tr' => (tr'.index, run.share tr'.index.toNat tr.index.toNat)) := by
    unfold Trustee.decryptShares inbox
    apply mapM'_filterMap
    intro tr' htr'
    obtain ⟨nonce, hn⟩ := posted_spec hT hrun hp htr' htr
    refine ⟨_, by rw [hn]; rfl, ?_⟩
    have hs := ((hrun tr'.index.toNat (List.mem_map.2 ⟨tr', htr', rfl⟩)).2.1 tr.index.toNat (List.mem_map.2 ⟨tr, htr, rfl⟩)).2
    have := C50_share_roundtrip N hA nonce (Trustee.sharedSecret N (sk tr'.index) e.id (Trustee.x25519Key N (sk tr.index) e.id)) _ hs
    rw [sharedSecret_agrees N hD] at this
    rw [sharedSecret_agrees N hD]
    simp [dhKeys_last hT htr', Res.ofOption, this]
  obtain ⟨g, hg, hf⟩ := (hrun tr.index.toNat (List.mem_map.2 ⟨tr, htr, rfl⟩)).2.2
  have hsh : (Trustee.receiveShares N (run.full tr.index.toNat)
      (e.getFullTrustees.map fun tr' => (tr'.index, run.share tr'.index.toNat tr.index.toNat)) : VRes _) = .ok g := by
    rw [receiveShares_ok, ← hg]
    unfold idxs
    rw [List.foldlM_map, List.foldlM_map]
  simp only [Trustee.party, Trustee.generateParty, hdec, Res.bind_def, Res.ok_bind, commitments_received hrun htr, hsh, hf, Res.expect]

end

theorem skolem_key {α κ β : Type} [DecidableEq κ] [Nonempty β] {key : α → κ} {l : List α} (hn : (l.map key).Nodup) {R : α → β → Prop}
    (H : ∀ a ∈ l, ∃ b, R a b) : ∃ f : κ → β, ∀ a ∈ l, R a (f (key a)) := by
  induction l with
  | nil => exact ⟨fun _ => Classical.choice inferInstance, by simp⟩
  | cons x xs ih =>
    rw [List.map_cons, List.nodup_cons] at hn
    obtain ⟨f, hf⟩ := ih hn.2 fun a ha => H a (by simp [ha])
    obtain ⟨b, hb⟩ := H x (by simp)
    refine ⟨fun k => if k = key x then b else f k, fun a ha => ?_⟩
    rcases List.mem_cons.1 ha with rfl | ha
    · simpa using hb
    · have : key a ≠ key x := fun h => hn.1 (List.mem_map.2 ⟨a, ha, h⟩)
      simpa [this] using hf a ha

theorem flatMapM_filter {ε α β : Type} {f : α → Res ε (List β)} {P : α → Bool} {h : α → β} (l : List α)
    (H : ∀ a ∈ l, f a = .ok (if P a then [h a] else [])) : Res.flatMapM f l = .ok ((l.filter P).map h) := by
  induction l with
  | nil => rfl
  | cons a l ih =>
    simp only [Res.flatMapM, H a (by simp), Res.ok_bind, ih fun a ha => H a (by simp [ha])]
    by_cases hP : P a <;> simp [hP]

theorem lastByIndex_isSome {α : Type} {key : α → UInt8} {i : UInt8} {l : List α} (h : ∃ a ∈ l, key a = i) : ∃ a, lastByIndex key i l = some a := by
  obtain ⟨a, ha, hk⟩ := h
  have : (lastByIndex key i l).isSome = true := by
    unfold lastByIndex
    rw [List.find?_isSome]
    exact ⟨a, by simpa using ha, by simp [hk]⟩
  exact Option.isSome_iff_exists.1 this

/-- **C56** (setting up) If the primitives work and the trustees have distinct non-zero indices, honest key generation never fails: all trustees can post their shares,
and from whatever was posted all of them compute one and the same encryption key. -/
theorem C56_key_generation (N : NodeEnv) (fits : Bytes → Prop) (hN : ThresholdCorrect N fits) (hA : AesCorrect N) (hD : DhAgrees N) (e : ElectionTx)
    (hT : ProperTrustees e) (sk : UInt8 → SecretKey) (rng : UInt8 → Rng) :
    (∃ posted, PostedHonestly N e sk rng posted) ∧
    ∀ posted, PostedHonestly N e sk rng posted → ∃ (key : ElGamalKey) (proof : UInt8 → PubkeyProof), ∀ tr ∈ e.getFullTrustees,
      tr.generatePublicKey N (sk tr.index) (dhKeys N e sk) (commitments N e sk) (inbox e posted tr.index) e.id = .ok (key, proof tr.index) := by
  obtain ⟨run, key, hrun, hkey, _⟩ := hN (idxs e) e.trusteesThreshold.toNat (seedOf N e sk) (idxs_nodup hT) (idxs_bounds hT) hT.threshold
    (by rw [idxs_length]; exact hT.enough)
  refine ⟨posted_exists hT hrun rng, fun posted hp => ⟨key, fun i => N.partyProof (run.party i.toNat), fun tr htr => ?_⟩⟩
  simp only [Trustee.generatePublicKey, party_eq hA hD hT hrun hp htr, Res.bind_def, Res.ok_bind, Res.pure_def]
  rw [hkey _ (List.mem_map.2 ⟨tr, htr, rfl⟩)]

/-- **C56** (partial decryptions) Every trustee can partially decrypt what was encrypted to that key, and the result passes verification against that trustee's
posted proof. -/
theorem C56_partial_decryptions_verify (N : NodeEnv) (fits : Bytes → Prop) (hN : ThresholdCorrect N fits) (hA : AesCorrect N) (hD : DhAgrees N) (e : ElectionTx)
    (hT : ProperTrustees e) (sk : UInt8 → SecretKey) (rng : UInt8 → Rng) (posted : UInt8 → IndexMap UInt8 EncryptedShare)
    (hp : PostedHonestly N e sk rng posted) (key : ElGamalKey) (proof : UInt8 → PubkeyProof)
    (hkey : ∀ tr ∈ e.getFullTrustees,
      tr.generatePublicKey N (sk tr.index) (dhKeys N e sk) (commitments N e sk) (inbox e posted tr.index) e.id = .ok (key, proof tr.index))
    (m r rnd : Bytes) (hm : fits m) (tr : Trustee) (htr : tr ∈ e.getFullTrustees) :
    ∃ d, tr.partialDecrypt N rnd (sk tr.index) (dhKeys N e sk) (commitments N e sk) (inbox e posted tr.index) (N.encrypt key m r) e.id = .ok d ∧
      N.shareVerify d (proof tr.index) (N.encrypt key m r) = true := by
  obtain ⟨run, key', hrun, hkey', hdec⟩ := hN (idxs e) e.trusteesThreshold.toNat (seedOf N e sk) (idxs_nodup hT) (idxs_bounds hT) hT.threshold
    (by rw [idxs_length]; exact hT.enough)
  have h := hkey tr htr
  simp only [Trustee.generatePublicKey, party_eq hA hD hT hrun hp htr, Res.bind_def, Res.ok_bind, Res.pure_def, Res.ok.injEq, Prod.mk.injEq] at h
  rw [hkey' _ (List.mem_map.2 ⟨tr, htr, rfl⟩)] at h
  obtain ⟨rfl, hpr⟩ := h
  refine ⟨N.partyDecrypt (run.party tr.index.toNat) (N.encrypt key' m r) rnd, ?_, ?_⟩
  · simp only [Trustee.partialDecrypt, party_eq hA hD hT hrun hp htr, Res.bind_def, Res.ok_bind, Res.pure_def]
  · rw [← hpr]
    exact (hdec m r hm).1 _ (List.mem_map.2 ⟨tr, htr, rfl⟩) rnd

theorem encryptVoteFrom_get (N : NodeEnv) (key : ElGamalKey) (rng : Rng) : ∀ (k : Nat) (vote : List Selection) (j : Nat),
    (encryptVoteFrom N key rng k vote)[j]? = vote[j]?.map fun s => N.encrypt key s.encode (rng.bytes [k + j])
  | _, [], _ => by simp [encryptVoteFrom]
  | k, s :: ss, 0 => by simp [encryptVoteFrom]
  | k, s :: ss, j + 1 => by
    simp only [encryptVoteFrom, List.getElem?_cons_succ]
    rw [encryptVoteFrom_get N key rng (k + 1) ss j]
    congr 2
    funext s
    rw [show k + 1 + j = k + (j + 1) by omega]

/-- **C56** Whatever a voter encrypted to the election's key, the partial decryptions of any set of at least `threshold` trustees decrypt to exactly the voter's
selections (so all such sets agree): however the partial decryptions are ordered, repeated or randomized. -/
theorem C56_any_quorum_decrypts (N : NodeEnv) (fits : Bytes → Prop) (hN : ThresholdCorrect N fits) (hA : AesCorrect N) (hD : DhAgrees N) (e : ElectionTx)
    (hT : ProperTrustees e) (sk : UInt8 → SecretKey) (rng : UInt8 → Rng) (posted : UInt8 → IndexMap UInt8 EncryptedShare)
    (hp : PostedHonestly N e sk rng posted) (key : ElGamalKey) (proof : UInt8 → PubkeyProof)
    (hkey : ∀ tr ∈ e.getFullTrustees,
      tr.generatePublicKey N (sk tr.index) (dhKeys N e sk) (commitments N e sk) (inbox e posted tr.index) e.id = .ok (key, proof tr.index))
    -- the voter's selections
    (vote : List Selection) (hv : ∀ s ∈ vote, IsText s.selection ∧ fits s.encode) (vrng : Rng)
    -- the partial decryptions
    (partials : List PartialDecryptionTx)
    -- the public keys posted by the trustees: those who decrypt have posted theirs; what the others have posted does not matter
    (pubkeys : List KeyGenPublicKeyTx) (hpk : ∀ tr ∈ e.getFullTrustees, tr.index ∈ partials.map (·.trusteeIndex) → ∃ p ∈ pubkeys, p.trusteeIndex = tr.index)
    (hpk' : ∀ p ∈ pubkeys, p.trusteeIndex ∈ partials.map (·.trusteeIndex) → p.publicKeyProof = proof p.trusteeIndex)
    (hpart : ∀ p ∈ partials, ∀ tr ∈ e.getFullTrustees, tr.index = p.trusteeIndex → ∀ (j : Nat) c, (encryptVote N key vrng vote)[j]? = some c → ∃ d rnd,
      p.partialDecryption[j]? = some d ∧
      tr.partialDecrypt N rnd (sk tr.index) (dhKeys N e sk) (commitments N e sk) (inbox e posted tr.index) c e.id = .ok d)
    (hq : e.trusteesThreshold.toNat ≤ (e.getFullTrustees.filter fun tr => decide (tr.index ∈ partials.map (·.trusteeIndex))).length) :
    decryptVote N.toEnv (encryptVote N key vrng vote) e.trusteesThreshold e.getFullTrustees pubkeys partials = .ok vote := by
  obtain ⟨run, key', hrun, hkey', hdec⟩ := hN (idxs e) e.trusteesThreshold.toNat (seedOf N e sk) (idxs_nodup hT) (idxs_bounds hT) hT.threshold
    (by rw [idxs_length]; exact hT.enough)
  have hk : ∀ tr ∈ e.getFullTrustees, key' = key ∧ N.partyProof (run.party tr.index.toNat) = proof tr.index := by
    intro tr htr
    have h := hkey tr htr
    simp only [Trustee.generatePublicKey, party_eq hA hD hT hrun hp htr, Res.bind_def, Res.ok_bind, Res.pure_def, Res.ok.injEq, Prod.mk.injEq] at h
    rwa [hkey' _ (List.mem_map.2 ⟨tr, htr, rfl⟩)] at h
  have hne : key' = key := by
    have h1 := hT.threshold
    have h2 : 0 < (e.getFullTrustees.filter fun tr => decide (tr.index ∈ partials.map (·.trusteeIndex))).length := by omega
    obtain ⟨tr, htr⟩ := List.exists_mem_of_length_pos h2
    exact (hk tr (List.mem_filter.1 htr).1).1
  subst hne
  unfold decryptVote
  rw [decryptVoteFrom_ok]
  have hlen : vote.length = (encryptVote N key' vrng vote).length := by
    apply Nat.le_antisymm
    · apply Nat.le_of_not_lt
      intro h
      have := encryptVoteFrom_get N key' vrng 0 vote (encryptVote N key' vrng vote).length
      rw [show (encryptVoteFrom N key' vrng 0 vote)[(encryptVote N key' vrng vote).length]? = none from List.getElem?_eq_none (Nat.le_refl _),
        List.getElem?_eq_getElem h] at this
      simp at this
    · apply Nat.le_of_not_lt
      intro h
      have := encryptVoteFrom_get N key' vrng 0 vote vote.length
      rw [show vote[vote.length]? = none from List.getElem?_eq_none (Nat.le_refl _)] at this
      simp only [Option.map_none] at this
      have h2 : (encryptVoteFrom N key' vrng 0 vote).length ≤ vote.length := List.getElem?_eq_none_iff.1 this
      exact absurd h (Nat.not_lt.2 h2)
  refine ⟨hlen, fun j c s hc hs => ?_⟩
  have hc' := encryptVoteFrom_get N key' vrng 0 vote j
  rw [hs] at hc'
  rw [show encryptVoteFrom N key' vrng 0 vote = encryptVote N key' vrng vote from rfl, hc] at hc'
  simp only [Option.map_some, Option.some.injEq] at hc'
  obtain ⟨ht, hf⟩ := hv s (List.mem_of_getElem? hs)
  -- the randomness each counted trustee used
  obtain ⟨rnd, hrnd⟩ := skolem_key (β := Bytes) (key := fun tr : Trustee => tr.index.toNat) (idxs_nodup hT)
    (R := fun tr r => tr.index ∈ partials.map (·.trusteeIndex) → ∃ p, lastByIndex (·.trusteeIndex) tr.index partials = some p ∧
      p.partialDecryption[j]? = some (N.partyDecrypt (run.party tr.index.toNat) c r)) (by
    intro tr htr
    by_cases hin : tr.index ∈ partials.map (·.trusteeIndex)
    · obtain ⟨p₀, hp₀, hi₀⟩ := List.mem_map.1 hin
      obtain ⟨p, hlast⟩ := lastByIndex_isSome (key := fun p : PartialDecryptionTx => p.trusteeIndex) ⟨p₀, hp₀, hi₀⟩
      obtain ⟨hmem, hidx⟩ := lastByIndex_mem hlast
      obtain ⟨d, r, hd, hpd⟩ := hpart p hmem tr htr hidx.symm j c hc
      simp only [Trustee.partialDecrypt, party_eq hA hD hT hrun hp htr, Res.bind_def, Res.ok_bind, Res.pure_def, Res.ok.injEq] at hpd
      exact ⟨r, fun _ => ⟨p, hlast, by rw [hd, hpd]⟩⟩
    · exact ⟨[], fun h => absurd h hin⟩)
  have hshares : sharesFor e.getFullTrustees pubkeys partials (0 + j) =
      .ok ((e.getFullTrustees.filter fun tr => decide (tr.index ∈ partials.map (·.trusteeIndex))).map fun tr =>
        (tr.index.toNat, N.partyProof (run.party tr.index.toNat), N.partyDecrypt (run.party tr.index.toNat) c (rnd tr.index.toNat))) := by
    unfold sharesFor
    apply flatMapM_filter
    intro tr htr
    by_cases hin : tr.index ∈ partials.map (·.trusteeIndex)
    · obtain ⟨pk, hpk1⟩ := lastByIndex_isSome (key := fun p : KeyGenPublicKeyTx => p.trusteeIndex) (hpk tr htr hin)
      obtain ⟨hpk2, hpk3⟩ := lastByIndex_mem hpk1
      obtain ⟨p, hlast, hd⟩ := hrnd tr htr hin
      rw [hlast, hpk1]
      simp only [Nat.zero_add, hd, Res.unwrap, Res.bind_def, Res.ok_bind, Res.pure_def, hin, decide_true, if_true, hpk' pk hpk2 (hpk3 ▸ hin)]
      rw [hpk3, (hk tr htr).2]
    · have : lastByIndex (·.trusteeIndex) tr.index partials = none := by
        cases hl : lastByIndex (·.trusteeIndex) tr.index partials with
        | none => rfl
        | some p =>
          obtain ⟨h1, h2⟩ := lastByIndex_mem hl
          exact absurd (List.mem_map.2 ⟨p, h1, h2⟩) hin
      rw [this]
      simp [hin]
  refine ⟨_, s.encode, hshares, ?_, C49_selection_roundtrip s ht⟩
  have := (hdec s.encode (vrng.bytes [0 + j]) hf).2 ((e.getFullTrustees.filter fun tr => decide (tr.index ∈ partials.map (·.trusteeIndex))).map fun tr => tr.index.toNat)
    rnd ?_ ?_ ?_
  · rw [List.map_map] at this
    rw [hc']
    exact this
  · exact List.Nodup.sublist (List.Sublist.map _ List.filter_sublist) (idxs_nodup hT)
  · intro i hi
    obtain ⟨tr, htr, rfl⟩ := List.mem_map.1 hi
    exact List.mem_map.2 ⟨tr, (List.mem_filter.1 htr).1, rfl⟩
  · rw [List.length_map]; exact hq


/-! ## A concrete case: textbook threshold ElGamal over ℚ, three trustees, any two suffice -/

namespace Toy

/-- messages are numbered; randomness is its length plus one -/
def rationalParams : ElGamal.Params ℚ ℚ where
  g := 1
  coeff seed k := (seed.val.getD k 0).toNat + k + 1
  draw r := r.length + 1
  hash l := l.sum + 1
  embed m := ((Encodable.encode (m.map UInt8.toNat) : ℕ) : ℚ)
  extract q := ((Encodable.decode q.num.toNat : Option (List ℕ)).getD []).map UInt8.ofNat

def rationalNode : NodeEnv := ElGamal.node rationalParams node

theorem rational_threshold : ThresholdCorrect rationalNode fun _ => True := by
  have h := ElGamal.threshold_correct rationalParams node (fun i j _ _ h => by exact_mod_cast h)
  intro I t seed h1 h2 h3 h4
  obtain ⟨run, key, hr, hk, hm⟩ := h I t seed h1 h2 h3 h4
  refine ⟨run, key, hr, hk, fun m r _ => hm m r ?_⟩
  simp only [rationalParams, Rat.num_natCast, Int.toNat_natCast, Encodable.encodek, Option.getD_some, List.map_map]
  conv_rhs => rw [← List.map_id m]
  exact List.map_congr_left fun a _ => by simp

theorem rational_aes : AesCorrect rationalNode := aes_correct
theorem rational_dh : DhAgrees rationalNode := dh_agrees

/-- three trustees, two needed -/
def threeTrustees : ElectionTx := { election with trustees := [trustee 1 11, trustee 2 12, trustee 3 13] }

theorem threeTrustees_proper : ProperTrustees threeTrustees :=
  ⟨by decide +kernel, by decide +kernel, by decide +kernel, by decide +kernel⟩

end Toy

/-- Trustees 1 and 3 alone decrypt any vote of any number of selections. -/
example (vote : List Selection) (hv : ∀ s ∈ vote, IsText s.selection) (vrng : Rng) :
    ∃ (key : ElGamalKey) (pubkeys : List KeyGenPublicKeyTx) (p1 p3 : PartialDecryptionTx), p1.trusteeIndex = 1 ∧ p3.trusteeIndex = 3 ∧
      decryptVote Toy.rationalNode.toEnv (encryptVote Toy.rationalNode key vrng vote) 2 Toy.threeTrustees.getFullTrustees pubkeys [p1, p3] = .ok vote := by
  let sk : UInt8 → SecretKey := fun i => Toy.key (i + 10)
  have hT := Toy.threeTrustees_proper
  obtain ⟨⟨posted, hp⟩, h⟩ := C56_key_generation Toy.rationalNode _ Toy.rational_threshold Toy.rational_aes Toy.rational_dh Toy.threeTrustees hT sk fun _ => Toy.rng
  obtain ⟨key, proof, hkey⟩ := h posted hp
  have hpd := C56_partial_decryptions_verify Toy.rationalNode _ Toy.rational_threshold Toy.rational_aes Toy.rational_dh Toy.threeTrustees hT sk _ posted hp key proof hkey
  -- the partial decryptions of one trustee
  have hex : ∀ tr ∈ Toy.threeTrustees.getFullTrustees, ∃ ds : List DecryptShare, ∀ (j : Nat) c, (encryptVote Toy.rationalNode key vrng vote)[j]? = some c →
      ∃ d rnd, ds[j]? = some d ∧ tr.partialDecrypt Toy.rationalNode rnd (sk tr.index) (dhKeys Toy.rationalNode Toy.threeTrustees sk)
        (commitments Toy.rationalNode Toy.threeTrustees sk) (inbox Toy.threeTrustees posted tr.index) c Toy.threeTrustees.id = .ok d := by
    intro tr htr
    have hc : ∀ c, ∃ d, (∃ m r, c = Toy.rationalNode.encrypt key m r) → tr.partialDecrypt Toy.rationalNode [] (sk tr.index)
        (dhKeys Toy.rationalNode Toy.threeTrustees sk) (commitments Toy.rationalNode Toy.threeTrustees sk) (inbox Toy.threeTrustees posted tr.index) c
        Toy.threeTrustees.id = .ok d := by
      intro c
      by_cases h : ∃ m r, c = Toy.rationalNode.encrypt key m r
      · obtain ⟨m, r, rfl⟩ := h
        obtain ⟨d, hd, _⟩ := hpd m r [] trivial tr htr
        exact ⟨d, fun _ => hd⟩
      · exact ⟨⟨[]⟩, fun h' => absurd h' h⟩
    choose f hf using hc
    refine ⟨(encryptVote Toy.rationalNode key vrng vote).map f, fun j c hc => ⟨f c, [], by rw [List.getElem?_map, hc]; rfl, hf c ?_⟩⟩
    have := encryptVoteFrom_get Toy.rationalNode key vrng 0 vote j
    rw [show encryptVoteFrom Toy.rationalNode key vrng 0 vote = encryptVote Toy.rationalNode key vrng vote from rfl, hc] at this
    cases hs : vote[j]? with
    | none => rw [hs] at this; simp at this
    | some s => rw [hs] at this; exact ⟨_, _, by simpa using this⟩
  have hfull : ∀ i k : UInt8, Toy.trustee i k ∈ Toy.threeTrustees.trustees →
      ∃ tr ∈ Toy.threeTrustees.getFullTrustees, tr.index = i := by
    intro i k hm
    exact ⟨_, List.mem_map.2 ⟨_, hm, rfl⟩, rfl⟩
  obtain ⟨t1, ht1, hi1⟩ := hfull 1 11 (by simp [Toy.threeTrustees])
  obtain ⟨t3, ht3, hi3⟩ := hfull 3 13 (by simp [Toy.threeTrustees])
  obtain ⟨ds1, hds1⟩ := hex t1 ht1
  obtain ⟨ds3, hds3⟩ := hex t3 ht3
  have uniq : ∀ a ∈ Toy.threeTrustees.getFullTrustees, ∀ b ∈ Toy.threeTrustees.getFullTrustees, a.index = b.index → a = b := by
    decide +kernel
  let pt : UInt8 → List DecryptShare → PartialDecryptionTx := fun i ds => ⟨Toy.eid, Toy.eid, Toy.eid, 0, 0, i, Toy.key i, ds⟩
  refine ⟨key, Toy.threeTrustees.getFullTrustees.map fun tr => KeyGenPublicKeyTx.new Toy.eid tr.index (Toy.key 0) key (proof tr.index),
    pt 1 ds1, pt 3 ds3, rfl, rfl, ?_⟩
  refine C56_any_quorum_decrypts Toy.rationalNode _ Toy.rational_threshold Toy.rational_aes Toy.rational_dh Toy.threeTrustees hT sk _ posted hp key proof hkey vote
    (fun s hs => ⟨hv s hs, trivial⟩) vrng _ _ (fun tr htr _ => ⟨_, List.mem_map.2 ⟨tr, htr, rfl⟩, rfl⟩) ?_ ?_
    (show 2 ≤ (Toy.threeTrustees.getFullTrustees.filter fun tr => decide (tr.index ∈ [(1 : UInt8), 3])).length by decide +kernel)
  · intro p hp _
    obtain ⟨tr, _, rfl⟩ := List.mem_map.1 hp
    rfl
  · intro p hp tr htr hidx
    simp only [List.mem_cons, List.not_mem_nil, or_false] at hp
    rcases hp with rfl | rfl
    · rw [uniq tr htr t1 ht1 (hidx.trans hi1.symm)]
      exact hds1
    · rw [uniq tr htr t3 ht3 (hidx.trans hi3.symm)]
      exact hds3

end CB
