import Mathlib.Data.List.Perm.Subperm
import Verif.Spec.Size
import Verif.Props.Decrypting
import Verif.Props.Verifiable
import Verif.Props.Voters
import Verif.Props.Foreign
/-!
# C107: how much an election can put on the ledger
-/

namespace CB
open Spec

/-! ## Helpers -/

namespace Size

theorem length_le {α β : Type} {l : List α} {s : List β} (hn : l.Nodup) (R : α → β → Prop) (hR : ∀ a ∈ l, ∃ b ∈ s, R a b)
    (hi : ∀ a ∈ l, ∀ a' ∈ l, ∀ b, R a b → R a' b → a = a') : l.length ≤ s.length := by
  classical
  by_cases hl : l = []
  · subst hl; simp
  obtain ⟨a0, ha0⟩ := List.exists_mem_of_ne_nil l hl
  obtain ⟨b0, _, _⟩ := hR a0 ha0
  let f : α → β := fun a => if h : a ∈ l then (hR a h).choose else b0
  have hf : ∀ a ∈ l, f a ∈ s ∧ R a (f a) := by
    intro a ha
    simp only [f, dif_pos ha]
    exact (hR a ha).choose_spec
  have hnd : (l.map f).Nodup := by
    refine (List.nodup_map_iff_inj_on hn).2 fun a ha a' ha' h => ?_
    exact hi a ha a' ha' (f a) (hf a ha).2 (by rw [h]; exact (hf a' ha').2)
  have hsub : l.map f ⊆ s := by
    intro b hb
    obtain ⟨a, ha, rfl⟩ := List.mem_map.1 hb
    exact (hf a ha).1
  simpa using (List.subperm_of_subset hnd hsub).length_le

theorem eq_of_id {S : Store} {t u : SignedTx} (ht : InStore S t) (hu : InStore S u) (h : t.id = u.id) : t = u := by
  rw [InStore, h] at ht
  exact Option.some.inj (ht.symm.trans hu)

theorem id_ext {a b : Identifier} (h1 : a.electionId = b.electionId) (h2 : a.txType = b.txType) (h3 : a.uniqueInfo.val = b.uniqueInfo.val) : a = b := by
  cases a; cases b
  simp only at h1 h2 h3
  subst h1; subst h2
  rw [Subtype.ext h3]

theorem item_mono {m m' : MemStore} (hx : Extends m m') {up : Identifier} {n : UInt16} {c : UInt32} {cfg : Option MixConfig} {cts : List Ciphertext}
    (h : ItemAt m.toStore up n c cfg cts) : ItemAt m'.toStore up n c cfg cts := by
  cases h with
  | ofVote h1 h2 h3 h4 h5 => exact .ofVote (hx _ _ h1) h2 h3 h4 h5
  | ofMix h1 h2 h3 h4 => exact .ofMix (hx _ _ h1) h2 h3 h4

/-- what a stored transaction passed when it was accepted -/
theorem stored {E : Env} {m : MemStore} (hm : Ledger E m) {t : SignedTx} (ht : InStore m.toStore t) :
    ∃ m0, Ledger E m0 ∧ Extends m0 m ∧ t.id.txType = t.transactionType ∧ t.validate E m0.toStore = .ok () ∧ t.validateInner E m0.toStore = .ok () := by
  obtain ⟨m0, h0, hf, hv, hs⟩ := hm.accepted ht
  obtain ⟨h1, _, h3⟩ := SignedTx.validate_ok.1 hv
  exact ⟨m0, h0, (Extends.set_fresh hf).trans hs.extends, h1, hv, h3⟩

theorem election_ext {m m' : MemStore} (hx : Extends m m') {id : Identifier} {e e' : ElectionTx} (h : ElectionAt m.toStore id e) (h' : ElectionAt m'.toStore id e') : e = e' := by
  obtain ⟨s, h⟩ := h
  obtain ⟨s', h'⟩ := h'
  have h1 := hx _ _ h
  have h2 : m'.getTransaction id = _ := h'
  rw [h1] at h2
  cases h2
  rfl

theorem trustee_mem {e : ElectionTx} {i : UInt8} {k : PublicKey} (h : IsTrustee e i k) : i ∈ e.trustees.map (·.index) := by
  obtain ⟨tr, htr, rfl, _⟩ := h
  exact List.mem_map.2 ⟨tr, htr, rfl⟩

theorem properly_eq {S : Store} {t u : SignedTx} (ht : InStore S t) (hu : InStore S u) (hty : t.id.txType = t.transactionType) (hty' : u.id.txType = u.transactionType)
    (pt : ProperlyFiled t) (pu : ProperlyFiled u) (he : electionOf t = electionOf u) (hk : t.transactionType = u.transactionType) {info : List UInt8}
    (h1 : setupInfo t = some info) (h2 : setupInfo u = some info) : t = u := by
  refine eq_of_id ht hu (id_ext ?_ ?_ ?_)
  · rw [(pt _ h1).1, (pu _ h2).1, he]
  · rw [hty, hty', hk]
  · rw [(pt _ h1).2, (pu _ h2).2]

theorem kind_eq (t : SignedTx) : t.transactionType = kindOf t := by cases t <;> rfl

variable {E : Env} {m : MemStore} {e : ElectionTx} {l : List SignedTx}

theorem single_le (hm : Ledger E m) (hl : RecordOf m.toStore e.id l) (hp : ∀ t ∈ l, ProperlyFiled t) (ty : TxType) (hty : ty = .encryptionKey ∨ ty = .votingEnd ∨ ty = .election)
    (hk : ∀ t ∈ l, kindOf t = ty) : l.length ≤ 1 := by
  refine length_le (s := [()]) hl.1 (fun _ _ => True) (fun _ _ => ⟨(), by simp, trivial⟩) fun t ht u hu _ _ _ => ?_
  obtain ⟨ht1, ht2⟩ := hl.2 t ht
  obtain ⟨hu1, hu2⟩ := hl.2 u hu
  obtain ⟨_, _, _, h1, _⟩ := stored hm ht1
  obtain ⟨_, _, _, h2, _⟩ := stored hm hu1
  have hkt := hk t ht
  have hku := hk u hu
  rcases hty with rfl | rfl | rfl
  · exact properly_eq ht1 hu1 h1 h2 (hp t ht) (hp u hu) (ht2.trans hu2.symm) (by rw [kind_eq, kind_eq, hkt, hku]) (info := List.replicate 16 0)
      (by cases t <;> first | rfl | cases hkt) (by cases u <;> first | rfl | cases hku)
  · exact properly_eq ht1 hu1 h1 h2 (hp t ht) (hp u hu) (ht2.trans hu2.symm) (by rw [kind_eq, kind_eq, hkt, hku]) (info := List.replicate 16 0)
      (by cases t <;> first | rfl | cases hkt) (by cases u <;> first | rfl | cases hku)
  · refine eq_of_id ht1 hu1 ?_
    cases t <;> cases hkt
    cases u <;> cases hku
    exact ht2.trans hu2.symm

theorem setup_le (hm : Ledger E m) (he : ElectionAt m.toStore e.id e) (hl : RecordOf m.toStore e.id l) (hp : ∀ t ∈ l, ProperlyFiled t) (ty : TxType)
    (hty : ty = .keyGenCommitment ∨ ty = .keyGenShare ∨ ty = .keyGenPublicKey) (hk : ∀ t ∈ l, kindOf t = ty) : l.length ≤ e.trustees.length := by
  rw [← List.length_map (f := fun tr : Trustee => tr.index) (as := e.trustees)]
  refine length_le hl.1 (fun t i => setupInfo t = some (i :: List.replicate 15 0)) (fun t ht => ?_) fun t ht u hu i h1 h2 => ?_
  · obtain ⟨ht1, ht2⟩ := hl.2 t ht
    obtain ⟨m0, _, hx, _, _, hv⟩ := stored hm ht1
    have hkt := hk t ht
    cases t with
    | keyGenCommitment c =>
      obtain ⟨e', he', htr⟩ := KeyGenCommitmentTx.validateTx_ok.1 hv
      have : e' = e := election_ext hx he' (by rw [show c.tx.election = e.id from ht2]; exact he)
      exact ⟨_, this ▸ trustee_mem htr, rfl⟩
    | keyGenShare c =>
      obtain ⟨e', he', htr, _⟩ := KeyGenShareTx.validateTx_ok.1 hv
      have : e' = e := election_ext hx he' (by rw [show c.tx.election = e.id from ht2]; exact he)
      exact ⟨_, this ▸ trustee_mem htr, rfl⟩
    | keyGenPublicKey c =>
      obtain ⟨e', he', htr⟩ := KeyGenPublicKeyTx.validateTx_ok.1 hv
      have : e' = e := election_ext hx he' (by rw [show c.tx.election = e.id from ht2]; exact he)
      exact ⟨_, this ▸ trustee_mem htr, rfl⟩
    | _ => rcases hty with rfl | rfl | rfl <;> cases hkt
  · obtain ⟨ht1, ht2⟩ := hl.2 t ht
    obtain ⟨hu1, hu2⟩ := hl.2 u hu
    obtain ⟨_, _, _, h3, _⟩ := stored hm ht1
    obtain ⟨_, _, _, h4, _⟩ := stored hm hu1
    exact properly_eq ht1 hu1 h3 h4 (hp t ht) (hp u hu) (ht2.trans hu2.symm) (by rw [kind_eq, kind_eq, hk t ht, hk u hu]) h1 h2

/-! ### Items -/

/-- the items of an election without mixnet that can be decrypted: votes and contests on them -/
def voteItems (votes : List (Signed VoteTx)) : List (Identifier × UInt16 × UInt32) :=
  votes.flatMap fun v => v.tx.encryptedVotes.map fun ev => (v.tx.id, 0, ev.contestIndex)

theorem voteItems_length (votes : List (Signed VoteTx)) : (voteItems votes).length = encryptedVotesOn votes := by
  simp [voteItems, encryptedVotesOn, List.length_flatMap]

/-- the items of elections with mixnet: positions in mixes -/
def mixItems (mixes : List (Signed MixTx)) : List (Identifier × UInt16 × UInt32) :=
  mixes.flatMap fun x => (List.range x.tx.mixedCiphertexts.length).map fun n => (x.tx.id, UInt16.ofNat n, x.tx.contestIndex)

theorem mixItems_length (mixes : List (Signed MixTx)) : (mixItems mixes).length = outputsOf mixes := by
  simp [mixItems, outputsOf, List.length_flatMap]

theorem mem_voteItems {votes : List (Signed VoteTx)} (hm : Ledger E m) (hv : ∀ v, InStore m.toStore (.vote v) → v ∈ votes) {up : Identifier} {n : UInt16} {c : UInt32} {cts : List Ciphertext}
    (h : ItemAt m.toStore up n c none cts) : (up, n, c) ∈ voteItems votes := by
  cases h with
  | @ofVote v sig b a _ h1 h2 h3 h4 h5 =>
    have hid : v.id = up := hm.lawful.keyed _ _ h1
    subst h3
    refine List.mem_flatMap.2 ⟨⟨v, sig⟩, hv _ (by rw [InStore, show (SignedTx.vote ⟨v, sig⟩).id = v.id from rfl, hid]; exact h1), List.mem_map.2 ⟨⟨c, cts⟩, ?_, ?_⟩⟩
    · rw [h4]; simp
    · simp only [hid]

theorem mem_mixItems {mixes : List (Signed MixTx)} (hm : Ledger E m) (hv : ∀ x, InStore m.toStore (.mix x) → x ∈ mixes) {up : Identifier} {n : UInt16} {c : UInt32} {cfg : MixConfig} {cts : List Ciphertext}
    (h : ItemAt m.toStore up n c (some cfg) cts) : (up, n, c) ∈ mixItems mixes := by
  cases h with
  | @ofMix x sig _ _ h1 h2 h3 h4 =>
    have hid : x.id = up := hm.lawful.keyed _ _ h1
    refine List.mem_flatMap.2 ⟨⟨x, sig⟩, hv _ (by rw [InStore, show (SignedTx.mix ⟨x, sig⟩).id = x.id from rfl, hid]; exact h1), List.mem_map.2 ⟨n.toNat, ?_, ?_⟩⟩
    · exact List.mem_range.2 (List.getElem?_eq_some_iff.1 h4).1
    · simp [hid, h3]

theorem decryptions_le (hm : Ledger E m) (he : ElectionAt m.toStore e.id e) (hl : RecordOf m.toStore e.id l) (hk : ∀ t ∈ l, kindOf t = .decryption)
    (items : List (Identifier × UInt16 × UInt32)) (hit : ∀ up n c cts, ItemAt m.toStore up n c e.mixConfig cts → (up, n, c) ∈ items) : l.length ≤ items.length := by
  refine length_le hl.1 (fun t x => t.id = DecryptionTx.buildId e.id x.1 x.2.2 x.2.1) (fun t ht => ?_) fun t ht u hu i h1 h2 => eq_of_id (hl.2 t ht).1 (hl.2 u hu).1 (h1.trans h2.symm)
  obtain ⟨ht1, ht2⟩ := hl.2 t ht
  obtain ⟨m0, _, hx, _, _, hv⟩ := stored hm ht1
  have hkt := hk t ht
  cases t with
  | decryption d =>
    obtain ⟨hid, e', he', cts, hc, _⟩ := DecryptionTx.validateTx_ok.1 hv
    have hel : d.tx.electionId = e.id := ht2
    have : e' = e := election_ext hx he' (by rw [hel]; exact he)
    subst this
    exact ⟨_, hit _ _ _ _ (item_mono hx (encryptedVoteFromUpstream_sound hc)), by rw [← hel]; exact hid⟩
  | _ => cases hkt

theorem partials_le (hm : Ledger E m) (he : ElectionAt m.toStore e.id e) (hl : RecordOf m.toStore e.id l) (hk : ∀ t ∈ l, kindOf t = .partialDecryption)
    (items : List (Identifier × UInt16 × UInt32)) (hit : ∀ up n c cts, ItemAt m.toStore up n c e.mixConfig cts → (up, n, c) ∈ items) : l.length ≤ e.trustees.length * items.length := by
  have hlen : (e.trustees.map (·.index) ×ˢ items).length = e.trustees.length * items.length := by simp [List.length_product]
  rw [← hlen]
  refine length_le hl.1 (fun t x => t.id = PartialDecryptionTx.buildId e.id x.2.1 x.2.2.2 x.2.2.1 x.1) (fun t ht => ?_) fun t ht u hu i h1 h2 => eq_of_id (hl.2 t ht).1 (hl.2 u hu).1 (h1.trans h2.symm)
  obtain ⟨ht1, ht2⟩ := hl.2 t ht
  obtain ⟨m0, _, hx, _, _, hv⟩ := stored hm ht1
  have hkt := hk t ht
  cases t with
  | partialDecryption d =>
    obtain ⟨e', he', htr, hid, _, cts, hc, _⟩ := PartialDecryptionTx.validateTx_ok.1 hv
    have hel : d.tx.electionId = e.id := ht2
    have : e' = e := election_ext hx he' (by rw [hel]; exact he)
    subst this
    exact ⟨(d.tx.trusteeIndex, d.tx.upstreamId, d.tx.upstreamIndex, d.tx.contestIndex),
      List.mem_product.2 ⟨trustee_mem htr, hit _ _ _ _ (item_mono hx (encryptedVoteFromUpstream_sound hc))⟩, by rw [← hel]; exact hid⟩
  | _ => cases hkt

theorem length_by_kind (l : List SignedTx) : l.length =
    (l.filter fun t => kindOf t = .election).length + (l.filter fun t => kindOf t = .keyGenCommitment).length + (l.filter fun t => kindOf t = .keyGenShare).length +
    (l.filter fun t => kindOf t = .keyGenPublicKey).length + (l.filter fun t => kindOf t = .encryptionKey).length + (l.filter fun t => kindOf t = .vote).length +
    (l.filter fun t => kindOf t = .votingEnd).length + (l.filter fun t => kindOf t = .mix).length + (l.filter fun t => kindOf t = .partialDecryption).length +
    (l.filter fun t => kindOf t = .decryption).length := by
  induction l with
  | nil => rfl
  | cons t l ih =>
    cases hk : kindOf t <;> simp [hk, ih] <;> omega

theorem record_filter (hl : RecordOf m.toStore e.id l) (p : SignedTx → Bool) : RecordOf m.toStore e.id (l.filter p) :=
  ⟨hl.1.filter _, fun t ht => hl.2 t (List.mem_of_mem_filter ht)⟩

theorem votes_le (hl : RecordOf m.toStore e.id l) (hk : ∀ t ∈ l, kindOf t = .vote) (votes : List (Signed VoteTx)) (hv : ∀ v, InStore m.toStore (.vote v) → v ∈ votes) :
    l.length ≤ (votes.filter fun v => v.tx.election = e.id).length := by
  refine length_le hl.1 (fun t v => t = .vote v) (fun t ht => ?_) fun t _ u _ v h1 h2 => h1.trans h2.symm
  obtain ⟨h1, h2⟩ := hl.2 t ht
  have := hk t ht
  cases t with
  | vote v => exact ⟨v, List.mem_filter.2 ⟨hv v h1, decide_eq_true h2⟩, rfl⟩
  | _ => cases this

theorem mixes_le (hl : RecordOf m.toStore e.id l) (hk : ∀ t ∈ l, kindOf t = .mix) (mixes : List (Signed MixTx)) (hv : ∀ x, InStore m.toStore (.mix x) → x ∈ mixes) :
    l.length ≤ (mixes.filter fun x => x.tx.electionId = e.id).length := by
  refine length_le hl.1 (fun t v => t = .mix v) (fun t ht => ?_) fun t _ u _ v h1 h2 => h1.trans h2.symm
  obtain ⟨h1, h2⟩ := hl.2 t ht
  have := hk t ht
  cases t with
  | mix v => exact ⟨v, List.mem_filter.2 ⟨hv v h1, decide_eq_true h2⟩, rfl⟩
  | _ => cases this

theorem kind_of_mem {l : List SignedTx} {ty : TxType} : ∀ t ∈ l.filter (fun t => kindOf t = ty), kindOf t = ty := fun _ ht => of_decide_eq_true (List.mem_filter.1 ht).2

theorem setup_total (hm : Ledger E m) (he : ElectionAt m.toStore e.id e) (hl : RecordOf m.toStore e.id l) (hp : ∀ t ∈ l, ProperlyFiled t)
    (votes : List (Signed VoteTx)) (hv : ∀ v, InStore m.toStore (.vote v) → v ∈ votes)
    (items : List (Identifier × UInt16 × UInt32)) (hit : ∀ up n c cts, ItemAt m.toStore up n c e.mixConfig cts → (up, n, c) ∈ items) :
    l.length ≤ 3 + 3 * e.trustees.length + (votes.filter fun v => v.tx.election = e.id).length + (l.filter fun t => kindOf t = .mix).length +
      (e.trustees.length + 1) * items.length := by
  have hf := fun p => record_filter hl p
  have hpf : ∀ p : SignedTx → Bool, ∀ t ∈ l.filter p, ProperlyFiled t := fun p t ht => hp t (List.mem_of_mem_filter ht)
  have h1 := single_le hm (hf _) (hpf _) .election (by simp) (kind_of_mem (l := l))
  have h2 := single_le hm (hf _) (hpf _) .encryptionKey (by simp) (kind_of_mem (l := l))
  have h3 := single_le hm (hf _) (hpf _) .votingEnd (by simp) (kind_of_mem (l := l))
  have h4 := setup_le hm he (hf _) (hpf _) .keyGenCommitment (by simp) (kind_of_mem (l := l))
  have h5 := setup_le hm he (hf _) (hpf _) .keyGenShare (by simp) (kind_of_mem (l := l))
  have h6 := setup_le hm he (hf _) (hpf _) .keyGenPublicKey (by simp) (kind_of_mem (l := l))
  have h7 := votes_le (hf _) (kind_of_mem (l := l)) votes hv
  have h8 := partials_le hm he (hf _) (kind_of_mem (l := l)) items hit
  have h9 := decryptions_le hm he (hf _) (kind_of_mem (l := l)) items hit
  have h0 := length_by_kind l
  rw [Nat.add_mul, Nat.one_mul]
  omega

theorem outputs_le (hm : Ledger E m) {x : Signed MixTx} (hx : InStore m.toStore (.mix x)) (votes : List (Signed VoteTx)) (hv : ∀ v, InStore m.toStore (.vote v) → v ∈ votes) :
    x.tx.mixedCiphertexts.length ≤ votes.length := by
  obtain ⟨chain, hc, hlast⟩ := C24_mix_chain E m hm x hx
  have hmem : x ∈ chain := List.mem_of_getLast? hlast
  obtain ⟨f, rest, rfl⟩ := List.exists_cons_of_ne_nil (List.ne_nil_of_mem hmem)
  rw [hc.outputs x hmem, (hc.same x hmem f (by simp)).2.2.2]
  obtain ⟨m0, h0, hext, _, hval, _⟩ := stored hm (hc.stored f (by simp))
  obtain ⟨_, _, h3, h4, _⟩ := C23_first_mix_covers_votes E m0.toStore h0.lawful f.tx f.sig hval (hc.first f rfl)
  refine length_le h4 (fun id v => id = v.tx.id) (fun id hid => ?_) fun a _ b _ v h1 h2 => h1.trans h2.symm
  obtain ⟨v, hg, _, _⟩ := (h3 id).1 hid
  have hk : v.tx.id = id := h0.lawful.keyed _ _ hg
  exact ⟨v, hv v (by rw [InStore, show (SignedTx.vote v).id = v.tx.id from rfl, hk]; exact hext _ _ hg), hk.symm⟩

theorem outputsOf_le (mixes : List (Signed MixTx)) (n : Nat) (h : ∀ x ∈ mixes, x.tx.mixedCiphertexts.length ≤ n) : outputsOf mixes ≤ mixes.length * n := by
  induction mixes with
  | nil => simp [outputsOf]
  | cons x mixes ih =>
    have h1 := ih fun y hy => h y (by simp [hy])
    have h2 := h x (by simp)
    simp only [outputsOf, List.map_cons, List.sum_cons, List.length_cons, Nat.add_mul, Nat.one_mul] at h1 ⊢
    omega

theorem uniqueInfo_same {a b : Identifier} {n n' : UInt16} (h : SameItem a n b n') (c : UInt32) (tr : UInt8) : buildUniqueInfo a c n tr = buildUniqueInfo b c n' tr := by
  cases h with
  | vote h1 h2 h3 =>
    apply Subtype.ext
    simp only [buildUniqueInfo, h1, h2, h3]
  | mix h1 h2 h3 =>
    apply Subtype.ext
    simp only [buildUniqueInfo, h1, h2, h3]

end Size

/-! ## C107 -/

/-- **C107 (partial)** (without mixnet) If the authority and the trustees file their steps under the ids which belong to them: of an election without mixnet there are at most three
transactions, three for each trustee, its votes, and for each encrypted vote on the ledger one for each trustee and one more.  Missing: the ids are not checked for the
steps of key generation, the encryption key and the end of voting, see `C107_ledger_size_false` and `C107_trustees_can_flood`; and that encrypted votes of other elections do not
count, see `C107_own_votes_false`. -/
theorem C107_size_without_mixnet_partial (E : Env) (m : MemStore) (hm : Ledger E m) (e : ElectionTx) (he : ElectionAt m.toStore e.id e) (hmix : e.mixConfig = none)
    (l : List SignedTx) (hl : RecordOf m.toStore e.id l) (hp : ∀ t ∈ l, ProperlyFiled t) (votes : List (Signed VoteTx)) (hv : ∀ v, InStore m.toStore (.vote v) → v ∈ votes) :
    l.length ≤ 3 + 3 * e.trustees.length + (votes.filter fun v => v.tx.election = e.id).length + (e.trustees.length + 1) * encryptedVotesOn votes := by
  have h := Size.setup_total hm he hl hp votes hv (Size.voteItems votes) fun up n c cts hi => Size.mem_voteItems hm hv (by rw [← hmix]; exact hi)
  have h0 : (l.filter fun t => kindOf t = .mix) = [] := by
    rw [List.filter_eq_nil_iff]
    intro t ht hk
    obtain ⟨ht1, ht2⟩ := hl.2 t ht
    obtain ⟨m0, h0, hx, _, _, hv⟩ := Size.stored hm ht1
    have hk := of_decide_eq_true hk
    cases t with
    | mix x =>
      obtain ⟨_, e', he', hc, _⟩ := (MixTx.validateTx_ok h0.lawful).1 hv
      have : e' = e := Size.election_ext hx he' (by rw [show x.tx.electionId = e.id from ht2]; exact he)
      exact hc (this ▸ hmix)
    | _ => cases hk
  rw [Size.voteItems_length, h0, List.length_nil, Nat.add_zero] at h
  exact h

/-- **C107 (partial)** (with mixnet) Under the same condition: of an election with mixnet there are at most three transactions, three for each trustee, its votes, its mixes, and for
each output of a mix on the ledger one for each trustee and one more; and no mix has more outputs than there are votes on the ledger. -/
theorem C107_size_with_mixnet_partial (E : Env) (m : MemStore) (hm : Ledger E m) (e : ElectionTx) (he : ElectionAt m.toStore e.id e) (hmix : e.mixConfig ≠ none)
    (l : List SignedTx) (hl : RecordOf m.toStore e.id l) (hp : ∀ t ∈ l, ProperlyFiled t) (votes : List (Signed VoteTx)) (hv : ∀ v, InStore m.toStore (.vote v) → v ∈ votes)
    (mixes : List (Signed MixTx)) (hx : ∀ x, InStore m.toStore (.mix x) ↔ x ∈ mixes) :
    l.length ≤ 3 + 3 * e.trustees.length + (votes.filter fun v => v.tx.election = e.id).length + (mixes.filter fun x => x.tx.electionId = e.id).length +
      (e.trustees.length + 1) * outputsOf mixes ∧ outputsOf mixes ≤ mixes.length * votes.length := by
  obtain ⟨cfg, hcfg⟩ := Option.ne_none_iff_exists'.1 hmix
  have h := Size.setup_total hm he hl hp votes hv (Size.mixItems mixes) fun up n c cts hi => Size.mem_mixItems hm (fun x => (hx x).1) (by rw [← hcfg]; exact hi)
  have h2 := Size.mixes_le (Size.record_filter hl _) (Size.kind_of_mem (l := l)) mixes fun x => (hx x).1
  rw [Size.mixItems_length] at h
  exact ⟨by omega, Size.outputsOf_le _ _ fun x h => Size.outputs_le hm ((hx x).2 h) votes hv⟩

/-- **C107** (mixes) Of an election there are at most as many mixes for a contest and a batch as it has trustees. -/
theorem C107_mixes_within_trustees (E : Env) (m : MemStore) (hm : Ledger E m) (e : ElectionTx) (he : ElectionAt m.toStore e.id e) (contest batch : UInt32) (l : List (Signed MixTx))
    (hn : l.Nodup) (hl : ∀ x ∈ l, InStore m.toStore (.mix x) ∧ x.tx.electionId = e.id ∧ x.tx.contestIndex = contest ∧ x.tx.batch = batch) : l.length ≤ e.trustees.length := by
  rw [← List.length_map (f := fun tr : Trustee => tr.index) (as := e.trustees)]
  have key : ∀ x ∈ l, x.tx.trusteeIndex ∈ e.trustees.map (·.index) ∧ x.tx.id = MixTx.buildId e.id contest batch (x.tx.trusteeIndex - 1) x.tx.trusteeIndex := by
    intro x hx
    obtain ⟨h1, h2, h3, h4⟩ := hl x hx
    obtain ⟨m0, h0, hext, _, _, hv⟩ := Size.stored hm h1
    obtain ⟨hid, e', he', _, htr, _, hix, _⟩ := (MixTx.validateTx_ok h0.lawful).1 hv
    have : e' = e := Size.election_ext hext he' (by rw [h2]; exact he)
    rw [hix, h2, h3, h4] at hid
    exact ⟨this ▸ Size.trustee_mem htr, hid⟩
  refine Size.length_le hn (fun x i => x.tx.trusteeIndex = i) (fun x hx => ⟨_, (key x hx).1, rfl⟩) fun x hx y hy i h1 h2 => ?_
  have h3 := Size.eq_of_id (hl x hx).1 (hl y hy).1 (by
    show x.tx.id = y.tx.id
    rw [(key x hx).2, (key y hy).2, h1, h2])
  cases h3
  rfl

/-- **C107** (decryptions) For each decryption of an election that decrypts anything there are shares of as many trustees as the threshold says, each counted for one decryption only:
the decryptions, times the threshold, are no more than the shares on the ledger. -/
theorem C107_decryptions_within_shares (E : Env) (hq : NeedsQuorum E) (m : MemStore) (hm : Ledger E m) (e : ElectionTx) (he : ElectionAt m.toStore e.id e)
    (ds : List (Signed DecryptionTx)) (hn : ds.Nodup) (hd : ∀ d ∈ ds, InStore m.toStore (.decryption d) ∧ d.tx.electionId = e.id ∧ d.tx.decryptedVote ≠ [])
    (ps : List (Signed PartialDecryptionTx)) (hp : ∀ p, InStore m.toStore (.partialDecryption p) → p.tx.electionId = e.id → p ∈ ps) :
    ds.length * e.trusteesThreshold.toNat ≤ ps.length := by
  classical
  have key : ∀ d ∈ ds, ∃ is : List UInt8, is.Nodup ∧ e.trusteesThreshold.toNat ≤ is.length ∧ ∀ i ∈ is, ∃ p ∈ ps, PartialFor m.toStore d.tx i p := by
    intro d hmem
    obtain ⟨h1, h2, h3⟩ := hd d hmem
    obtain ⟨m0, h0, hext, _, hv, _⟩ := Size.stored hm h1
    obtain ⟨e', he', ⟨is, hnd, hk, hall⟩, _⟩ := C31_distinct_quorum_partial E hq m0 h0 d.tx d.sig hv h3
    have : e' = e := Size.election_ext hext he' (by rw [h2]; exact he)
    subst this
    refine ⟨is, hnd, hk, fun i hi => ?_⟩
    obtain ⟨_, _, p, hpf⟩ := hall i hi
    have hst : InStore m.toStore (.partialDecryption p) := hext _ _ hpf.stored
    refine ⟨p, hp p hst ?_, ⟨hst, hpf.election, hpf.contest, hpf.trustee, hpf.item⟩⟩
    obtain ⟨m1, h1', hx1, _, _, hv1⟩ := Size.stored h0 hpf.stored
    obtain ⟨e1, he1, _⟩ := PartialDecryptionTx.validateTx_ok.1 hv1
    obtain ⟨sg, hg⟩ := he1
    have hid := hm.lawful.keyed _ _ (hext _ _ (hx1 _ _ hg))
    obtain ⟨_, _, _, _, _, hve⟩ := Size.stored hm (t := .election ⟨e1, sg⟩) (by rw [InStore, hid]; exact hext _ _ (hx1 _ _ hg))
    obtain ⟨sg', hg'⟩ := he
    obtain ⟨_, _, _, _, _, hve'⟩ := Size.stored hm (t := .election ⟨e', sg'⟩) hg'
    have w1 := (ElectionTx.validateTx_ok.1 hve).1
    have w2 := (ElectionTx.validateTx_ok.1 hve').1
    have hid' : e1.id = p.tx.electionId := hid
    refine Size.id_ext (by rw [hpf.election, h2]) ?_ ?_
    · rw [← hid', w1, w2]
    · rw [← hid', w1, w2]
  let is : Signed DecryptionTx → List UInt8 := fun d => if h : d ∈ ds then (key d h).choose else []
  have his : ∀ d ∈ ds, (is d).Nodup ∧ e.trusteesThreshold.toNat ≤ (is d).length ∧ ∀ i ∈ is d, ∃ p ∈ ps, PartialFor m.toStore d.tx i p := by
    intro d h
    simp only [is, dif_pos h]
    exact (key d h).choose_spec
  let L : List (Signed DecryptionTx × UInt8) := ds.flatMap fun d => (is d).map fun i => (d, i)
  have hL : ∀ x ∈ L, x.1 ∈ ds ∧ x.2 ∈ is x.1 := by
    intro x hx
    obtain ⟨d, hd, hx⟩ := List.mem_flatMap.1 hx
    obtain ⟨i, hi, rfl⟩ := List.mem_map.1 hx
    exact ⟨hd, hi⟩
  have hLn : L.Nodup := by
    refine List.nodup_flatMap.2 ⟨fun d hd => (List.nodup_map_iff_inj_on (his d hd).1).2 fun a _ b _ h => (Prod.mk.inj h).2, ?_⟩
    refine hn.imp fun {a b} hab => ?_
    intro x hx hy
    obtain ⟨i, _, rfl⟩ := List.mem_map.1 hx
    obtain ⟨j, _, h⟩ := List.mem_map.1 hy
    exact hab (Prod.mk.inj h).1.symm
  have hlen : ds.length * e.trusteesThreshold.toNat ≤ L.length := by
    have hh : ∀ l : List (Signed DecryptionTx), (∀ d ∈ l, d ∈ ds) → l.length * e.trusteesThreshold.toNat ≤ (l.flatMap fun d => (is d).map fun i => (d, i)).length := by
      intro l hl
      induction l with
      | nil => simp
      | cons d l ih =>
        have h1 := ih fun x hx => hl x (by simp [hx])
        have h2 := (his d (hl d (by simp))).2.1
        simp only [List.length_cons, Nat.add_mul, Nat.one_mul, List.flatMap_cons, List.length_append, List.length_map]
        omega
    exact hh ds fun _ h => h
  refine hlen.trans (Size.length_le hLn (fun x p => PartialFor m.toStore x.1.tx x.2 p) (fun x hx => (his x.1 (hL x hx).1).2.2 x.2 (hL x hx).2) ?_)
  rintro ⟨d, i⟩ hx ⟨d', i'⟩ hy p h1 h2
  have hi : i = i' := h1.trustee.symm.trans h2.trustee
  obtain ⟨hd1, hd2, _⟩ := hd d (hL _ hx).1
  obtain ⟨hd1', hd2', _⟩ := hd d' (hL _ hy).1
  obtain ⟨_, _, _, _, _, hv⟩ := Size.stored hm hd1
  obtain ⟨_, _, _, _, _, hv'⟩ := Size.stored hm hd1'
  have hid := (DecryptionTx.validateTx_ok.1 hv).1
  have hid' := (DecryptionTx.validateTx_ok.1 hv').1
  have hdd : SignedTx.decryption d = .decryption d' := by
    refine Size.eq_of_id hd1 hd1' ?_
    show d.tx.id = d'.tx.id
    rw [hid, hid', hd2, hd2']
    have hc : d.tx.contestIndex = d'.tx.contestIndex := h1.contest.symm.trans h2.contest
    simp only [DecryptionTx.buildId]
    rw [← Size.uniqueInfo_same h1.item, ← Size.uniqueInfo_same h2.item, hc]
  cases hdd
  rw [hi]

/-! ### Sample ledgers -/

namespace Size

theorem record_ofList {L l : List SignedTx} {e : Identifier} (hn : (L.map SignedTx.id).Nodup) (hl : (l.map SignedTx.id).Nodup) (h : ∀ t ∈ l, t ∈ L) (he : (l.all fun t => electionOf t = e) = true) :
    RecordOf (MemStore.ofList L).toStore e l :=
  ⟨List.Nodup.of_map _ hl, fun t ht => ⟨(Server.Network.stored_iff_mem hn _).2 (h t ht), of_decide_eq_true (List.all_eq_true.1 he t ht)⟩⟩

/-- whether the id is the one which belongs to the step -/
def properly (t : SignedTx) : Bool :=
  match setupInfo t with
  | some info => decide (t.id.electionId = (electionOf t).electionId ∧ t.id.uniqueInfo.val = info)
  | none => true

theorem properly_iff {t : SignedTx} (h : properly t = true) : ProperlyFiled t := by
  intro info hi
  rw [properly, hi] at h
  exact of_decide_eq_true h

/-- the votes in a list -/
def votesOf (L : List SignedTx) : List (Signed VoteTx) := L.filterMap fun | .vote v => some v | _ => none
/-- the mixes in a list -/
def mixesOf (L : List SignedTx) : List (Signed MixTx) := L.filterMap fun | .mix v => some v | _ => none

theorem mem_votesOf {L : List SignedTx} {v : Signed VoteTx} : v ∈ votesOf L ↔ SignedTx.vote v ∈ L := by
  rw [votesOf, List.mem_filterMap]
  constructor
  · rintro ⟨t, ht, h⟩
    cases t <;> simp only [Option.some.injEq, reduceCtorEq] at h
    subst h
    exact ht
  · exact fun h => ⟨_, h, rfl⟩

theorem mem_mixesOf {L : List SignedTx} {v : Signed MixTx} : v ∈ mixesOf L ↔ SignedTx.mix v ∈ L := by
  rw [mixesOf, List.mem_filterMap]
  constructor
  · rintro ⟨t, ht, h⟩
    cases t <;> simp only [Option.some.injEq, reduceCtorEq] at h
    subst h
    exact ht
  · exact fun h => ⟨_, h, rfl⟩

theorem votes_ofList {L : List SignedTx} (hn : (L.map SignedTx.id).Nodup) : ∀ v, InStore (MemStore.ofList L).toStore (.vote v) → v ∈ votesOf L :=
  fun _ hv => mem_votesOf.2 ((Server.Network.stored_iff_mem hn _).1 hv)

theorem mixes_ofList {L : List SignedTx} (hn : (L.map SignedTx.id).Nodup) : ∀ v, InStore (MemStore.ofList L).toStore (.mix v) ↔ v ∈ mixesOf L :=
  fun _ => (Server.Network.stored_iff_mem hn _).trans mem_mixesOf.symm

/-- a commitment of the first trustee of the sample election, filed under an id with last byte `b` -/
def commitment (b : UInt8) : SignedTx :=
  .keyGenCommitment ⟨⟨⟨Toy.eid.electionId, .keyGenCommitment, ⟨List.replicate 15 9 ++ [b], rfl⟩⟩, Toy.eid, 1, Toy.key 11, Toy.key 0, ⟨[]⟩⟩, Toy.sig 11⟩

/-- the sample election with ten commitments of one trustee -/
def flooded : List SignedTx := Toy.electionTx none :: [(0 : UInt8), 1, 2, 3, 4, 5, 6, 7, 8, 9].map commitment

/-- an election that is over without votes, and what its trustees then do with a vote of another election -/
def foreign : List SignedTx := Toy.setup none ++ [Toy.endTx] ++ Toy.strangersVotes ++ Toy.strangersCounted

/-- a mix of nothing for contest `c` of the sample election -/
def emptyMix (c : UInt32) : SignedTx := .mix ⟨MixTx.new Toy.eid none (Toy.trustee 1 11) 0 c 0 [] [] ⟨[]⟩, Toy.sig 11⟩

/-- the sample election with mixes for five contests -/
def mixed : List SignedTx := Toy.setup ++ [(0 : UInt32), 1, 2, 3, 4].map emptyMix

end Size

/-- The sample election without mixnet meets the conditions: 17 transactions, two trustees, two votes with one contest each. -/
example : Ledger Toy.env (MemStore.ofList Toy.plainComplete) ∧ ElectionAt (MemStore.ofList Toy.plainComplete).toStore (Toy.election none).id (Toy.election none) ∧
    (Toy.election none).mixConfig = none ∧ RecordOf (MemStore.ofList Toy.plainComplete).toStore (Toy.election none).id Toy.plainComplete ∧ (∀ t ∈ Toy.plainComplete, ProperlyFiled t) ∧
    (∀ v, InStore (MemStore.ofList Toy.plainComplete).toStore (.vote v) → v ∈ Size.votesOf Toy.plainComplete) ∧ Toy.plainComplete.length = 17 ∧
    3 + 3 * (Toy.election none).trustees.length + ((Size.votesOf Toy.plainComplete).filter fun v => v.tx.election = (Toy.election none).id).length +
      ((Toy.election none).trustees.length + 1) * encryptedVotesOn (Size.votesOf Toy.plainComplete) = 17 :=
  ⟨ledger_of_run (by decide +kernel), ⟨Toy.sig 1, by rfl⟩, rfl, Size.record_ofList (by decide +kernel) (by decide +kernel) (fun _ h => h) (by decide +kernel),
    fun t ht => Size.properly_iff (List.all_eq_true.1 (show Toy.plainComplete.all Size.properly = true by decide +kernel) t ht), Size.votes_ofList (by decide +kernel), by decide +kernel, by decide +kernel⟩

/-- The sample election with mixnet meets the conditions. -/
example : Ledger Toy.env (MemStore.ofList Toy.complete) ∧ ElectionAt (MemStore.ofList Toy.complete).toStore Toy.election.id Toy.election ∧
    Toy.election.mixConfig ≠ none ∧ RecordOf (MemStore.ofList Toy.complete).toStore Toy.election.id Toy.complete ∧ (∀ t ∈ Toy.complete, ProperlyFiled t) ∧
    (∀ v, InStore (MemStore.ofList Toy.complete).toStore (.vote v) → v ∈ Size.votesOf Toy.complete) ∧
    (∀ v, InStore (MemStore.ofList Toy.complete).toStore (.mix v) ↔ v ∈ Size.mixesOf Toy.complete) ∧ (Size.mixesOf Toy.complete).length = 2 ∧ outputsOf (Size.mixesOf Toy.complete) = 4 :=
  ⟨Toy.complete_ledger, ⟨Toy.sig 1, by rfl⟩, by decide, Size.record_ofList (by decide +kernel) (by decide +kernel) (fun _ h => h) (by decide +kernel),
    fun t ht => Size.properly_iff (List.all_eq_true.1 (show Toy.complete.all Size.properly = true by decide +kernel) t ht), Size.votes_ofList (by decide +kernel),
    Size.mixes_ofList (by decide +kernel), by decide +kernel, by decide +kernel⟩

/-- In it the bounds on mixes and decryptions are reached: two mixes by two trustees; two decryptions, threshold two, four shares. -/
example : NeedsQuorum Toy.env ∧ ((Size.mixesOf Toy.complete).filter fun x => x.tx.contestIndex = 0 ∧ x.tx.batch = 0).length = Toy.election.trustees.length ∧
    (Toy.complete.filter fun t => kindOf t = .decryption).length * Toy.election.trusteesThreshold.toNat = (Toy.complete.filter fun t => kindOf t = .partialDecryption).length ∧
    (Toy.complete.filter fun t => kindOf t = .decryption).length = 2 :=
  ⟨toy_needsQuorum _, by decide +kernel, by decide +kernel, by decide +kernel⟩

/-- **C107 (false)** (ids that are not checked) Nothing keeps a trustee to one commitment: filed under ids that do not belong to it, more transactions are accepted than the bound allows. -/
theorem C107_ledger_size_false : ¬ ∀ (E : Env) (m : MemStore), Ledger E m → ∀ e : ElectionTx, ElectionAt m.toStore e.id e → e.mixConfig = none →
    ∀ l : List SignedTx, RecordOf m.toStore e.id l → ∀ votes : List (Signed VoteTx), (∀ v, InStore m.toStore (.vote v) → v ∈ votes) →
    l.length ≤ 3 + 3 * e.trustees.length + (votes.filter fun v => v.tx.election = e.id).length + (e.trustees.length + 1) * encryptedVotesOn votes := by
  intro h
  have := h Toy.env (MemStore.ofList Size.flooded) (ledger_of_run (by decide +kernel)) (Toy.election none) ⟨Toy.sig 1, by rfl⟩ rfl Size.flooded
    (Size.record_ofList (by decide +kernel) (by decide +kernel) (fun _ h => h) (by decide +kernel)) (Size.votesOf Size.flooded) (Size.votes_ofList (by decide +kernel))
  exact absurd this (by decide +kernel)

/-- **C107 (false)** (votes of other elections) Even if everything is filed under its own id, the votes of an election do not bound its transactions: its trustees may decrypt votes of another. -/
theorem C107_own_votes_false : ¬ ∀ (E : Env) (m : MemStore), Ledger E m → ∀ e : ElectionTx, ElectionAt m.toStore e.id e → e.mixConfig = none →
    ∀ l : List SignedTx, RecordOf m.toStore e.id l → (∀ t ∈ l, ProperlyFiled t) → ∀ votes : List (Signed VoteTx), (∀ v, InStore m.toStore (.vote v) → v.tx.election = e.id → v ∈ votes) →
    l.length ≤ 3 + 3 * e.trustees.length + votes.length + (e.trustees.length + 1) * encryptedVotesOn votes := by
  intro h
  have hn : (Size.foreign.map SignedTx.id).Nodup := by decide +kernel
  have hall : ((Size.votesOf Size.foreign).all fun v => v.tx.election ≠ Toy.eid) = true := by decide +kernel
  have hp : (Toy.setup none ++ [Toy.endTx] ++ Toy.strangersCounted).all Size.properly = true := by decide +kernel
  have := h Toy.env (MemStore.ofList Size.foreign) (ledger_of_run (by decide +kernel)) (Toy.election none) ⟨Toy.sig 1, by rfl⟩ rfl (Toy.setup none ++ [Toy.endTx] ++ Toy.strangersCounted)
    (Size.record_ofList hn (by decide +kernel) (fun t ht => by
      simp only [Size.foreign, List.mem_append] at ht ⊢
      rcases ht with (h | h) | h <;> simp [h]) (by decide +kernel))
    (fun t ht => Size.properly_iff (List.all_eq_true.1 hp t ht)) [] (fun v hv he => absurd he (of_decide_eq_true (List.all_eq_true.1 hall v (Size.votes_ofList hn v hv))))
  exact absurd this (by decide +kernel)

/-- **C107 (false)** (mixes) The contests on the ballots do not bound the number of mixes: mixes for contests that no ballot has are accepted. -/
theorem C107_mixes_of_contests_false : ¬ ∀ (E : Env) (m : MemStore), Ledger E m → ∀ e : ElectionTx, ElectionAt m.toStore e.id e → ∀ l : List (Signed MixTx), l.Nodup →
    (∀ x ∈ l, InStore m.toStore (.mix x) ∧ x.tx.electionId = e.id ∧ x.tx.batch = 0) → l.length ≤ e.trustees.length * (e.ballots.map fun b => b.contests.length).sum := by
  intro h
  have hn : (Size.mixed.map SignedTx.id).Nodup := by decide +kernel
  have hall : ((Size.mixesOf Size.mixed).all fun x => decide (x.tx.electionId = Toy.eid ∧ x.tx.batch = 0)) = true := by decide +kernel
  have := h Toy.env (MemStore.ofList Size.mixed) (ledger_of_run (by decide +kernel)) Toy.election ⟨Toy.sig 1, by rfl⟩ (Size.mixesOf Size.mixed)
    (List.Nodup.of_map (fun x => x.tx.id) (by decide +kernel)) (fun x hx => ⟨(Size.mixes_ofList hn x).2 hx, of_decide_eq_true (List.all_eq_true.1 hall x hx)⟩)
  exact absurd this (by decide +kernel)

/-- **C107** (no bound) A trustee can put as many commitments on the ledger as there are ids of that type which are not taken, at any time. -/
theorem C107_trustees_can_flood (E : Env) (hE : SignCorrect E) (m : MemStore) (e : ElectionTx) (he : ElectionAt m.toStore e.id e) (sk : SecretKey) (i : UInt8)
    (htr : IsTrustee e i (E.edPublic sk)) (ids : List Identifier) (hn : ids.Nodup) (hty : ∀ id ∈ ids, id.txType = .keyGenCommitment) (hfree : ∀ id ∈ ids, m.getTransaction id = none) :
    ∃ m', LedgerSteps E m m' ∧ ∀ id ∈ ids, ∃ c : Signed KeyGenCommitmentTx, m'.getTransaction id = some (.keyGenCommitment c) ∧ c.tx.election = e.id ∧ c.tx.trusteeIndex = i := by
  induction ids generalizing m with
  | nil => exact ⟨m, .refl, by simp⟩
  | cons id ids ih =>
    let tx : KeyGenCommitmentTx := ⟨id, e.id, i, E.edPublic sk, BArr.fill 32 0, ⟨[]⟩⟩
    let c : Signed KeyGenCommitmentTx := ⟨tx, E.edSign sk (CBTransaction.asBytes tx)⟩
    have hf : m.getTransaction (SignedTx.keyGenCommitment c).id = none := hfree id (by simp)
    have hok : (SignedTx.keyGenCommitment c).validate E m.toStore = .ok () := by
      refine SignedTx.validate_ok.2 ⟨hty id (by simp), fun k hk => ?_, KeyGenCommitmentTx.validateTx_ok.2 ⟨e, he, htr⟩⟩
      cases hk
      exact hE sk _
    have hget := fun id' => MemStore.get_set m (.keyGenCommitment c) id'
    have hext := Extends.set_fresh hf
    rw [List.nodup_cons] at hn
    obtain ⟨sg, hs⟩ := he
    obtain ⟨m', hsteps, hall⟩ := ih (m.set (.keyGenCommitment c)) ⟨sg, hext _ _ hs⟩ hn.2 (fun x hx => hty x (by simp [hx])) (fun x hx => by
      rw [hget, if_neg]
      · exact hfree x (by simp [hx])
      · intro hc
        have : id = x := hc.symm
        exact hn.1 (this ▸ hx))
    refine ⟨m', ledgerSteps_cons hf hok hsteps, fun x hx => ?_⟩
    rcases List.mem_cons.1 hx with rfl | hx
    · exact ⟨c, hsteps.extends _ _ ((hget x).trans (if_pos rfl)), rfl, rfl⟩
    · exact hall x hx

/-- After the sample election is over, ids of that type are still free, and the conditions are met by its first trustee. -/
example : SignCorrect Toy.env ∧ ElectionAt (MemStore.ofList Toy.complete).toStore Toy.election.id Toy.election ∧ IsTrustee Toy.election 1 (Toy.env.edPublic (Toy.key 11)) ∧
    (([(0 : UInt8), 1, 2].map fun b => (Size.commitment b).id).Nodup ∧ ([(0 : UInt8), 1, 2].map fun b => (Size.commitment b).id).all fun id =>
      decide (id.txType = .keyGenCommitment) && ((MemStore.ofList Toy.complete).getTransaction id).isNone) :=
  ⟨toy_signCorrect _, ⟨Toy.sig 1, by rfl⟩, ⟨Toy.trustee 1 11, by simp [Toy.election], rfl, rfl⟩, by decide +kernel, by decide +kernel⟩

end CB
