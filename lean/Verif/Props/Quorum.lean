import Verif.Spec.Quorum
import Verif.Props.Order
import Verif.Props.Robust
import Verif.Examples.ToyNode
/-!
# C77: what one trustee can do to a quorum of the others
-/

namespace CB
open Spec Server

theorem lastByIndex_eq {α : Type} (key : α → UInt8) (i : UInt8) (l : List α) : lastByIndex key i l = (l.filter fun a => key a == i).getLast? := by
  unfold lastByIndex
  rw [← List.head?_filter, List.filter_reverse, List.head?_reverse]

theorem flatMapM_congr {ε α β : Type} {f g : α → Res ε (List β)} (l : List α) (H : ∀ a ∈ l, f a = g a) : Res.flatMapM f l = Res.flatMapM g l := by
  induction l with
  | nil => rfl
  | cons a l ih => simp only [Res.flatMapM, H a (by simp), ih fun a ha => H a (by simp [ha])]

theorem sharesFor_congr {pks pks' : List KeyGenPublicKeyTx} {ps : List PartialDecryptionTx}
    (h : ∀ p ∈ ps, lastByIndex (·.trusteeIndex) p.trusteeIndex pks = lastByIndex (·.trusteeIndex) p.trusteeIndex pks') (trs : List Trustee) (j : Nat) :
    CB.sharesFor trs pks ps j = CB.sharesFor trs pks' ps j := by
  unfold CB.sharesFor
  refine flatMapM_congr _ fun tr _ => ?_
  cases hl : lastByIndex (·.trusteeIndex) tr.index ps with
  | none => rfl
  | some p =>
    obtain ⟨h1, h2⟩ := lastByIndex_mem hl
    rw [← h2, h p h1]

theorem decryptVoteFrom_congr {E : Env} {k : UInt8} {pks pks' : List KeyGenPublicKeyTx} {ps : List PartialDecryptionTx}
    (h : ∀ p ∈ ps, lastByIndex (·.trusteeIndex) p.trusteeIndex pks = lastByIndex (·.trusteeIndex) p.trusteeIndex pks') (trs : List Trustee) (cts : List Ciphertext) (n : Nat) :
    decryptVoteFrom E k trs pks ps n cts = decryptVoteFrom E k trs pks' ps n cts := by
  induction cts generalizing n with
  | nil => rfl
  | cons c cts ih => simp only [decryptVoteFrom, sharesFor_congr h, ih]

/-- **C77** Whether a decryption is accepted depends on what the trustees it lists have posted, not on the others: if it is acceptable, it remains so whatever is accepted afterwards,
unless a trustee that it lists posts another public key. -/
theorem C77_depends_on_listed_trustees_partial (E : Env) (m m' : MemStore) (hm : Ledger E m) (hm' : Ledger E m') (hext : Extends m m') (d : Signed DecryptionTx)
    (h : (SignedTx.decryption d).validate E m.toStore = .ok ())
    (hnew : ∀ pk : Signed KeyGenPublicKeyTx, InStore m'.toStore (.keyGenPublicKey pk) → m.getTransaction pk.tx.id = none → pk.tx.id.electionId = d.tx.electionId.electionId →
      pk.tx.trusteeIndex ∉ d.tx.trustees) :
    (SignedTx.decryption d).validate E m'.toStore = .ok () := by
  obtain ⟨h1, h2, h3⟩ := SignedTx.validate_ok.1 h
  refine SignedTx.validate_ok.2 ⟨h1, h2, ?_⟩
  obtain ⟨hid, e, he, cts, hcts, pks, hpks, ps, hlen, hps, hth, hdec⟩ := DecryptionTx.validateTx_ok.1 h3
  have hty := itemAt_type (encryptedVoteFromUpstream_sound hcts)
  have hidx : ∀ p ∈ ps, p.tx.trusteeIndex ∈ d.tx.trustees := by
    intro p hp
    obtain ⟨n, hn⟩ := List.mem_iff_getElem?.1 hp
    obtain ⟨hlt, -⟩ := List.getElem?_eq_some_iff.1 hn
    have hn' : d.tx.trustees[n]? = some (d.tx.trustees[n]'(by omega)) := List.getElem?_eq_getElem _
    have := ((partialFor_iff hm.replay hty).1 (hps n _ p hn' hn).2).trustee
    rw [this]
    exact List.getElem_mem _
  obtain ⟨l', hl', hmem', hsort'⟩ := hm'.lawful.getMultiple d.tx.electionId .keyGenPublicKey
  obtain ⟨l, hl, hmem, hsort⟩ := hm.lawful.getMultiple d.tx.electionId .keyGenPublicKey
  rw [hpks] at hl
  cases hl
  have : ∃ pks' : List (Signed KeyGenPublicKeyTx), l' = pks'.map .keyGenPublicKey := by
    have hall : ∀ t ∈ l', ∃ s, t = SignedTx.keyGenPublicKey s := by
      intro t ht
      obtain ⟨g1, _, g3⟩ := (hmem' t).1 ht
      have := hm'.replay.typedStore t g1
      rw [g3] at this
      cases t <;> first | exact ⟨_, rfl⟩ | cases this
    clear hl' hmem' hsort'
    induction l' with
    | nil => exact ⟨[], rfl⟩
    | cons t l' ih =>
      obtain ⟨s, rfl⟩ := hall t (by simp)
      obtain ⟨r, rfl⟩ := ih fun t ht => hall t (by simp [ht])
      exact ⟨s :: r, rfl⟩
  obtain ⟨pks', rfl⟩ := this
  refine DecryptionTx.validateTx_ok.2 ⟨hid, e, electionAt_keeps (show Keeps m.toStore m'.toStore from hext) he, cts, encryptedVoteFromUpstream_extends hext hcts, pks', hl', ps, hlen,
    fun n i p hi hp => ⟨(hps n i p hi hp).1, hext _ _ (hps n i p hi hp).2⟩, hth, ?_⟩
  rw [← hdec]
  unfold decryptVote
  refine decryptVoteFrom_congr (fun p hp => ?_) _ _ _
  obtain ⟨p', hp', rfl⟩ := List.mem_map.1 hp
  have hi := hidx p' hp'
  generalize p'.tx.trusteeIndex = i at hi ⊢
  rw [lastByIndex_eq, lastByIndex_eq]
  congr 1
  have hfil : ∀ xs : List (Signed KeyGenPublicKeyTx), (xs.map (·.tx)).filter (fun a => a.trusteeIndex == i) = (xs.filter fun a => a.tx.trusteeIndex == i).map (·.tx) := by
    intro xs
    rw [List.filter_map]
    rfl
  rw [hfil, hfil]
  congr 1
  have key : (pks'.filter fun a => a.tx.trusteeIndex == i).map SignedTx.keyGenPublicKey = (pks.filter fun a => a.tx.trusteeIndex == i).map SignedTx.keyGenPublicKey := by
    refine MemStore.idLt_ext ?_ ?_ fun t => ?_
    · exact hsort'.sublist (List.Sublist.map _ List.filter_sublist)
    · exact hsort.sublist (List.Sublist.map _ List.filter_sublist)
    · simp only [List.mem_map, List.mem_filter, beq_iff_eq]
      have mem_iff : ∀ (xs : List (Signed KeyGenPublicKeyTx)) (a : Signed KeyGenPublicKeyTx), a ∈ xs ↔ SignedTx.keyGenPublicKey a ∈ xs.map SignedTx.keyGenPublicKey := by
        intro xs a
        simp [List.mem_map]
      constructor
      · rintro ⟨a, ⟨ha, hai⟩, rfl⟩
        refine ⟨a, ⟨?_, hai⟩, rfl⟩
        rw [mem_iff] at ha ⊢
        obtain ⟨g1, g2, g3⟩ := (hmem' _).1 ha
        refine (hmem _).2 ⟨?_, g2, g3⟩
        cases hg : m.getTransaction a.tx.id with
        | none => exact absurd (hai ▸ hi) (hnew a g1 hg g2)
        | some x =>
          have := hext _ _ hg
          rw [show m'.getTransaction a.tx.id = some (.keyGenPublicKey a) from g1] at this
          show m.getTransaction a.tx.id = _
          rw [hg, this]
      · rintro ⟨a, ⟨ha, hai⟩, rfl⟩
        refine ⟨a, ⟨?_, hai⟩, rfl⟩
        rw [mem_iff] at ha ⊢
        obtain ⟨g1, g2, g3⟩ := (hmem _).1 ha
        exact (hmem' _).2 ⟨hext _ _ g1, g2, g3⟩
  exact (List.map_injective_iff.2 (fun a b h => by cases h; rfl)) key

theorem shares_has {S : Store} {t : DecryptionTx} {j : Nat} {trs : List Trustee} {l : List (Nat × PubkeyProof × DecryptShare)} (h : Shares S t j trs l) {tr : Trustee} (htr : tr ∈ trs)
    (hi : tr.index ∈ t.trustees) (hpk : ∃ pk, PubkeyFor S t.electionId tr.index pk) :
    ∃ p pk s, PartialFor S t tr.index p ∧ PubkeyFor S t.electionId tr.index pk ∧ p.tx.partialDecryption[j]? = some s ∧ (tr.index.toNat, pk.tx.publicKeyProof, s) ∈ l := by
  induction h with
  | nil => cases htr
  | @used tr' trs' l' p pk s g1 g2 g3 g4 g5 ih =>
    rcases List.mem_cons.1 htr with rfl | htr
    · exact ⟨_, _, _, g2, g3, g4, by simp⟩
    · obtain ⟨p, pk, s, k1, k2, k3, k4⟩ := ih htr
      exact ⟨p, pk, s, k1, k2, k3, by simp [k4]⟩
  | skipped g1 g2 ih =>
    rcases List.mem_cons.1 htr with rfl | htr
    · rcases g1 with g1 | g1
      · exact absurd hi g1
      · exact absurd hpk (by rintro ⟨pk, hpk⟩; exact g1 pk hpk)
    · exact ih htr

/-- **C77** A trustee who has spoiled an item blocks it: on no later ledger is a decryption of it accepted that lists this trustee. -/
theorem C77_spoiler_blocks_decryptions (E : Env) (hE : StrictShares E) (m m' : MemStore) (hm' : Ledger E m') (hext : Extends m m') (e : ElectionTx)
    (he : ElectionAt m.toStore e.id e) (i : UInt8) (up : Identifier) (n : UInt16) (contest : UInt32) (hsp : Spoiled E m.toStore e i up n contest) (d : DecryptionTx) (sig : Signature)
    (h1 : d.electionId = e.id) (h2 : d.upstreamId = up) (h3 : d.upstreamIndex = n) (h4 : d.contestIndex = contest) (hi : i ∈ d.trustees) :
    (SignedTx.decryption ⟨d, sig⟩).validate E m'.toStore ≠ .ok () := by
  intro h
  obtain ⟨_, e', cts', he', hitem', hall, hth, hlen, hsel⟩ := C30_decryption_is_threshold_decryption_partial E m' hm'.replay d sig h
  obtain ⟨p, pk, cts, j, c, s, hp, p1, p2, p3, p4, p5, hpk, k1, k2, hitem, hc, hs, hbad⟩ := hsp
  obtain rfl : e' = e := by
    obtain ⟨sg, he⟩ := electionAt_keeps (show Keeps m.toStore m'.toStore from hext) he
    obtain ⟨sg', he'⟩ := he'
    rw [h1, he] at he'
    cases he'
    rfl
  subst h2 h3 h4
  obtain rfl := itemAt_unique hitem' (itemAt_extends hext hitem)
  have hty := itemAt_type hitem'
  obtain ⟨sel, hsel'⟩ : ∃ sel, d.decryptedVote[j]? = some sel := by
    obtain ⟨hj, -⟩ := List.getElem?_eq_some_iff.1 hc
    exact ⟨_, List.getElem?_eq_getElem (by omega)⟩
  obtain ⟨shares, raw, hsh, hraw, _⟩ := hsel j c sel hc hsel'
  obtain ⟨⟨tr, htr, rfl⟩, _⟩ := hall i hi
  have hpkid : m'.getTransaction pk.tx.id = some (.keyGenPublicKey pk) := hext _ _ hpk
  have hfor : PubkeyFor m'.toStore d.electionId tr.index pk := by
    refine ⟨hpkid, by rw [k2, h1], k1, fun q _ hq1 hq2 _ => ?_⟩
    rw [k2]
    exact ((Identifier.between_iff _ _ _).2 ⟨by rw [hq1, h1], hq2⟩).2
  obtain ⟨p', pk', s', g1, g2, g3, g4⟩ := shares_has hsh htr hi ⟨pk, hfor⟩
  have hpp : PartialFor m'.toStore d tr.index p := by
    refine ⟨hext _ _ hp, by rw [p1, h1], p5, p2, ?_⟩
    rw [p3, p4]
    rcases hty with ⟨t1, t2⟩ | t1
    · rw [t2]
      exact .vote t1 t1 rfl
    · exact .mix t1 t1 rfl
  have e1 := (partialFor_iff hm'.replay hty).2 g1
  rw [(partialFor_iff hm'.replay hty).2 hpp] at e1
  cases e1
  have hkid : pk'.tx.id.txType = .keyGenPublicKey := hm'.replay.typedStore _ g2.stored
  have e2 : pk.tx.id = pk'.tx.id := idLe_antisymm (g2.last _ hpkid hfor.election (by rw [k2]) k1)
    (hfor.last _ g2.stored g2.election hkid g2.trustee)
  have e3 : m'.getTransaction pk'.tx.id = some (.keyGenPublicKey pk') := g2.stored
  rw [← e2, hpkid] at e3
  cases e3
  rw [hs] at g3
  cases g3
  have := hE _ _ _ _ hraw _ g4
  rw [hbad] at this
  cases this

/-- **C77** And it blocks the nodes: since they decrypt with all partial decryptions there are, none of them ever submits a decryption of the item again, on any later ledger, although the
partial decryptions of any number of other trustees are stored. -/
theorem C77_spoiler_blocks_nodes (N : NodeEnv) (hE : StrictShares N.toEnv) (m m' : MemStore) (hm' : Ledger N.toEnv m') (hext : Extends m m') (e : ElectionTx)
    (he : ElectionAt m.toStore e.id e) (i : UInt8) (up : Identifier) (n : UInt16) (contest : UInt32) (hsp : Spoiled N.toEnv m.toStore e i up n contest)
    (q : Signed PartialDecryptionTx) (hq : InStore m'.toStore (.partialDecryption q)) (h1 : q.tx.electionId = e.id) (h2 : q.tx.upstreamId = up) (h3 : q.tx.upstreamIndex = n)
    (h4 : q.tx.contestIndex = contest) (rng : Rng) (sk : SecretKey) (l : List SignedTx) (h : generateTransactions N rng sk m'.toStore (.partialDecryption q) = .ok l) : l = [] := by
  have he' := electionAt_keeps (show Keeps m.toStore m'.toStore from hext) he
  rcases C46_decryption_accepted N rng sk m' hm' q hq e (by rw [h1]; exact he') l h with rfl | ⟨d, rfl, d1, d2, d3, d4, d5, d6, d7, d8⟩
  · rfl
  · refine absurd d8 (C77_spoiler_blocks_decryptions N.toEnv hE m m' hm' hext e he i up n contest hsp d.tx d.sig (d1.trans h1) (d2.trans h2) (d3.trans h3) (d4.trans h4) ((d6 i).2 ?_))
    obtain ⟨p, pk, cts, j, c, s, hp, p1, p2, p3, p4, p5, hpk, k1, k2, hitem, hc, hs, hbad⟩ := hsp
    refine ⟨p, hext _ _ hp, by rw [p1, d1, h1], by rw [p5, d4, h4], p2, ?_⟩
    rw [p3, p4, d2, d3, h2, h3]
    rcases itemAt_type hitem with ⟨t1, rfl⟩ | t1
    · exact .vote t1 t1 rfl
    · exact .mix t1 t1 rfl

/-! ## A concrete case: three trustees, of whom two suffice -/

namespace Toy

/-- proofs consist of one byte, and shares verify only against such; shares that do not verify are refused -/
def strictNode : NodeEnv := { node with
  shareVerify := fun s proof c => s.raw == c.raw && proof.raw.length == 1
  thresholdDecrypt := fun k c shares => if k ≤ (shares.map (·.1)).eraseDups.length ∧ ∀ x ∈ shares, x.2.2.raw == c.raw && x.2.1.raw.length == 1 then .ok c.raw else .error ⟨0⟩ }

theorem strictNode_strict : StrictShares strictNode.toEnv := by
  intro t c shares raw h x hx
  simp only [strictNode] at h
  split at h
  · rename_i hc
    exact hc.2 x hx
  · cases h

/-- the sample election without mixnet, with a third trustee; two suffice -/
def election3 : ElectionTx := { election none with trustees := [trustee 1 11, trustee 2 12, trustee 3 13] }

/-- the partial decryption of the vote of key 31 by one of the trustees -/
def partial3 (i k : UInt8) : Signed PartialDecryptionTx := ⟨PartialDecryptionTx.new eid (VoteTx.buildId eid (key 31)) 0 i 0 (key k) [⟨(ct "a").raw⟩], sig k⟩

/-- everything up to the partial decryptions of all three trustees -/
def history3 : List SignedTx := [.election ⟨election3, sig 1⟩, pkTx 1 11, pkTx 2 12, pkTx 3 13, encTx, voteTx 31 "a", endTx, .partialDecryption (partial3 1 11),
  .partialDecryption (partial3 2 12), .partialDecryption (partial3 3 13)]

/-- trustee 3 posts a second public key -/
def spoilerKey : Signed KeyGenPublicKeyTx := ⟨⟨⟨eid.electionId, .keyGenPublicKey, BArr.fill 16 255⟩, eid, 3, key 13, ⟨[5]⟩, ⟨[]⟩⟩, sig 13⟩

/-- the decryption that trustees 1 and 2 can make -/
def decryption12 : Signed DecryptionTx := ⟨⟨DecryptionTx.buildId eid (VoteTx.buildId eid (key 31)) 0 0, eid, VoteTx.buildId eid (key 31), 0, 0, [1, 2], [sel "a"]⟩, sig 0⟩

theorem spoiled3_ledger : Ledger strictNode.toEnv (MemStore.ofList (history3 ++ [.keyGenPublicKey spoilerKey])) := ledger_of_run (by decide +kernel)

theorem spoiled3 : Spoiled strictNode.toEnv (MemStore.ofList (history3 ++ [.keyGenPublicKey spoilerKey])).toStore election3 3 (VoteTx.buildId eid (key 31)) 0 0 := by
  refine ⟨partial3 3 13, spoilerKey, [ct "a"], 0, ct "a", ⟨(ct "a").raw⟩, by rfl, rfl, rfl, rfl, rfl, rfl, by rfl, rfl, rfl, ?_, rfl, rfl, by decide +kernel⟩
  exact encryptedVoteFromUpstream_sound (by decide +kernel)

end Toy

/-- The hypotheses are met, and trustees 1 and 2 could still decrypt the vote between them: before and after the third has spoiled it. -/
example : (SignedTx.decryption Toy.decryption12).validate Toy.strictNode.toEnv (MemStore.ofList Toy.history3).toStore = .ok () ∧
    (SignedTx.decryption Toy.decryption12).validate Toy.strictNode.toEnv (MemStore.ofList (Toy.history3 ++ [.keyGenPublicKey Toy.spoilerKey])).toStore = .ok () := by
  decide +kernel

/-- **C77 is false of the nodes**: that two of three trustees suffice does not keep the third from blocking the count.  On this ledger a decryption of the vote by trustees 1 and 2 is
acceptable, but no node submits one. -/
theorem C77_quorum_is_enough_for_nodes_false :
    ¬ ∀ (N : NodeEnv), StrictShares N.toEnv → ∀ (m : MemStore), Ledger N.toEnv m → ∀ (q : Signed PartialDecryptionTx), InStore m.toStore (.partialDecryption q) →
      ∀ e, ElectionAt m.toStore q.tx.electionId e →
      (∃ d : Signed DecryptionTx, d.tx.electionId = q.tx.electionId ∧ d.tx.upstreamId = q.tx.upstreamId ∧ d.tx.upstreamIndex = q.tx.upstreamIndex ∧
        d.tx.contestIndex = q.tx.contestIndex ∧ (SignedTx.decryption d).validate N.toEnv m.toStore = .ok ()) →
      ∀ (rng : Rng) (sk : SecretKey), (∃ tr ∈ e.trustees, tr.publicKey = N.edPublic sk) →
        ∃ l, generateTransactions N rng sk m.toStore (.partialDecryption q) = .ok l ∧ l ≠ [] := by
  intro h
  have he : ElectionAt (MemStore.ofList (Toy.history3 ++ [.keyGenPublicKey Toy.spoilerKey])).toStore Toy.eid Toy.election3 := ⟨Toy.sig 1, by rfl⟩
  have hq : InStore (MemStore.ofList (Toy.history3 ++ [.keyGenPublicKey Toy.spoilerKey])).toStore (.partialDecryption (Toy.partial3 1 11)) := by rfl
  obtain ⟨l, hl, hne⟩ := h Toy.strictNode Toy.strictNode_strict _ Toy.spoiled3_ledger (Toy.partial3 1 11) hq Toy.election3 he
    ⟨Toy.decryption12, rfl, rfl, rfl, rfl, by decide +kernel⟩ Toy.rng (Toy.key 11) ⟨Toy.trustee 1 11, by simp [Toy.election3], rfl⟩
  exact hne (C77_spoiler_blocks_nodes Toy.strictNode Toy.strictNode_strict _ _ Toy.spoiled3_ledger (fun _ _ h => h) Toy.election3 he 3 _ 0 0 Toy.spoiled3
    (Toy.partial3 1 11) hq rfl rfl rfl rfl Toy.rng (Toy.key 11) l hl)

end CB
