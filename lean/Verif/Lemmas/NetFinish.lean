import Verif.Lemmas.NetItems
/-!
# Nodes can always finish the decryption of an election's honest votes
-/

namespace CB
open Spec Server

namespace Setup

theorem reacted_step {N : NodeEnv} {s : Network} (ev : Event) {p : SecretKey × Nat} (h : p ∈ s.reacted) : p ∈ (Network.step N s ev).reacted := by
  cases ev with
  | submit t => exact h
  | deliver i =>
    simp only [Network.step]
    split
    · exact h
    · split <;> exact h
  | react k rng m v =>
    simp only [Network.step]
    split
    · exact h
    · split
      · exact List.mem_cons_of_mem _ h
      · exact h

theorem reacted_steps {N : NodeEnv} (evs : List Event) {s : Network} {p : SecretKey × Nat} (h : p ∈ s.reacted) : p ∈ (evs.foldl (Network.step N) s).reacted := by
  induction evs generalizing s with
  | nil => exact h
  | cons ev evs ih => exact ih (reacted_step ev h)

/-- a reaction leaves the ledger alone -/
theorem react_ledger {N : NodeEnv} {s : Network} (k : SecretKey) (rng : Rng) (m v : Nat) : (Network.step N s (.react k rng m v)).ledger = s.ledger := by
  simp only [Network.step]
  split
  · rfl
  · split <;> rfl

/-- Several reactions to the ledger as it is: those that succeed are recorded. -/
theorem reactions {N : NodeEnv} (rng : Rng) (es : List (SecretKey × Nat)) (s : Network) (n : Nat) (hn : n = s.ledger.length) :
    ((es.map fun p => Event.react p.1 rng p.2 n).foldl (Network.step N) s).ledger = s.ledger ∧
    ∀ p ∈ es, ∀ t, s.ledger[p.2]? = some t → (∃ l, generateTransactions N rng p.1 (at' s s.ledger.length) t = .ok l) →
      p ∈ ((es.map fun p => Event.react p.1 rng p.2 n).foldl (Network.step N) s).reacted := by
  induction es generalizing s with
  | nil => exact ⟨rfl, by simp⟩
  | cons q es ih =>
    have hL := react_ledger (N := N) (s := s) q.1 rng q.2 n
    obtain ⟨h1, h2⟩ := ih (Network.step N s (.react q.1 rng q.2 n)) (by rw [hL]; exact hn)
    refine ⟨h1.trans hL, fun p hp t ht hl => ?_⟩
    rcases List.mem_cons.1 hp with rfl | hp
    · refine reacted_steps (N := N) (es.map fun p => Event.react p.1 rng p.2 n) (s := Network.step N s (.react p.1 rng p.2 n)) ?_
      obtain ⟨l, hl⟩ := hl
      have hx' : (s.ledger.take n)[p.2]? = some t := by rw [hn, List.take_length]; exact ht
      have hl' : generateTransactions N rng p.1 (s.storeAt n).toStore t = .ok l := by rw [hn]; exact hl
      have hst : (Network.step N s (.react p.1 rng p.2 n)).reacted = p :: s.reacted := by simp only [Network.step, hx', hl']
      rw [hst]
      exact List.mem_cons_self ..
    · refine h2 p hp t (by rw [hL]; exact ht) ?_
      unfold at' at *
      rw [hL]
      exact hl

variable {N : NodeEnv} {K : List SecretKey} {e : ElectionTx} {sk : UInt8 → SecretKey} {run : KeyGenRun N} {key : ElGamalKey} {fits : Bytes → Prop}

theorem run_more (N : NodeEnv) (evs more : List Event) : Network.run N (evs ++ more) = more.foldl (Network.step N) (Network.run N evs) := by
  simp [Network.run, List.foldl_append]

theorem run_prefix (N : NodeEnv) (evs more : List Event) : (Network.run N evs).ledger <+: (Network.run N (evs ++ more)).ledger := by
  rw [run_more]
  exact steps_prefix N more _

theorem stored_more {N : NodeEnv} {evs : List Event} (more : List Event) {e : ElectionTx} (h : ElectionAt (Network.run N evs).store.toStore e.id e) :
    ElectionAt (Network.run N (evs ++ more)).store.toStore e.id e :=
  h.imp fun _ hg => Network.extends_prefix (Network.sound_run N (evs ++ more)).nodup (run_prefix N evs more) _ _ hg

theorem prefix_get {α : Type} {l l' : List α} (h : l <+: l') {i : Nat} {t : α} (ht : l[i]? = some t) : l'[i]? = some t := by
  obtain ⟨r, rfl⟩ := h
  rw [List.getElem?_append_left (List.getElem?_eq_some_iff.1 ht).1]
  exact ht

/-- Votes come before the end of voting. -/
theorem Held.vote_before_end {s : Network} (h : Held N K e sk run key s) {m : Nat} {vs : Signed VotingEndTx} (hm : s.ledger[m]? = some (.votingEnd vs))
    (hvid : vs.tx.id = singleId e.id .votingEnd) {v : Signed VoteTx} (hv : .vote v ∈ s.ledger) (hf : v.tx.id.electionId = e.id.electionId) : .vote v ∈ s.ledger.take m := by
  obtain ⟨i, hi⟩ := List.getElem?_of_mem hv
  obtain ⟨-, -, -, hopen, -⟩ := h.vote_at hi hf
  refine take_mem hi ?_
  apply Nat.lt_of_not_le
  intro hle
  have hne : i ≠ m := by
    rintro rfl
    rw [hm] at hi
    cases hi
  exact hopen ⟨.votingEnd vs, by rw [← hvid]; exact h.in_take.2 (take_mem hm (by omega))⟩

theorem complete_votes (hN : Nodes N K e sk) (hR : Run N e sk run key) (hW : Works N e run (Fresh N fits key)) (hp : e.mixConfig = none) (hcon : e.contests ≠ []) (evs : List Event)
    (hq : ∀ ev ∈ evs, Fair N K e ev) (he : ElectionAt (Network.run N evs).store.toStore e.id e) {vs : Signed VotingEndTx} (hend : .votingEnd vs ∈ (Network.run N evs).ledger)
    (hvs : vs.tx.election = e.id) (hvid : vs.tx.id = singleId e.id .votingEnd) {Q : List UInt8} (hQ : Q.Nodup) (hQm : ∀ i ∈ Q, sk i ∈ K ∧ ∃ tr ∈ e.trustees, tr.index = i)
    (hlen : e.trusteesThreshold.toNat ≤ Q.length) :
    ∃ more : List Event, (∀ ev ∈ more, NodesOnly K ev) ∧
      ∀ (v : Signed VoteTx) (c : UInt32) (vrng : Rng) (sel : List Selection), Item N e key fits (Network.run N (evs ++ more)) v c vrng sel →
        DecryptionTx.buildId e.id v.tx.id c 0 ∈ (Network.run N (evs ++ more)).ledger.map SignedTx.id := by
  have hH := held_run hN hR evs hq he
  by_cases hany : ∃ w : Signed VoteTx, .vote w ∈ (Network.run N evs).ledger ∧ w.tx.id.electionId = e.id.electionId
  case neg =>
    refine ⟨[], by simp, fun v c vrng sel hI => ?_⟩
    rw [List.append_nil] at hI
    exact absurd ⟨v, hI.stored, hI.filed⟩ hany
  obtain ⟨w, hw, hwf⟩ := hany
  have rng : Rng := ⟨fun _ => BArr.fill 12 0, fun _ => []⟩
  obtain ⟨m, hm⟩ := List.getElem?_of_mem hend
  obtain ⟨k', hk', hkey⟩ : ∃ k' ∈ K, TrusteeKey e (N.edPublic k') := by
    have : 0 < Q.length := by have := hN.trustees.threshold; omega
    obtain ⟨i, hi⟩ := List.exists_mem_of_length_pos this
    obtain ⟨h1, tr, htr, rfl⟩ := hQm i hi
    exact ⟨_, h1, tr, htr, (hN.held tr htr).symm⟩
  -- the quorum reacts to the end of voting
  let evs1 : List Event := (Q.map fun i => (sk i, m)).map fun p => .react p.1 rng p.2 (Network.run N evs).ledger.length
  have hn1 : ∀ ev ∈ evs1, NodesOnly K ev := by
    intro ev hev
    obtain ⟨p, hp, rfl⟩ := List.mem_map.1 hev
    obtain ⟨i, hi, rfl⟩ := List.mem_map.1 hp
    exact (hQm i hi).1
  obtain ⟨-, hr1⟩ := reactions (N := N) rng (Q.map fun i => (sk i, m)) (Network.run N evs) _ rfl
  rw [show ((Q.map fun i => (sk i, m)).map fun p => Event.react p.1 rng p.2 (Network.run N evs).ledger.length).foldl (Network.step N) (Network.run N evs) =
    Network.run N (evs ++ evs1) from (run_more N evs evs1).symm] at hr1
  -- everything is delivered
  obtain ⟨n1, hf1⟩ := Network.flush N (Network.run N (evs ++ evs1))
  rw [← run_more] at hf1
  generalize hE2 : evs ++ evs1 ++ List.replicate n1 (Event.deliver 0) = E2 at hf1
  have hq2 : ∀ ev ∈ E2, Fair N K e ev := by
    subst hE2
    intro ev hev
    rcases List.mem_append.1 hev with hev | hev
    · rcases List.mem_append.1 hev with hev | hev
      · exact hq ev hev
      · exact fair_of_nodes (hn1 ev hev)
    · rw [(List.mem_replicate.1 hev).2]
      trivial
  have hreact : ∀ i ∈ Q, (sk i, m) ∈ (Network.run N E2).reacted := by
    intro i hi
    subst hE2
    rw [run_more]
    refine reacted_steps (N := N) _ (hr1 (sk i, m) (List.mem_map.2 ⟨i, hi, rfl⟩) _ hm ?_)
    obtain ⟨-, tr0, htr0, rfl⟩ := hQm i hi
    obtain ⟨hV, -, hF⟩ := hH.after_vote hwf (u := (Network.run N evs).ledger.length) (by rw [List.take_length]; exact hw)
    have htr : ({ tr0 with numTrustees := e.trustees.length, threshold := e.trusteesThreshold } : Trustee) ∈ e.getFullTrustees := full_iff.2 ⟨tr0, htr0, rfl⟩
    obtain ⟨l, hl, -⟩ := votingEnd_reacts hN hR hV hp hcon rng htr hvs hF
    exact ⟨l, hl⟩
  have he2 : ElectionAt (Network.run N E2).store.toStore e.id e := by
    subst hE2
    rw [List.append_assoc]
    exact stored_more _ he
  have hH2 := held_run hN hR E2 hq2 he2
  have hm2 : (Network.run N E2).ledger[m]? = some (.votingEnd vs) := by
    subst hE2
    rw [List.append_assoc]
    exact prefix_get (run_prefix N _ _) hm
  -- the node of one of them reacts to everything
  let evs3 : List Event := ((List.range (Network.run N E2).ledger.length).map fun j => (k', j)).map fun p => .react p.1 rng p.2 (Network.run N E2).ledger.length
  have hn3 : ∀ ev ∈ evs3, NodesOnly K ev := by
    intro ev hev
    obtain ⟨p, hp, rfl⟩ := List.mem_map.1 hev
    obtain ⟨i, hi, rfl⟩ := List.mem_map.1 hp
    exact hk'
  obtain ⟨-, hr3⟩ := reactions (N := N) rng ((List.range (Network.run N E2).ledger.length).map fun j => (k', j)) (Network.run N E2) _ rfl
  rw [show (((List.range (Network.run N E2).ledger.length).map fun j => (k', j)).map fun p => Event.react p.1 rng p.2 (Network.run N E2).ledger.length).foldl (Network.step N) (Network.run N E2) =
    Network.run N (E2 ++ evs3) from (run_more N E2 evs3).symm] at hr3
  obtain ⟨n3, hf3⟩ := Network.flush N (Network.run N (E2 ++ evs3))
  rw [← run_more] at hf3
  generalize hE4 : E2 ++ evs3 ++ List.replicate n3 (Event.deliver 0) = E4 at hf3
  have hq4 : ∀ ev ∈ E4, Fair N K e ev := by
    subst hE4
    intro ev hev
    rcases List.mem_append.1 hev with hev | hev
    · rcases List.mem_append.1 hev with hev | hev
      · exact hq2 ev hev
      · exact fair_of_nodes (hn3 ev hev)
    · rw [(List.mem_replicate.1 hev).2]
      trivial
  have hpre : (Network.run N E2).ledger <+: (Network.run N E4).ledger := by
    subst hE4
    rw [List.append_assoc]
    exact run_prefix N _ _
  have he4 : ElectionAt (Network.run N E4).store.toStore e.id e := by
    subst hE4
    rw [List.append_assoc]
    exact stored_more _ he2
  have hH4 := held_run hN hR E4 hq4 he4
  have hr4 : ∀ j t, (Network.run N E2).ledger[j]? = some t → (∃ l, generateTransactions N rng k' (at' (Network.run N E2) (Network.run N E2).ledger.length) t = .ok l) →
      (k', j) ∈ (Network.run N E4).reacted := by
    intro j t hj hl
    subst hE4
    rw [run_more]
    exact reacted_steps (N := N) _ (hr3 (k', j) (List.mem_map.2 ⟨j, List.mem_range.2 (List.getElem?_eq_some_iff.1 hj).1, rfl⟩) t hj hl)
  refine ⟨evs1 ++ List.replicate n1 (Event.deliver 0) ++ (evs3 ++ List.replicate n3 (Event.deliver 0)), ?_, ?_⟩
  · intro ev hev
    simp only [List.mem_append] at hev
    rcases hev with (hev | hev) | hev | hev
    · exact hn1 ev hev
    · rw [(List.mem_replicate.1 hev).2]; trivial
    · exact hn3 ev hev
    · rw [(List.mem_replicate.1 hev).2]; trivial
  · have : evs ++ (evs1 ++ List.replicate n1 (Event.deliver 0) ++ (evs3 ++ List.replicate n3 (Event.deliver 0))) = E4 := by
      rw [← hE4, ← hE2]
      simp only [List.append_assoc]
    rw [this]
    intro v c vrng sel hI
    have hm4 := prefix_get hpre hm2
    have hv2 : .vote v ∈ (Network.run N E2).ledger := by
      obtain ⟨i, him, hi⟩ := mem_take (hH4.vote_before_end hm4 hvid hI.stored hI.filed)
      obtain ⟨r, hr⟩ := hpre
      rw [← hr, List.getElem?_append_left (by have := (List.getElem?_eq_some_iff.1 hm2).1; omega)] at hi
      exact List.mem_of_getElem? hi
    have hI2 : Item N e key fits (Network.run N E2) v c vrng sel :=
      ⟨hv2, hI.filed, fun w hw => hI.uniq w (hH4.in_ledger.2 (hpre.subset (hH2.in_ledger.1 hw))), hI.fit, hI.once⟩
    have hposted : ∀ i ∈ Q, PartialDecryptionTx.buildId e.id v.tx.id c 0 i ∈ (Network.run N E2).ledger.map SignedTx.id := by
      intro i hi
      obtain ⟨-, tr0, htr0, rfl⟩ := hQm i hi
      have htr : ({ tr0 with numTrustees := e.trustees.length, threshold := e.trusteesThreshold } : Trustee) ∈ e.getFullTrustees := full_iff.2 ⟨tr0, htr0, rfl⟩
      have := hH2.partial_posted hp hW hI2 hcon (by rw [hf1]; simp) hm2 hvs hvid htr (hreact _ hi)
      exact this
    refine hH4.decryption_posted (hH4.target hp hI) (by rw [hf3]; simp) hQ hlen (fun i hi => mem_ids_prefix hpre (hposted i hi)) hkey ?_
    intro i hi j t hj hid
    obtain ⟨t2, ht2, hid2⟩ := List.mem_map.1 (hposted i hi)
    obtain ⟨j2, hj2⟩ := List.getElem?_of_mem ht2
    have hj4 := prefix_get hpre hj2
    have hjj : j2 = j := by
      have hnd := hH4.hist.sound.nodup
      have h1 : ((Network.run N E4).ledger.map SignedTx.id)[j2]? = some t2.id := by rw [List.getElem?_map, hj4]; rfl
      have h2 : ((Network.run N E4).ledger.map SignedTx.id)[j]? = some t.id := by rw [List.getElem?_map, hj]; rfl
      rw [hid2] at h1
      rw [hid] at h2
      exact (List.getElem?_inj (List.getElem?_eq_some_iff.1 h1).1 hnd).1 (h1.trans h2.symm)
    subst hjj
    exact hr4 j2 t2 hj2 (hH2.partial_reacts hW (hH2.target hp hI2) (by rw [List.take_length]; exact ht2) hid2 rng k')

end Setup
end CB
