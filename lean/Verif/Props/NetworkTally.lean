import Verif.Lemmas.NetFinish
import Verif.Props.Network
import Verif.Props.ServerPartials
/-!
# C66: networks of nodes decrypt the votes of elections without mixnet
-/

namespace CB
open Spec Server

namespace Setup

variable {N : NodeEnv} {K : List SecretKey} {e : ElectionTx} {sk : UInt8 → SecretKey} {run : KeyGenRun N} {key : ElGamalKey} {fits : Bytes → Prop} {s : Network}

theorem Held.item (h : Held N K e sk run key s) {ek : Signed EncryptionKeyTx} (hek : s.store.toStore.getTransaction (singleId e.id .encryptionKey) = some (.encryptionKey ek))
    {v : Signed VoteTx} (hv : InStore s.store.toStore (.vote v)) (hve : v.tx.election = e.id) (hu : UniqueVote s.store.toStore v.tx) {c : UInt32} {sel : List Selection}
    (hh : HonestVote N fits ek.tx.encryptionKey v.tx c sel) : ∃ rng, Item N e key fits s v c rng sel := by
  have hm := h.in_ledger.1 hv
  obtain ⟨i, hi⟩ := List.getElem?_of_mem hm
  obtain ⟨hid, -⟩ := (VoteTx.validateTx_ok (h.hist.sound.ledger i).lawful).1 (SignedTx.validate_ok.1 (h.hist.accepted i _ hi)).2.2
  obtain ⟨ek', heq, hkey, -⟩ := h.key_at (v := s.ledger.length) (t := .encryptionKey ek) (by unfold at'; rw [List.take_length]; exact hek)
  cases heq
  obtain ⟨hf, rng, ho⟩ := hh
  exact ⟨rng, hm, by rw [hid, hve]; rfl, hu, hf, by rw [← hkey]; exact ho⟩

end Setup

/-- **C66** (decryptions are right) In an election without mixnet, after every schedule: a stored decryption of an honest vote is exactly what the voter selected, provided that
the decryption lists no trustee twice or the primitive insists on a quorum of shares. -/
theorem C66_decryptions_are_right (N : NodeEnv) (fits : Bytes → Prop) (hF : ThresholdCorrect N fits) (K : List SecretKey) (e : ElectionTx) (sk : UInt8 → SecretKey)
    (hN : Nodes N K e sk) (hp : e.mixConfig = none) (evs : List Event) (hq : ∀ ev ∈ evs, Fair N K e ev) (S : Store) (hS : S = (Network.run N evs).store.toStore)
    (he : ElectionAt S e.id e) (ek : Signed EncryptionKeyTx) (hek : S.getTransaction (singleId e.id .encryptionKey) = some (.encryptionKey ek))
    (v : Signed VoteTx) (hv : InStore S (.vote v)) (hve : v.tx.election = e.id) (hu : UniqueVote S v.tx) (c : UInt32) (sel : List Selection)
    (hh : HonestVote N fits ek.tx.encryptionKey v.tx c sel)
    (d : Signed DecryptionTx) (hd : InStore S (.decryption d)) (hde : d.tx.electionId = e.id) (hdv : d.tx.upstreamId = v.tx.id) (hdc : d.tx.contestIndex = c)
    (hnd : d.tx.trustees.Nodup ∨ QuorumNeeded N) : d.tx.decryptedVote = sel := by
  subst hS
  obtain ⟨run, key, hR, hW⟩ := Setup.exists_working_run hF hN.trustees sk
  have h := Setup.held_run hN hR evs hq he
  obtain ⟨rng, hI⟩ := h.item hek hv hve hu hh
  have hm := h.in_ledger.1 hd
  obtain ⟨i, hi⟩ := List.getElem?_of_mem hm
  obtain ⟨hid, -⟩ := DecryptionTx.validateTx_ok.1 (SignedTx.validate_ok.1 (h.hist.accepted i _ hi)).2.2
  obtain ⟨-, -, hn, -⟩ := h.decryption_item hp hm (by rw [hid, hde]; rfl)
  rw [hde, hdv, hdc, hn] at hid
  exact h.decryption_right hW (h.target hp hI) hm hid (hnd.imp_right .inl)

/-- **C66** (all honest votes are decrypted) After every schedule: if voting has ended, the nodes of a quorum of trustees have reacted to that, the node of some trustee has reacted
to all partial decryptions of the vote, and nothing of the election is on its way, then a decryption of the vote is stored, and it is right. -/
theorem C66_votes_are_decrypted (N : NodeEnv) (fits : Bytes → Prop) (hF : ThresholdCorrect N fits) (K : List SecretKey) (e : ElectionTx) (sk : UInt8 → SecretKey)
    (hN : Nodes N K e sk) (hp : e.mixConfig = none) (hcon : e.contests ≠ []) (evs : List Event) (hq : ∀ ev ∈ evs, Fair N K e ev)
    (s : Network) (hs : s = Network.run N evs) (S : Store) (hS : S = s.store.toStore)
    (he : ElectionAt S e.id e) (ek : Signed EncryptionKeyTx) (hek : S.getTransaction (singleId e.id .encryptionKey) = some (.encryptionKey ek))
    (v : Signed VoteTx) (hv : InStore S (.vote v)) (hve : v.tx.election = e.id) (hu : UniqueVote S v.tx) (c : UInt32) (sel : List Selection)
    (hh : HonestVote N fits ek.tx.encryptionKey v.tx c sel)
    (vs : Signed VotingEndTx) (hend : S.getTransaction (singleId e.id .votingEnd) = some (.votingEnd vs)) (hvs : vs.tx.election = e.id)
    (hdel : ∀ t ∈ s.pending, t.id.electionId ≠ e.id.electionId)
    (Q : List UInt8) (hQ : Q.Nodup) (hQm : ∀ i ∈ Q, ∃ tr ∈ e.trustees, tr.index = i) (hlen : e.trusteesThreshold.toNat ≤ Q.length)
    (hQr : ∀ i ∈ Q, Reacted s (sk i) (.votingEnd vs))
    (k : SecretKey) (hk : TrusteeKey e (N.edPublic k))
    (hkr : ∀ p : Signed PartialDecryptionTx, InStore S (.partialDecryption p) → p.tx.electionId = e.id → p.tx.upstreamId = v.tx.id → p.tx.contestIndex = c →
      Reacted s k (.partialDecryption p)) :
    ∃ d : Signed DecryptionTx, InStore S (.decryption d) ∧ d.tx.electionId = e.id ∧ d.tx.upstreamId = v.tx.id ∧ d.tx.contestIndex = c ∧
      (d.tx.trustees.Nodup ∨ QuorumNeeded N → d.tx.decryptedVote = sel) := by
  subst hS hs
  obtain ⟨run, key, hR, hW⟩ := Setup.exists_working_run hF hN.trustees sk
  have h := Setup.held_run hN hR evs hq he
  obtain ⟨rng, hI⟩ := h.item hek hv hve hu hh
  generalize Network.run N evs = s at *
  have hvid : vs.tx.id = singleId e.id .votingEnd := ((Network.get_some h.hist.sound.nodup).1 hend).2
  have hpos : ∀ {m m' : Nat} {t t' : SignedTx}, s.ledger[m]? = some t → s.ledger[m']? = some t' → t.id = t'.id → m = m' := by
    intro m m' t t' hm hm' heq
    have h1 : (s.ledger.map SignedTx.id)[m]? = some t.id := by rw [List.getElem?_map, hm]; rfl
    have h2 : (s.ledger.map SignedTx.id)[m']? = some t'.id := by rw [List.getElem?_map, hm']; rfl
    exact (List.getElem?_inj (List.getElem?_eq_some_iff.1 h1).1 h.hist.sound.nodup).1 (h1.trans (by rw [heq, h2]))
  have hposted : ∀ i ∈ Q, PartialDecryptionTx.buildId e.id v.tx.id c 0 i ∈ s.ledger.map SignedTx.id := by
    intro i hi
    obtain ⟨m, hm, hr⟩ := hQr i hi
    obtain ⟨tr0, htr0, rfl⟩ := hQm i hi
    have htr : ({ tr0 with numTrustees := e.trustees.length, threshold := e.trusteesThreshold } : Trustee) ∈ e.getFullTrustees := Setup.full_iff.2 ⟨tr0, htr0, rfl⟩
    have := h.partial_posted hp hW hI hcon hdel hm hvs hvid htr hr
    exact this
  have hpost := h.decryption_posted (h.target hp hI) hdel hQ hlen hposted hk (by
    intro i hi m t hm hid
    obtain ⟨tr, htr, -, ds, -, heq⟩ := h.item_partial hp hI (List.mem_of_getElem? hm) hid
    have hst := h.in_ledger.2 (List.mem_of_getElem? hm)
    rw [heq] at hst
    obtain ⟨m', hm', hr⟩ := hkr _ hst rfl rfl rfl
    have := hpos hm hm' (by rw [heq]; rfl)
    subst this
    exact hr)
  obtain ⟨d, h1, h2, h3, h4, -, h5⟩ := h.decryption_stored hW (h.target hp hI) hpost
  exact ⟨d, h.in_ledger.2 h1, h2, h3, h4, fun hnd => h5 (hnd.imp_right .inl)⟩

/-- **C66** (and that can always be reached) From every state in which voting has ended, deliveries and reactions of a quorum of the trustees' nodes alone lead to a state in which a
decryption of every honest vote is stored, and is right. -/
theorem C66_tally_can_be_completed (N : NodeEnv) (fits : Bytes → Prop) (hF : ThresholdCorrect N fits) (K : List SecretKey) (e : ElectionTx) (sk : UInt8 → SecretKey)
    (hN : Nodes N K e sk) (hp : e.mixConfig = none) (hcon : e.contests ≠ []) (evs : List Event) (hq : ∀ ev ∈ evs, Fair N K e ev)
    (he : ElectionAt (Network.run N evs).store.toStore e.id e)
    (vs : Signed VotingEndTx) (hend : (Network.run N evs).store.toStore.getTransaction (singleId e.id .votingEnd) = some (.votingEnd vs)) (hvs : vs.tx.election = e.id)
    (Q : List UInt8) (hQ : Q.Nodup) (hQm : ∀ i ∈ Q, sk i ∈ K ∧ ∃ tr ∈ e.trustees, tr.index = i) (hlen : e.trusteesThreshold.toNat ≤ Q.length) :
    ∃ more : List Event, (∀ ev ∈ more, NodesOnly K ev) ∧ ∀ S : Store, S = (Network.run N (evs ++ more)).store.toStore →
      ∀ ek : Signed EncryptionKeyTx, S.getTransaction (singleId e.id .encryptionKey) = some (.encryptionKey ek) →
      ∀ v : Signed VoteTx, InStore S (.vote v) → v.tx.election = e.id → UniqueVote S v.tx → ∀ c sel, HonestVote N fits ek.tx.encryptionKey v.tx c sel →
        ∃ d : Signed DecryptionTx, InStore S (.decryption d) ∧ d.tx.electionId = e.id ∧ d.tx.upstreamId = v.tx.id ∧ d.tx.contestIndex = c ∧
          (d.tx.trustees.Nodup ∨ QuorumNeeded N → d.tx.decryptedVote = sel) := by
  obtain ⟨run, key, hR, hW⟩ := Setup.exists_working_run hF hN.trustees sk
  obtain ⟨hm, hvid⟩ := (Network.get_some (Network.sound_run N evs).nodup).1 hend
  obtain ⟨more, hmore, hdone⟩ := Setup.complete_votes hN hR hW hp hcon evs hq he hm hvs hvid hQ hQm hlen
  refine ⟨more, hmore, ?_⟩
  rintro S rfl ek hek v hv hve hu c sel hh
  have h := Setup.held_run hN hR (evs ++ more) (fun ev hev => by
    rcases List.mem_append.1 hev with h1 | h1
    · exact hq ev h1
    · exact Setup.fair_of_nodes (hmore ev h1)) (Setup.stored_more more he)
  obtain ⟨rng, hI⟩ := h.item hek hv hve hu hh
  obtain ⟨d, h1, h2, h3, h4, -, h5⟩ := h.decryption_stored hW (h.target hp hI) (hdone v c rng sel hI)
  exact ⟨d, h.in_ledger.2 h1, h2, h3, h4, fun hnd => h5 (hnd.imp_right .inl)⟩

/-- **C66** (honest votes do no harm) Nodes react normally to all partial decryptions of honest votes. -/
theorem C66_partials_of_honest_votes_crash_nobody (N : NodeEnv) (fits : Bytes → Prop) (hF : ThresholdCorrect N fits) (K : List SecretKey) (e : ElectionTx) (sk : UInt8 → SecretKey)
    (hN : Nodes N K e sk) (hp : e.mixConfig = none) (evs : List Event) (hq : ∀ ev ∈ evs, Fair N K e ev) (S : Store) (hS : S = (Network.run N evs).store.toStore)
    (he : ElectionAt S e.id e) (ek : Signed EncryptionKeyTx) (hek : S.getTransaction (singleId e.id .encryptionKey) = some (.encryptionKey ek))
    (v : Signed VoteTx) (hv : InStore S (.vote v)) (hve : v.tx.election = e.id) (hu : UniqueVote S v.tx) (c : UInt32) (sel : List Selection)
    (hh : HonestVote N fits ek.tx.encryptionKey v.tx c sel) (p : Signed PartialDecryptionTx) (hpe : p.tx.electionId = e.id) (hpv : p.tx.upstreamId = v.tx.id)
    (hpc : p.tx.contestIndex = c) (view : Nat) (hpin : .partialDecryption p ∈ (Network.run N evs).ledger.take view) (rng : Rng) (k : SecretKey) :
    ∃ l, generateTransactions N rng k ((Network.run N evs).storeAt view).toStore (.partialDecryption p) = .ok l := by
  subst hS
  obtain ⟨run, key, hR, hW⟩ := Setup.exists_working_run hF hN.trustees sk
  have h := Setup.held_run hN hR evs hq he
  obtain ⟨vrng, hI⟩ := h.item hek hv hve hu hh
  obtain ⟨i, hi⟩ := List.getElem?_of_mem (List.mem_of_mem_take hpin)
  obtain ⟨e', he', -, hid, -, cts, hcts, -⟩ := PartialDecryptionTx.validateTx_ok.1 (SignedTx.validate_ok.1 (h.hist.accepted i _ hi)).2.2
  have hty := itemAt_type (encryptedVoteFromUpstream_sound hcts)
  have h0 : p.tx.upstreamIndex = 0 := by
    rcases hty with ⟨-, h0⟩ | h0
    · exact h0
    · rw [hpv, hI.type h] at h0; cases h0
  rw [hpe, hpv, hpc, h0] at hid
  exact h.partial_reacts hW (h.target hp hI) hpin hid rng k

/-! ## An election of two votes -/

namespace Toy

theorem eraseDups_length {α : Type} [BEq α] (n : Nat) : ∀ l : List α, l.length ≤ n → l.eraseDups.length ≤ l.length := by
  induction n with
  | zero => intro l hl; cases l with
    | nil => simp
    | cons a l => simp at hl
  | succ n ih => intro l hl; cases l with
    | nil => simp
    | cons a l =>
      rw [List.eraseDups_cons, List.length_cons, List.length_cons]
      have h1 := List.length_filter_le (fun b => !b == a) l
      have h2 := ih (l.filter fun b => !b == a) (by simp only [List.length_cons] at hl; omega)
      omega

theorem node_quorum : QuorumNeeded node := by
  intro t c shares m h
  have h : (if t ≤ (shares.map (·.1)).eraseDups.length then Except.ok c.raw else .error (⟨0⟩ : CryptoError)) = Except.ok m := h
  split at h
  · rename_i hle
    refine Nat.le_trans hle ?_
    have := eraseDups_length _ (shares.map (·.1)) (Nat.le_refl _)
    rwa [List.length_map] at this
  · cases h

theorem plainNodes : Nodes node nodeKeys3 plainElection trusteeKey where
  trustees := ⟨by decide +kernel, by decide +kernel, by decide +kernel, by decide +kernel⟩
  keys := by decide +kernel
  held := by decide +kernel
  only := by decide +kernel
  sign := node_sign
  aes := aes_correct
  dh := dh_agrees

def voteOf (k : UInt8) (name : String) : Signed VoteTx := ⟨vote (key k) [auth 21 (key k)] [⟨0, [ct name]⟩], sig k⟩
def endOf : Signed VotingEndTx := ⟨VotingEndTx.new eid (key 1), sig 1⟩
def encOf : Signed EncryptionKeyTx := ⟨EncryptionKeyTx.new eid (key 1) ⟨[5]⟩, sig 1⟩

/-- nodes with the given keys react to the transactions from `a` to `b - 1`, and everything pending is delivered -/
def roundOn (ks : List SecretKey) (a b : Nat) : List Event := (ks.flatMap fun k => (List.range' a (b - a)).map fun m => .react k rng m b) ++ List.replicate 10 (.deliver 0)

/-- set-up, the given submissions, the end of voting -/
def votingWith (subs : List SignedTx) : List Event :=
  [.submit plainTx, .deliver 0] ++ roundOn nodeKeys3 0 1 ++ roundOn nodeKeys3 1 3 ++ roundOn nodeKeys3 3 5 ++ roundOn nodeKeys3 5 7 ++
    (subs ++ [endTx]).map .submit ++ List.replicate (subs.length + 1) (.deliver 0)

/-- … and only trustees 1's and 2's nodes go on -/
def tally : List Event := votingWith [voteTx 31 "a", voteTx 32 "b"] ++ roundOn [key 11, key 12] 8 11 ++ roundOn [key 12] 11 15

theorem voting_stored (subs : List SignedTx) (more : List Event) : ElectionAt (Network.run node (votingWith subs ++ more)).store.toStore eid plainElection := by
  unfold votingWith
  simp only [List.append_assoc]
  exact stored_later (e := plainElection) ⟨sig 1, by rfl⟩

theorem roundOn_fair {N : NodeEnv} {K ks : List SecretKey} {e : ElectionTx} (hk : ∀ k ∈ ks, k ∈ K) (a b : Nat) : ∀ ev ∈ roundOn ks a b, Fair N K e ev := by
  intro ev hev
  simp only [roundOn, List.mem_append, List.mem_flatMap, List.mem_map, List.mem_replicate] at hev
  rcases hev with ⟨k, hk', m, -, rfl⟩ | ⟨-, rfl⟩
  · exact hk k hk'
  · trivial

theorem voting_fair {N : NodeEnv} (subs : List SignedTx) (hs : ∀ t ∈ subs, ¬ SetupKind (kindOf t) ∧ kindOf t ≠ .partialDecryption) : ∀ ev ∈ votingWith subs, Fair N nodeKeys3 plainElection ev := by
  intro ev hev
  simp only [votingWith, List.mem_append, List.mem_cons, List.not_mem_nil, or_false, List.mem_map, List.mem_replicate] at hev
  rcases hev with ((((((rfl | rfl) | h) | h) | h) | h) | ⟨t, ht | rfl, rfl⟩) | ⟨-, rfl⟩
  · exact fun _ => ⟨by simp [SetupKind, kindOf, plainTx], by simp [kindOf, plainTx]⟩
  · trivial
  iterate 4 exact roundOn_fair (fun _ h => h) _ _ ev h
  · exact fun _ => ⟨(hs t ht).1, fun h => absurd h (hs t ht).2⟩
  · exact fun _ => ⟨by simp [SetupKind, kindOf, endTx], by simp [kindOf, endTx]⟩
  · trivial

theorem tally_fair : ∀ ev ∈ tally, Fair node nodeKeys3 plainElection ev := by
  intro ev hev
  simp only [tally, List.mem_append] at hev
  rcases hev with (h | h) | h
  · exact voting_fair _ (by simp [SetupKind, kindOf, voteTx]) ev h
  · exact roundOn_fair (by decide +kernel) _ _ ev h
  · exact roundOn_fair (by decide +kernel) _ _ ev h

theorem tally_stored : ElectionAt (Network.run node tally).store.toStore eid plainElection := by
  unfold tally
  rw [List.append_assoc]
  exact voting_stored _ _

theorem vote_of_check {s : Network} (hn : (s.ledger.map SignedTx.id).Nodup) {i : Nat} {v : Signed VoteTx}
    (h : (match s.ledger[i]? with | some (.vote w) => decide (w = v) | _ => false) = true) : InStore s.store.toStore (.vote v) := by
  refine (Network.stored_iff_mem hn _).2 ?_
  split at h
  · rename_i w hw
    have := of_decide_eq_true h
    subst this
    exact List.mem_of_getElem? hw
  · cases h

theorem key_of_check {s : Network} {id : Identifier} {ek : Signed EncryptionKeyTx}
    (h : (match s.store.getTransaction id with | some (.encryptionKey x) => decide (x = ek) | _ => false) = true) :
    s.store.toStore.getTransaction id = some (.encryptionKey ek) := by
  split at h
  · rename_i x hx
    have := of_decide_eq_true h
    subst this
    exact hx
  · cases h

theorem unique_of_check {s : Network} (hn : (s.ledger.map SignedTx.id).Nodup) {v : VoteTx}
    (h : (s.ledger.all fun t => match t with | .vote w => decide (w.tx.id.uniqueInfo.val.take 10 = v.id.uniqueInfo.val.take 10 → w.tx.id = v.id) | _ => true) = true) :
    UniqueVote s.store.toStore v := by
  intro w hw
  have hm := (Network.stored_iff_mem hn _).1 hw
  rw [List.all_eq_true] at h
  exact of_decide_eq_true (h _ hm)

end Toy

/-- The schedule meets the hypotheses, for the first of two votes: 15 transactions become 17, of which two are decryptions. -/
example : (∀ ev ∈ Toy.tally, Fair Toy.node Toy.nodeKeys3 plainElection ev) ∧ Nodes Toy.node Toy.nodeKeys3 plainElection Toy.trusteeKey ∧
    ThresholdCorrect Toy.node (fun _ => True) ∧ QuorumNeeded Toy.node ∧ plainElection.mixConfig = none ∧ plainElection.contests ≠ [] ∧
    ElectionAt (Network.run Toy.node Toy.tally).store.toStore plainElection.id plainElection ∧
    (∃ ek : Signed EncryptionKeyTx, (Network.run Toy.node Toy.tally).store.toStore.getTransaction (singleId plainElection.id .encryptionKey) = some (.encryptionKey ek) ∧
      HonestVote Toy.node (fun _ => True) ek.tx.encryptionKey (Toy.voteOf 31 "a").tx 0 [Toy.sel "a"]) ∧
    InStore (Network.run Toy.node Toy.tally).store.toStore (.vote (Toy.voteOf 31 "a")) ∧ (Toy.voteOf 31 "a").tx.election = plainElection.id ∧
    UniqueVote (Network.run Toy.node Toy.tally).store.toStore (Toy.voteOf 31 "a").tx ∧
    (Network.run Toy.node Toy.tally).pending = [] ∧
    ((Network.run Toy.node Toy.tally).ledger.drop 8).map kindOf = [.vote, .vote, .votingEnd, .partialDecryption, .partialDecryption, .partialDecryption, .partialDecryption, .decryption, .decryption] ∧
    (∀ k ∈ [Toy.key 11, Toy.key 12], (k, 10) ∈ (Network.run Toy.node Toy.tally).reacted) ∧
    (∀ m ∈ [11, 12, 13, 14], (Toy.key 12, m) ∈ (Network.run Toy.node Toy.tally).reacted) := by
  have hn := (Network.sound_run Toy.node Toy.tally).nodup
  refine ⟨Toy.tally_fair, Toy.plainNodes, Toy.node_threshold, Toy.node_quorum, rfl, by simp [plainElection], Toy.tally_stored, ⟨Toy.encOf, ?_, ?_⟩, ?_, rfl, ?_, ?_, by decide +kernel,
    by decide +kernel, by decide +kernel⟩
  · exact Toy.key_of_check (by decide +kernel)
  · exact ⟨by
      intro x hx
      rw [List.mem_singleton] at hx
      subst hx
      exact ⟨⟨by decide +kernel, by decide +kernel⟩, trivial⟩, Toy.rng, by decide +kernel⟩
  · exact Toy.vote_of_check hn (i := 8) (by decide +kernel)
  · exact Toy.unique_of_check hn (by decide +kernel)
  · rw [← List.isEmpty_iff]
    decide +kernel

/-! ## What an outsider and a voter can do -/

namespace Toy

/-- like `node`, but threshold decryption with too few shares yields something instead of failing -/
def weakNode : NodeEnv :=
  { node with
    toEnv := { node.toEnv with
      thresholdDecrypt := fun k c shares => if k ≤ (shares.map (·.1)).eraseDups.length then .ok c.raw else .ok (sel "z").encode } }

theorem weakNode_threshold : ThresholdCorrect weakNode fun _ => True := by
  intro I t seed hI hb ht hle
  have hc : ∀ (l : List Nat) (g : weakNode.Gen), l.foldlM (fun g k => weakNode.genReceiveCommitment g k (weakNode.genCommitment (weakNode.genNew (seed k) k t I.length))) g = .ok g := by
    intro l
    induction l with
    | nil => intro g; rfl
    | cons a l ih => exact fun g => ih g
  have hs : ∀ (l : List Nat) (g : weakNode.Gen), l.foldlM (fun g k => weakNode.genReceiveShare g k ⟨[1]⟩) g = .ok g := by
    intro l
    induction l with
    | nil => intro g; rfl
    | cons a l ih => exact fun g => ih g
  refine ⟨⟨fun i => i, fun _ _ => ⟨[1]⟩, fun i => i⟩, ⟨[5]⟩, ?_, fun _ _ => rfl, ?_⟩
  · intro i hi
    exact ⟨hc I _, fun j _ => ⟨rfl, rfl⟩, i, hs I _, rfl⟩
  · intro m r _
    refine ⟨fun i _ rnd => by show (_ == _) = true; simp [weakNode, node], fun Q rnd hQ hQI hlen => ?_⟩
    show (if t ≤ _ then _ else _) = _
    rw [if_pos]
    · rfl
    · rw [List.map_map]
      refine Nat.le_trans hlen (List.Nodup.subperm (l₂ := List.eraseDups _) hQ fun i hi => ?_).length_le
      rw [List.mem_eraseDups]
      exact List.mem_map.2 ⟨i, hi, rfl⟩

theorem weakNodes : Nodes weakNode nodeKeys3 plainElection trusteeKey where
  trustees := plainNodes.trustees
  keys := plainNodes.keys
  held := plainNodes.held
  only := plainNodes.only
  sign := fun a b => node_sign a b
  aes := fun a b c => aes_correct a b c
  dh := fun a b => dh_agrees a b

/-- somebody's decryption of the first vote that lists trustee 1 twice -/
def spoiler : Signed DecryptionTx := ⟨⟨DecryptionTx.buildId eid (voteOf 31 "a").tx.id 0 0, eid, (voteOf 31 "a").tx.id, 0, 0, [1, 1], [sel "z"]⟩, sig 0⟩

/-- it is submitted when only trustee 1's partial decryption is stored -/
def spoiled : List Event := votingWith [voteTx 31 "a"] ++ roundOn [key 11] 9 10 ++ [.submit (.decryption spoiler), .deliver 0]

theorem spoiled_fair : ∀ ev ∈ spoiled, Fair weakNode nodeKeys3 plainElection ev := by
  intro ev hev
  simp only [spoiled, List.mem_append, List.mem_cons, List.not_mem_nil, or_false] at hev
  rcases hev with (h | h) | rfl | rfl
  · exact voting_fair _ (by simp [SetupKind, kindOf, voteTx]) ev h
  · exact roundOn_fair (by decide +kernel) _ _ ev h
  · exact fun _ => ⟨by simp [SetupKind, kindOf], by simp [kindOf]⟩
  · trivial

theorem decryption_of_check {s : Network} (hn : (s.ledger.map SignedTx.id).Nodup) {i : Nat} {d : Signed DecryptionTx}
    (h : (match s.ledger[i]? with | some (.decryption w) => decide (w = d) | _ => false) = true) : InStore s.store.toStore (.decryption d) := by
  refine (Network.stored_iff_mem hn _).2 ?_
  split at h
  · rename_i w hw
    have := of_decide_eq_true h
    subst this
    exact List.mem_of_getElem? hw
  · cases h

/-- a vote whose ciphertext decrypts to nothing sensible -/
def garbage : SignedTx := .vote ⟨vote (key 31) [auth 21 (key 31)] [⟨0, [⟨[0x1a]⟩]⟩], sig 31⟩
def garbled : List Event := votingWith [garbage] ++ roundOn [key 11, key 12] 9 10

theorem garbled_fair : ∀ ev ∈ garbled, Fair node nodeKeys3 plainElection ev := by
  intro ev hev
  simp only [garbled, List.mem_append] at hev
  rcases hev with h | h
  · exact voting_fair _ (by simp [SetupKind, kindOf, garbage]) ev h
  · exact roundOn_fair (by decide +kernel) _ _ ev h

theorem stuck_of_check {L : List SignedTx} {i : Nat} {N : NodeEnv} {rng : Rng} {k : SecretKey} {S : Store}
    (h : (match L[i]? with | some t => (match generateTransactions N rng k S t with | .ok _ => false | _ => true) | none => false) = true) :
    ∃ t ∈ L, ¬ ∃ l, generateTransactions N rng k S t = .ok l := by
  split at h
  · rename_i t ht
    refine ⟨t, List.mem_of_getElem? ht, ?_⟩
    rintro ⟨l, hl⟩
    rw [hl] at h
    cases h
  · cases h

end Toy

/-- **C66's proviso is needed**: validation counts a trustee that a decryption lists twice as two, so if the primitive does not itself insist on a quorum, an outsider can have a wrong
decryption of an honest vote accepted, before the nodes post the right one. -/
theorem C66_decryptions_are_right_false :
    ¬ ∀ (N : NodeEnv) (fits : Bytes → Prop), ThresholdCorrect N fits → ∀ (K : List SecretKey) (e : ElectionTx) (sk : UInt8 → SecretKey), Nodes N K e sk → e.mixConfig = none →
      ∀ evs : List Event, (∀ ev ∈ evs, Fair N K e ev) → ∀ S : Store, S = (Network.run N evs).store.toStore → ElectionAt S e.id e →
      ∀ ek : Signed EncryptionKeyTx, S.getTransaction (singleId e.id .encryptionKey) = some (.encryptionKey ek) →
      ∀ v : Signed VoteTx, InStore S (.vote v) → v.tx.election = e.id → UniqueVote S v.tx → ∀ c sel, HonestVote N fits ek.tx.encryptionKey v.tx c sel →
      ∀ d : Signed DecryptionTx, InStore S (.decryption d) → d.tx.electionId = e.id → d.tx.upstreamId = v.tx.id → d.tx.contestIndex = c → d.tx.decryptedVote = sel := by
  intro h
  have hn := (Network.sound_run Toy.weakNode Toy.spoiled).nodup
  have hst : ElectionAt (Network.run Toy.weakNode Toy.spoiled).store.toStore plainElection.id plainElection := by
    unfold Toy.spoiled Toy.votingWith
    simp only [List.append_assoc]
    exact Toy.stored_later (e := plainElection) ⟨Toy.sig 1, by rfl⟩
  have := h Toy.weakNode _ Toy.weakNode_threshold Toy.nodeKeys3 plainElection Toy.trusteeKey Toy.weakNodes rfl Toy.spoiled Toy.spoiled_fair _ rfl hst
    Toy.encOf (Toy.key_of_check (by decide +kernel)) (Toy.voteOf 31 "a") (Toy.vote_of_check hn (i := 8) (by decide +kernel)) rfl (Toy.unique_of_check hn (by decide +kernel)) 0 [Toy.sel "a"]
    ⟨by
      intro x hx
      rw [List.mem_singleton] at hx
      subst hx
      exact ⟨⟨by decide +kernel, by decide +kernel⟩, trivial⟩, Toy.rng, by decide +kernel⟩ Toy.spoiler (Toy.decryption_of_check hn (i := 11) (by decide +kernel)) rfl rfl rfl
  exact absurd this (by decide +kernel)

/-- **C66 does not extend to all votes**: a voter who encrypts something else than a selection makes every trustee's node fail on the partial decryptions of that vote once there is a
quorum of them (the error is unwrapped in `after_commit`, so the node's process panics, C64). -/
theorem C66_votes_crash_nobody_false :
    ¬ ∀ (N : NodeEnv) (fits : Bytes → Prop), ThresholdCorrect N fits → QuorumNeeded N → ∀ (K : List SecretKey) (e : ElectionTx) (sk : UInt8 → SecretKey), Nodes N K e sk →
      AllRun N K e sk → e.mixConfig = none → e.contests ≠ [] → ∀ evs : List Event, (∀ ev ∈ evs, Fair N K e ev) → ElectionAt (Network.run N evs).store.toStore e.id e →
      ∀ (rng : Rng), ∀ k ∈ K, ∀ t ∈ (Network.run N evs).ledger, ∃ l, generateTransactions N rng k (Network.run N evs).store.toStore t = .ok l := by
  intro h
  obtain ⟨t, ht, hno⟩ := Toy.stuck_of_check (L := (Network.run Toy.node Toy.garbled).ledger) (i := 10) (N := Toy.node) (rng := Toy.rng) (k := Toy.key 11)
    (S := (Network.run Toy.node Toy.garbled).store.toStore) (by decide +kernel)
  exact hno (h Toy.node _ Toy.node_threshold Toy.node_quorum Toy.nodeKeys3 plainElection Toy.trusteeKey Toy.plainNodes ⟨by decide +kernel, Toy.key 1, by decide +kernel, by decide +kernel⟩ rfl
    (by simp [plainElection]) Toy.garbled Toy.garbled_fair (Toy.voting_stored _ _) Toy.rng (Toy.key 11) (by decide +kernel) t ht)

end CB
