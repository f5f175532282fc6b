import Verif.Lemmas.NetDone
import Verif.Props.ServerDec
/-!
# How nodes of an election without mixnet react to the end of voting
-/

namespace CB
open Spec Server

namespace Setup

variable {N : NodeEnv} {K : List SecretKey} {e : ElectionTx} {sk : UInt8 → SecretKey} {run : KeyGenRun N} {key : ElGamalKey} {S : Store}

theorem View.filled_commitments (hN : Nodes N K e sk) (hV : View N e sk run key S) (h : Filled e S .keyGenShare) : Filled e S .keyGenCommitment := by
  obtain ⟨tr, htr⟩ : ∃ tr, tr ∈ e.getFullTrustees := List.exists_mem_of_length_pos (by
    rw [full_length]; have := hN.trustees.threshold; have := hN.trustees.enough; omega)
  obtain ⟨x, hx⟩ := h tr htr
  have hid := hV.lawful.keyed _ _ hx
  have hin : InStore S x := by unfold InStore; rw [hid]; exact hx
  refine hV.order x hin (by rw [hid]; rfl) ?_
  rw [← hV.typed x hin, hid]
  rfl

/-- Once all shares are posted, every trustee computes its party from the store. -/
theorem View.parties (hN : Nodes N K e sk) (hR : Run N e sk run key) (hV : View N e sk run key S) (hF : Filled e S .keyGenShare) :
    ∃ cs ss, getAll S e.id .keyGenCommitment SignedTx.intoKeyGenCommitment = .ok cs ∧ getAll S e.id .keyGenShare SignedTx.intoKeyGenShare = .ok ss ∧
      ∀ tr ∈ e.getFullTrustees, ∃ box, Server.sharesFor tr ss = .ok box ∧
        tr.party N (sk tr.index) (cs.map fun c => (c.trusteeIndex, c.x25519PublicKey)) (cs.map fun c => (c.trusteeIndex, c.commitment)) box e.id =
          .ok (run.party tr.index.toNat) := by
  obtain ⟨cs, hcs, -, heq⟩ := hV.commits hN
  obtain ⟨ss, hss, -, heq'⟩ := hV.shares hN
  have hFc := hV.filled_commitments hN hF
  refine ⟨cs, ss, hcs, hss, fun tr h1 => ?_⟩
  have hk1 : cs.map (fun c => (c.trusteeIndex, c.x25519PublicKey)) = dhKeys N (sorted e) sk := by
    rw [heq hFc, List.map_map]; rfl
  have hk2 : cs.map (fun c => (c.trusteeIndex, c.commitment)) = commitments N (sorted e) sk := by
    rw [heq hFc, List.map_map]; rfl
  obtain ⟨rng', posted, hp, hs⟩ := heq' hF
  have hbox : Server.sharesFor tr ss = .ok (inbox (sorted e) posted tr.index) := by
    rw [hs]
    unfold Server.sharesFor inbox
    have hget : ∀ tr' ∈ (sorted e).getFullTrustees, ∃ es, (posted tr'.index).get tr.index = some es := by
      intro tr' htr'
      obtain ⟨n, hn⟩ := posted_spec (sorted_proper hN.trustees) hR.1 hp htr' (mem_sorted_full.2 h1)
      exact ⟨_, hn⟩
    generalize (sorted e).getFullTrustees = L at hget
    induction L with
    | nil => rfl
    | cons a L ih =>
      obtain ⟨es, hes⟩ := hget a (by simp)
      rw [List.map_cons, Res.mapM', ih fun tr' h => hget tr' (by simp [h])]
      simp only [List.filterMap_cons, hes, Option.map_some, shareTx, KeyGenShareTx.new, Res.unwrap, Res.bind_def, Res.ok_bind, Res.pure_def]
  refine ⟨_, hbox, ?_⟩
  rw [hk1, hk2]
  exact party_eq hN.aes hN.dh (sorted_proper hN.trustees) hR.1 hp (mem_sorted_full.2 h1)

theorem itemShares_total {rng : Rng} {k : SecretKey} {tr : Trustee} {keys : List (UInt8 × X25519Pub)} {cs : List (UInt8 × KeygenCommitment)}
    {shares : List (UInt8 × EncryptedShare)} {el : Identifier} {p : N.Party} (h : tr.party N k keys cs shares el = .ok p) (pos : List Nat) (cts : List Ciphertext) (n : Nat) :
    ∃ ds, itemShares N rng k tr keys cs shares el pos n cts = .ok ds := by
  induction cts generalizing n with
  | nil => exact ⟨[], rfl⟩
  | cons c cts ih =>
    obtain ⟨ds, hds⟩ := ih (n + 1)
    simp only [itemShares, Trustee.partialDecrypt, h, Res.bind_def, Res.ok_bind, Res.pure_def, v_ok, hds]
    exact ⟨_, rfl⟩

theorem partialsFrom_total {rng : Rng} {k : SecretKey} {tr : Trustee} {keys : List (UInt8 × X25519Pub)} {cs : List (UInt8 × KeygenCommitment)}
    {shares : List (UInt8 × EncryptedShare)} {p : N.Party} (h : tr.party N k keys cs shares e.id = .ok p) (items : List (Identifier × UInt16 × UInt32 × List Ciphertext)) (n : Nat) :
    ∃ l, partialsFrom N rng k e tr keys cs shares n items = .ok l := by
  induction items generalizing n with
  | nil => exact ⟨[], rfl⟩
  | cons x items ih =>
    obtain ⟨up, i, c, cts⟩ := x
    obtain ⟨l, hl⟩ := ih (n + 1)
    obtain ⟨ds, hds⟩ := itemShares_total (rng := rng) h [n] cts 0
    simp only [partialsFrom, hds, Res.bind_def, Res.ok_bind, hl, Res.pure_def]
    rw [sign_eq (by rintro k ⟨⟩; rfl)]
    exact ⟨_, rfl⟩

/-- `ds` are trustee `tr`'s decryption shares of the ciphertexts -/
def SharesOf (N : NodeEnv) (run : KeyGenRun N) (tr : Trustee) (cts : List Ciphertext) (ds : List DecryptShare) : Prop :=
  ds.length = cts.length ∧ ∀ (j : Nat) c, cts[j]? = some c → ∃ r, ds[j]? = some (N.partyDecrypt (run.party tr.index.toNat) c r)

/-- trustee `tr`'s partial decryption of a contest's encrypted vote in the vote, or at position `n` of the mix, with id `up` -/
def partialTx (N : NodeEnv) (e : ElectionTx) (sk : UInt8 → SecretKey) (tr : Trustee) (up : Identifier) (n : UInt16) (c : UInt32) (ds : List DecryptShare) : SignedTx :=
  .partialDecryption (signedBy N sk tr (PartialDecryptionTx.new e.id up n tr.index c tr.publicKey ds))

/-- What a trustee's node submits when it decrypts some items. -/
theorem View.partials_emitted (hN : Nodes N K e sk) (hR : Run N e sk run key) (hV : View N e sk run key S) {rng : Rng} {tr : Trustee} (htr : tr ∈ e.getFullTrustees)
    {con : UInt32} {mt : Option MixTx} {l : List SignedTx} (hl : producePartials N rng (sk tr.index) S e tr con mt = .ok l) {x : SignedTx} (hx : x ∈ l) :
    ∃ items, partialItems S e con mt = .ok items ∧ ∃ up n c cts, (up, n, c, cts) ∈ items ∧ ∃ ds, x = partialTx N e sk tr up n c ds ∧
      (Filled e S .keyGenShare → SharesOf N run tr cts ds) := by
  simp only [producePartials, Res.bind_def, Res.bind_eq_ok] at hl
  obtain ⟨ss, hss, cs, hcs, box, hbox, items, hitems, hl⟩ := hl
  obtain ⟨h3, h4⟩ := partialsFrom_spec hl
  obtain ⟨i, hi, rfl⟩ := List.mem_iff_getElem.1 hx
  obtain ⟨⟨up, n, c, cts⟩, hit⟩ : ∃ y, items[i]? = some y := ⟨_, List.getElem?_eq_getElem (by omega)⟩
  obtain ⟨ds, hds, hli⟩ := h4 i up n c cts hit
  rw [List.getElem?_eq_getElem hi] at hli
  refine ⟨items, hitems, up, n, c, cts, List.mem_of_getElem? hit, ds, ?_, fun hF => ?_⟩
  · rw [Option.some.inj hli, hN.held' htr]
    rfl
  · obtain ⟨cs', ss', hcs', hss', hp⟩ := hV.parties hN hR hF
    rw [hcs] at hcs'
    rw [hss] at hss'
    cases hcs'
    cases hss'
    obtain ⟨box', hbox', hp⟩ := hp tr htr
    rw [hbox] at hbox'
    cases hbox'
    obtain ⟨h7, h8⟩ := itemShares_length hds
    refine ⟨h7, fun j c hc => ?_⟩
    obtain ⟨p, r, hp', hr⟩ := h8 j c hc
    rw [hp] at hp'
    cases hp'
    exact ⟨r, hr⟩

/-- Once all shares are posted, a trustee's node decrypts all items. -/
theorem View.partials_made (hN : Nodes N K e sk) (hR : Run N e sk run key) (hV : View N e sk run key S) (rng : Rng) {tr : Trustee} (htr : tr ∈ e.getFullTrustees)
    (hF : Filled e S .keyGenShare) {con : UInt32} {mt : Option MixTx} {items : List (Identifier × UInt16 × UInt32 × List Ciphertext)} (hitems : partialItems S e con mt = .ok items) :
    ∃ l, producePartials N rng (sk tr.index) S e tr con mt = .ok l ∧ ∀ up n c cts, (up, n, c, cts) ∈ items → ∃ ds, SharesOf N run tr cts ds ∧ partialTx N e sk tr up n c ds ∈ l := by
  obtain ⟨cs, ss, hcs, hss, hp⟩ := hV.parties hN hR hF
  obtain ⟨box, hbox, hp⟩ := hp tr htr
  simp only [producePartials, hcs, hss, hbox, hitems, Res.bind_def, Res.ok_bind]
  obtain ⟨l, hl⟩ := partialsFrom_total (rng := rng) hp items 0
  refine ⟨l, hl, fun up n c cts hm => ?_⟩
  obtain ⟨h3, h4⟩ := partialsFrom_spec hl
  obtain ⟨i, hi⟩ := List.getElem?_of_mem hm
  obtain ⟨ds, hds, hli⟩ := h4 i _ _ _ _ hi
  obtain ⟨h7, h8⟩ := itemShares_length hds
  refine ⟨ds, ⟨h7, fun j c hc => ?_⟩, ?_⟩
  · obtain ⟨p, r, hp', hr⟩ := h8 j c hc
    rw [hp] at hp'
    cases hp'
    exact ⟨r, hr⟩
  · have := List.mem_of_getElem? hli
    rw [hN.held' htr] at this
    exact this

/-- What nodes submit at the end of voting. -/
theorem votingEnd_emitted (hN : Nodes N K e sk) (hR : Run N e sk run key) (hV : View N e sk run key S) (hcfg : e.mixConfig = none) {rng : Rng} {k : SecretKey} (hk : k ∈ K)
    {s : Signed VotingEndTx} (ht : s.tx.election = e.id) {l : List SignedTx} (hl : generateTransactions N rng k S (.votingEnd s) = .ok l) {x : SignedTx} (hx : x ∈ l) :
    ∃ tr ∈ e.getFullTrustees, ∃ v : Signed VoteTx, InStore S (.vote v) ∧ v.tx.id.electionId = e.id.electionId ∧ ∃ ev ∈ v.tx.encryptedVotes, ∃ ds,
      x = partialTx N e sk tr v.tx.id 0 ev.contestIndex ds ∧ (Filled e S .keyGenShare → SharesOf N run tr ev.selections ds) := by
  obtain ⟨esig, hel⟩ := getElection_at hV.election
  simp only [generateTransactions, processVotingEnd, ht, hel, v_ok, Res.bind_def, Res.ok_bind, hcfg] at hl
  split at hl
  · rename_i tr htr
    obtain ⟨h1, rfl, h2⟩ := hN.reactor hk htr
    split at hl
    · obtain ⟨items, hitems, up, n, c, cts, hm, ds, hxe, hsh⟩ := hV.partials_emitted hN hR h1 hl hx
      obtain ⟨votes, -, hv, -, hall⟩ := getAll_votes hV.lawful hV.typed e
      simp only [partialItems, hv, Res.bind_def, Res.ok_bind, Res.pure_def, Res.ok.injEq] at hitems
      rw [← hitems, List.mem_flatMap] at hm
      obtain ⟨v, hvm, hm⟩ := hm
      obtain ⟨v, hv0, rfl⟩ := List.mem_map.1 hvm
      obtain ⟨ev, hev, heq⟩ := List.mem_map.1 hm
      cases heq
      obtain ⟨h5, h6, -⟩ := (hall.1 (.vote v)).2 ⟨v, hv0, rfl⟩
      exact ⟨tr, h1, v, h5, h6, ev, hev, ds, hxe, hsh⟩
    · cases hl; cases hx
  · cases hl; cases hx

/-- At the end of voting a trustee's node submits a partial decryption of every encrypted vote. -/
theorem votingEnd_reacts (hN : Nodes N K e sk) (hR : Run N e sk run key) (hV : View N e sk run key S) (hcfg : e.mixConfig = none) (hcon : e.contests ≠ []) (rng : Rng)
    {tr : Trustee} (htr : tr ∈ e.getFullTrustees) {s : Signed VotingEndTx} (ht : s.tx.election = e.id) (hF : Filled e S .keyGenShare) :
    ∃ l, generateTransactions N rng (sk tr.index) S (.votingEnd s) = .ok l ∧
      ∀ v : Signed VoteTx, InStore S (.vote v) → v.tx.id.electionId = e.id.electionId → ∀ ev ∈ v.tx.encryptedVotes, ∃ ds, SharesOf N run tr ev.selections ds ∧
        partialTx N e sk tr v.tx.id 0 ev.contestIndex ds ∈ l := by
  obtain ⟨esig, hel⟩ := getElection_at hV.election
  obtain ⟨con, cons, hcon⟩ := List.exists_cons_of_ne_nil hcon
  obtain ⟨votes, -, hv, -, hall⟩ := getAll_votes hV.lawful hV.typed e
  simp only [generateTransactions, processVotingEnd, ht, hel, v_ok, Res.bind_def, Res.ok_bind, hN.reactor_of htr, hcfg, hcon]
  obtain ⟨l, hl, hall'⟩ := hV.partials_made hN hR rng htr hF (con := con.index) (mt := none) (by simp only [partialItems, hv, Res.bind_def, Res.ok_bind, Res.pure_def]; rfl)
  refine ⟨l, hl, fun v hvs hf ev hev => hall' _ _ _ _ ?_⟩
  have hvm : v ∈ votes := by
    obtain ⟨v', h5, h6⟩ := (hall.1 (.vote v)).1 ⟨hvs, hf, hV.typed _ hvs⟩
    cases h6
    exact h5
  rw [List.mem_flatMap]
  exact ⟨v.tx, List.mem_map_of_mem hvm, List.mem_map_of_mem hev⟩

/-- In an election without mixnet nodes submit partial decryptions only at the end of voting. -/
theorem partial_follows (hS : Lawful S) (he : ElectionAt S e.id e) (hcfg : e.mixConfig = none) {rng : Rng} {k : SecretKey} {x : SignedTx} (hx : InStore S x) (hxe : electionOf x = e.id)
    {l : List SignedTx} (h : generateTransactions N rng k S x = .ok l) {d : SignedTx} (hd : d ∈ l) (hk : kindOf d = .partialDecryption) : ∃ s, x = .votingEnd s := by
  obtain ⟨-, -, hfol⟩ := emitted hS hx h hd
  rw [hk] at hfol
  cases x with
  | votingEnd s => exact ⟨s, rfl⟩
  | mix s =>
    exfalso
    obtain ⟨esig, hel⟩ := getElection_at he
    have hxe : s.tx.electionId = e.id := hxe
    simp only [generateTransactions, processMix, hxe, hel, v_ok, Res.bind_def, Res.ok_bind, hcfg] at h
    split at h
    · cases h; cases hd
    · cases h; cases hd
  | _ => simp [follows, kindOf] at hfol

/-- A public key is posted only after all shares. -/
theorem publicKey_follows (hN : Nodes N K e sk) (hV : View N e sk run key S) {rng : Rng} {k : SecretKey} {x : SignedTx} (hx : InStore S x) (hxe : electionOf x = e.id)
    {l : List SignedTx} (h : generateTransactions N rng k S x = .ok l) {d : SignedTx} (hd : d ∈ l) (hk : kindOf d = .keyGenPublicKey) : Filled e S .keyGenShare := by
  obtain ⟨-, -, hfol⟩ := emitted hV.lawful hx h hd
  rw [hk] at hfol
  cases x with
  | keyGenShare s =>
    obtain ⟨esig, hel⟩ := getElection_at hV.election
    obtain ⟨ss, hss, hlen', -⟩ := hV.shares hN
    have hxe : s.tx.election = e.id := hxe
    simp only [generateTransactions, processKeygenShare, hxe, hel, v_ok, Res.bind_def, Res.ok_bind, hss] at h
    split at h
    · split at h
      · cases h; cases hd
      · rename_i hc
        exact hlen'.1 (not_not.1 hc)
    · cases h; cases hd
  | _ => simp [follows, kindOf] at hfol

end Setup
end CB
