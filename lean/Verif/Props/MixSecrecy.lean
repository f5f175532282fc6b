import Mathlib.Algebra.Field.ZMod
import Mathlib.Tactic.NormNum.Prime
import Verif.Examples.Mixing
import Verif.Examples.ToyNode
import Verif.Lemmas.Mixing
/-!
# C97: mixes do not tell who cast which vote
-/

namespace CB
open Spec Server

theorem mix_same {N : NodeEnv} {key : ElGamalKey} {A A' : List (List Ciphertext)} {r r' : Bytes} {ti mi : UInt8} {c b : UInt32}
    (h : (N.shuffle (pedersenSeed ti mi c b) A'.length A' key r').map Prod.fst = (N.shuffle (pedersenSeed ti mi c b) A.length A key r).map Prod.fst) :
    ((mix N r' A' key ti mi c b).bind fun x => .ok x.1) = ((mix N r A key ti mi c b).bind fun x => .ok x.1) := by
  unfold mix
  revert h
  generalize N.shuffle (pedersenSeed ti mi c b) A'.length A' key r' = x'
  generalize N.shuffle (pedersenSeed ti mi c b) A.length A key r = x
  cases x <;> cases x' <;> simp [Except.map, Res.bind]

theorem firstMixes_same {N : NodeEnv} {rng rng' : Rng} {sk : SecretKey} {e : ElectionTx} {tr : Trustee} {key : ElGamalKey}
    (cv cv' : List (UInt32 × List (Identifier × List Ciphertext))) (k : Nat) (hl : cv'.length = cv.length)
    (h : ∀ (i : Nat) c vs, cv[i]? = some (c, vs) → ∃ vs', cv'[i]? = some (c, vs') ∧ vs'.map Prod.fst = vs.map Prod.fst ∧
      ((mix N (rng'.bytes [k + i]) (vs'.map (·.2)) key tr.index 0 c 0).bind fun x => .ok x.1) =
      ((mix N (rng.bytes [k + i]) (vs.map (·.2)) key tr.index 0 c 0).bind fun x => .ok x.1)) :
    submits (firstMixes N rng' sk e tr key k cv') = submits (firstMixes N rng sk e tr key k cv) := by
  induction cv generalizing cv' k with
  | nil =>
    rw [List.length_eq_zero_iff.1 hl]
    rfl
  | cons x cv ih =>
    cases cv' with
    | nil => cases hl
    | cons x' cv' =>
      obtain ⟨c, vs⟩ := x
      obtain ⟨c', vs'⟩ := x'
      obtain ⟨_, h0, hid, hmix⟩ := h 0 c vs rfl
      simp only [List.getElem?_cons_zero, Option.some.injEq, Prod.mk.injEq] at h0
      obtain ⟨rfl, rfl⟩ := h0
      have ih := ih cv' (k + 1) (by simpa using hl) (fun i c vs hi => by
        have := h (i + 1) c vs (by simpa using hi)
        rwa [List.getElem?_cons_succ, show k + (i + 1) = k + 1 + i by omega] at this)
      simp only [firstMixes, Res.bind_def, Res.pure_def]
      rw [show vs'.map (·.1) = vs.map (·.1) from hid]
      refine submits_mix hmix (f := fun t ss => t :: ss) fun t t' ht => ?_
      revert ih
      generalize firstMixes N rng' sk e tr key (k + 1) cv' = a'
      generalize firstMixes N rng sk e tr key (k + 1) cv = a
      cases a <;> cases a' <;> simp [submits, Res.bind, ht]

/-- changing the draws of a random number generator at the positions `[i]` -/
theorem change_draws {coins : Set Bytes} (σ : Nat → Bytes → Bytes) (hσ : ∀ i, Set.BijOn (σ i) coins coins) :
    ∃ f : Rng → Rng, Set.BijOn f (DrawsFrom coins) (DrawsFrom coins) ∧ ∀ rng i, (f rng).bytes [i] = σ i (rng.bytes [i]) := by
  let g : List Nat → Bytes → Bytes := fun p => match p with | [i] => σ i | _ => id
  have hg : ∀ p, Set.BijOn (g p) coins coins := by
    intro p
    match p with
    | [] => exact Set.bijOn_id _
    | [i] => exact hσ i
    | _ :: _ :: _ => exact Set.bijOn_id _
  refine ⟨fun rng => ⟨rng.nonce, fun p => g p (rng.bytes p)⟩, ⟨fun rng h p => (hg p).mapsTo (h p), ?_, ?_⟩, fun _ _ => rfl⟩
  · rintro ⟨n, b⟩ h ⟨n', b'⟩ h' e
    simp only [Rng.mk.injEq] at e
    obtain ⟨rfl, e⟩ := e
    congr 1
    funext p
    exact (hg p).injOn (h p) (h' p) (congrFun e p)
  · intro rng h
    have := fun p => (hg p).surjOn (h p)
    choose b h1 h2 using this
    exact ⟨⟨rng.nonce, b⟩, h1, by simp [h2]⟩

/-- and at the position `[]` -/
theorem change_draw {coins : Set Bytes} (σ : Bytes → Bytes) (hσ : Set.BijOn σ coins coins) :
    ∃ f : Rng → Rng, Set.BijOn f (DrawsFrom coins) (DrawsFrom coins) ∧ ∀ rng, (f rng).bytes [] = σ (rng.bytes []) := by
  refine ⟨fun rng => ⟨rng.nonce, fun p => σ (rng.bytes p)⟩, ⟨fun rng h p => hσ.mapsTo (h p), ?_, ?_⟩, fun _ => rfl⟩
  · rintro ⟨n, b⟩ h ⟨n', b'⟩ h' e
    simp only [Rng.mk.injEq] at e
    obtain ⟨rfl, e⟩ := e
    congr 1
    funext p
    exact hσ.injOn (h p) (h' p) (congrFun e p)
  · intro rng h
    have := fun p => hσ.surjOn (h p)
    choose b h1 h2 using this
    exact ⟨⟨rng.nonce, b⟩, h1, by simp [h2]⟩

/-- **C97** The first mixes do not tell who cast which vote: take two ledgers with the same election, the same encryption key, and the same voters, on which the same things were voted
for in each contest, but by different voters.  However a node's coins fall on the one, there are equally many coins with which it submits the very same thing on the other, apart from the
proofs. -/
theorem C97_first_mixes_hide_voters (N : NodeEnv) (Enc : ElGamalKey → Ciphertext → Bytes → Prop) (coins : Set Bytes) (size : Nat) (sk : SecretKey) (S S' : Store) (t : Signed VotingEndTx)
    (e : Signed ElectionTx) (he : S.getElection t.tx.election = .ok e) (he' : S'.getElection t.tx.election = .ok e) (hmix : e.tx.mixConfig ≠ none)
    (k : Signed EncryptionKeyTx) (hk : S.getTransaction (EncryptionKeyTx.buildId e.tx.id) = some (.encryptionKey k))
    (hk' : S'.getTransaction (EncryptionKeyTx.buildId e.tx.id) = some (.encryptionKey k)) (hN : PerfectMixing N Enc k.tx.encryptionKey coins size)
    (votes votes' : List (Signed VoteTx)) (hv : S.getMultiple e.tx.id .vote = .ok (votes.map .vote)) (hv' : S'.getMultiple e.tx.id .vote = .ok (votes'.map .vote))
    (hc : CastByOthers Enc k.tx.encryptionKey size (votes.map (·.tx)) (votes'.map (·.tx))) :
    ∃ σ : Rng → Rng, Set.BijOn σ (DrawsFrom coins) (DrawsFrom coins) ∧ ∀ rng ∈ DrawsFrom coins,
      submits (generateTransactions N (σ rng) sk S' (.votingEnd t)) = submits (generateTransactions N rng sk S (.votingEnd t)) := by
  obtain ⟨hsame, hrows⟩ := hc
  have hall : ∀ (S : Store) (votes : List (Signed VoteTx)), S.getMultiple e.tx.id .vote = .ok (votes.map .vote) →
      getAll S e.tx.id .vote SignedTx.intoVote = .ok (votes.map (·.tx)) := by
    intro S votes h
    have hm : Res.mapM' SignedTx.intoVote (votes.map .vote) = .ok votes := by
      rw [Res.mapM'_eq_ok, List.map_map]
      rfl
    simp [getAll, h, hm, v_ok, Res.bind_def, Res.ok_bind, Res.pure_def]
  have hkey : ∀ S : Store, S.getTransaction (EncryptionKeyTx.buildId e.tx.id) = some (.encryptionKey k) → encryptionKey S e.tx.id = .ok k.tx := by
    intro S h
    simp [encryptionKey, h, Res.unwrap, SignedTx.intoEncryptionKey, v_ok, Res.bind_def, Res.ok_bind, Res.pure_def]
  cases hcfg : e.tx.mixConfig with
  | none => exact absurd hcfg hmix
  | some cfg =>
  have hgen : ∀ (S : Store) (votes : List (Signed VoteTx)), S.getElection t.tx.election = .ok e → S.getTransaction (EncryptionKeyTx.buildId e.tx.id) = some (.encryptionKey k) →
      S.getMultiple e.tx.id .vote = .ok (votes.map .vote) → ∀ rng, generateTransactions N rng sk S (.votingEnd t) =
        match trusteeFromElection e.tx (N.edPublic sk) with
        | some tr => if tr.index = 1 then firstMixes N rng sk e.tx tr k.tx.encryptionKey 0 (contestVotes (votes.map (·.tx))) else .ok []
        | none => .ok [] := by
    intro S votes h1 h2 h3 rng
    simp only [generateTransactions, processVotingEnd, h1, v_ok, Res.bind_def, Res.ok_bind, hcfg, hkey S h2, hall S votes h3, Res.pure_def]
    cases trusteeFromElection e.tx (N.edPublic sk) <;> rfl
  simp only [hgen S votes he hk hv, hgen S' votes' he' hk' hv']
  cases htr : trusteeFromElection e.tx (N.edPublic sk) with
  | none => exact ⟨id, Set.bijOn_id _, fun _ _ => rfl⟩
  | some tr =>
    simp only
    by_cases hidx : tr.index = 1
    · simp only [if_pos hidx]
      have hσ : ∀ i : Nat, ∃ σ : Bytes → Bytes, Set.BijOn σ coins coins ∧ ∀ r ∈ coins, ∀ c vs, (contestVotes (votes.map (·.tx)))[i]? = some (c, vs) →
          (N.shuffle (pedersenSeed tr.index 0 c 0) (rowsOf c (votes'.map (·.tx))).length (rowsOf c (votes'.map (·.tx))) k.tx.encryptionKey (σ r)).map Prod.fst =
          (N.shuffle (pedersenSeed tr.index 0 c 0) (rowsOf c (votes.map (·.tx))).length (rowsOf c (votes.map (·.tx))) k.tx.encryptionKey r).map Prod.fst := by
        intro i
        cases hi : (contestVotes (votes.map (·.tx)))[i]? with
        | none => exact ⟨id, Set.bijOn_id _, fun _ _ _ _ h => absurd h (by simp)⟩
        | some x =>
          obtain ⟨c, vs⟩ := x
          obtain ⟨width, M, M', h1, h2, h3, h4, h5, h6⟩ := hrows c
          obtain ⟨σ, hσ, h⟩ := hN (pedersenSeed tr.index 0 c 0) width _ _ M M' h1 h2 h3 h4 h5 h6
          refine ⟨σ, hσ, fun r hr c' vs' hc' => ?_⟩
          cases hc'
          exact h r hr
      choose σ hσ hmixes using hσ
      obtain ⟨f, hf, hfd⟩ := change_draws σ hσ
      refine ⟨f, hf, fun rng hrng => ?_⟩
      refine firstMixes_same _ _ 0 (by simpa using congrArg List.length (contestVotes_keys hsame)) fun i c vs hi => ?_
      obtain ⟨vs', h1, h2, h3, h4⟩ := contestVotes_same hsame i c vs hi
      refine ⟨vs', h1, h2, ?_⟩
      rw [show vs'.map (·.2) = _ from h4, show vs.map (·.2) = _ from h3, Nat.zero_add, hfd]
      exact mix_same (hmixes i _ (hrng _) c vs hi)
    · simp only [if_neg hidx]
      exact ⟨id, Set.bijOn_id _, fun _ _ => trivial⟩

/-- **C97** Later mixes neither: what a node submits in reaction to a mix is, apart from the proof, equally likely to follow any other mix of the same votes. -/
theorem C97_later_mixes_hide_voters (N : NodeEnv) (Enc : ElGamalKey → Ciphertext → Bytes → Prop) (coins : Set Bytes) (size : Nat) (sk : SecretKey) (S S' : Store) (t t' : Signed MixTx)
    (ht : { t'.tx with mixedCiphertexts := t.tx.mixedCiphertexts, proof := t.tx.proof } = t.tx)
    (e : Signed ElectionTx) (he : S.getElection t.tx.electionId = .ok e) (he' : S'.getElection t.tx.electionId = .ok e) (hlast : e.tx.trusteesThreshold ≠ t.tx.mixIndex + 1)
    (k : Signed EncryptionKeyTx) (hk : S.getTransaction (EncryptionKeyTx.buildId e.tx.id) = some (.encryptionKey k))
    (hk' : S'.getTransaction (EncryptionKeyTx.buildId e.tx.id) = some (.encryptionKey k)) (hN : PerfectMixing N Enc k.tx.encryptionKey coins size)
    (width : Nat) (M M' : List (List Bytes)) (hs : t.tx.mixedCiphertexts.length ≤ size) (hw : width ≤ size)
    (hrow : ∀ row ∈ t.tx.mixedCiphertexts ++ t'.tx.mixedCiphertexts, row.length = width) (hM : List.Forall₂ (List.Forall₂ (Enc k.tx.encryptionKey)) t.tx.mixedCiphertexts M)
    (hM' : List.Forall₂ (List.Forall₂ (Enc k.tx.encryptionKey)) t'.tx.mixedCiphertexts M') (hperm : M.Perm M') :
    ∃ σ : Rng → Rng, Set.BijOn σ (DrawsFrom coins) (DrawsFrom coins) ∧ ∀ rng ∈ DrawsFrom coins,
      submits (generateTransactions N (σ rng) sk S' (.mix t')) = submits (generateTransactions N rng sk S (.mix t)) := by
  obtain ⟨t, sig⟩ := t
  obtain ⟨t', sig'⟩ := t'
  simp only at *
  have e1 : t'.electionId = t.electionId := by rw [← ht]
  have e2 : t'.mixIndex = t.mixIndex := by rw [← ht]
  have e3 : t'.contestIndex = t.contestIndex := by rw [← ht]
  have e4 : t'.voteIds = t.voteIds := by rw [← ht]
  have hkey : ∀ S : Store, S.getTransaction (EncryptionKeyTx.buildId e.tx.id) = some (.encryptionKey k) → encryptionKey S e.tx.id = .ok k.tx := by
    intro S h
    simp [encryptionKey, h, Res.unwrap, SignedTx.intoEncryptionKey, v_ok, Res.bind_def, Res.ok_bind, Res.pure_def]
  have hgen : ∀ (S : Store) (rng : Rng) (sig : Signature) (A : List (List Ciphertext)) (x : MixTx), S.getElection t.electionId = .ok e →
      S.getTransaction (EncryptionKeyTx.buildId e.tx.id) = some (.encryptionKey k) → x.electionId = t.electionId → x.mixIndex = t.mixIndex →
      x.contestIndex = t.contestIndex → x.voteIds = t.voteIds → x.mixedCiphertexts = A → generateTransactions N rng sk S (.mix ⟨x, sig⟩) =
        match trusteeFromElection e.tx (N.edPublic sk) with
        | some tr => match e.tx.mixConfig with
          | some _ => (N.addU8 t.mixIndex 1 : SRes UInt8).bind fun next => if e.tx.trusteesThreshold = next then producePartials N rng sk S e.tx tr t.contestIndex (some x) else
              (N.addU8 t.mixIndex 2 : SRes UInt8).bind fun next2 => if tr.index = next2 then
                (mix N (rng.bytes []) A k.tx.encryptionKey tr.index next t.contestIndex 0).bind fun r =>
                  (sign N sk (MixTx.new e.tx.id none tr next t.contestIndex 0 t.voteIds r.1 r.2)).bind fun s => .ok [.mix s]
              else .ok []
          | none => .ok []
        | none => .ok [] := by
    intro S rng sig A x h1 h2 x1 x2 x3 x4 x5
    simp only [generateTransactions, processMix, x1, x2, x3, x4, x5, h1, v_ok, Res.bind_def, Res.ok_bind, hkey S h2, Res.pure_def]
    cases trusteeFromElection e.tx (N.edPublic sk) with
    | none => rfl
    | some tr => cases e.tx.mixConfig <;> rfl
  cases htr : trusteeFromElection e.tx (N.edPublic sk) with
  | none =>
    refine ⟨id, Set.bijOn_id _, fun rng _ => ?_⟩
    rw [hgen S' _ sig' _ t' he' hk' e1 e2 e3 e4 rfl, hgen S _ sig _ t he hk rfl rfl rfl rfl rfl]
    simp only [htr]
  | some tr =>
    obtain ⟨σ, hσ, hmix⟩ := hN (pedersenSeed tr.index (t.mixIndex + 1) t.contestIndex 0) width _ _ M M' hs hw hrow hM hM' hperm
    obtain ⟨f, hf, hfd⟩ := change_draw σ hσ
    refine ⟨f, hf, fun rng hrng => ?_⟩
    rw [hgen S' _ sig' _ t' he' hk' e1 e2 e3 e4 rfl, hgen S _ sig _ t he hk rfl rfl rfl rfl rfl]
    simp only [htr]
    cases e.tx.mixConfig with
    | none => rfl
    | some cfg =>
      simp only
      unfold Env.addU8
      by_cases h1 : t.mixIndex.toNat + (1 : UInt8).toNat ≥ 256 ∧ N.overflowChecks = true
      · simp only [if_pos h1]; rfl
      · simp only [if_neg h1, Res.ok_bind, if_neg hlast]
        by_cases h2 : t.mixIndex.toNat + (2 : UInt8).toNat ≥ 256 ∧ N.overflowChecks = true
        · simp only [if_pos h2]; rfl
        · simp only [if_neg h2, Res.ok_bind]
          split
          · rw [hfd]
            exact submits_mix (mix_same (hmix _ (hrng _))) (k := (.ok () : SRes Unit)) (k' := .ok ()) (f := fun t _ => [t]) fun x x' hx => by
              simp [submits, Res.bind, hx]
          · rfl

/-- **C97** Re-encryption shuffles over threshold ElGamal, as in the textbook, make it so: over every finite field whose characteristic is above 255 and every vector space over it, they
satisfy all laws about mixing that theorems assume (the proof of a shuffle idealised), and they mix perfectly under every key. -/
theorem C97_textbook_shuffles_mix_perfectly {F G : Type} [Field F] [Finite F] [AddCommGroup G] [Module F G] [Encodable F] [Encodable G] [DecidableEq G] (P : ElGamal.Params F G)
    (hF : ∀ i j : Nat, i ≤ 255 → j ≤ 255 → (i : F) = (j : F) → i = j) (size : Nat) (B : NodeEnv) :
    MixCorrect (Mixing.node P size B) (fun m => P.extract (P.embed m) = m) (Mixing.Enc P) ∧ ShuffleWorks (Mixing.node P size B) ∧
    ShuffleSound (Mixing.node P size B).toEnv (Mixing.plain P) ∧
    (∀ (x : F) c m, Mixing.Enc P ⟨ElGamal.enc (x • P.g)⟩ c m → Mixing.plain P ⟨ElGamal.enc (x • P.g)⟩ c = m) ∧
    ∃ coins : Set Bytes, coins.Nonempty ∧ coins.Finite ∧ ∀ y : G, PerfectMixing (Mixing.node P size B) (Mixing.Enc P) ⟨ElGamal.enc y⟩ coins size :=
  ⟨Mixing.mixCorrect P size B hF, Mixing.shuffleWorks P size B, Mixing.shuffleSound P size B, fun _ _ _ h => Mixing.plain_enc P h (ElGamal.dec_enc _),
    Mixing.coins F size, ⟨_, Set.mem_range_self fun _ _ => (1, fun _ _ => 0)⟩, Mixing.coins_finite size, Mixing.perfectMixing P size B⟩

namespace Toy

instance : Fact (Nat.Prime 257) := ⟨by norm_num⟩
instance : Encodable (ZMod 257) := inferInstanceAs (Encodable (Fin 257))

/-- scalars modulo 257, the group is the field; a message is its length -/
def smallParams : ElGamal.Params (ZMod 257) (ZMod 257) where
  g := 1
  coeff _ _ := 0
  draw _ := 0
  hash _ := 0
  embed m := (m.length : ZMod 257)
  extract x := List.replicate x.val 0

/-- an encryption of the message of length `m` with factor `f` to the key 1 -/
def smallCt (f : ZMod 257) (m : Nat) : Ciphertext := ⟨ElGamal.enc (f • smallParams.g, smallParams.embed (List.replicate m 0) + f • (1 : ZMod 257))⟩

def smallVote (k : UInt8) (f : ZMod 257) (m : Nat) : Signed VoteTx := ⟨vote (key k) [auth 21 (key k)] [⟨0, [smallCt f m]⟩], sig k⟩
def smallKey : Signed EncryptionKeyTx := ⟨EncryptionKeyTx.new eid (key 1) ⟨ElGamal.enc (1 : ZMod 257)⟩, sig 1⟩
def smallLedger (votes : List (Signed VoteTx)) : MemStore := MemStore.ofList ([electionTx, .encryptionKey smallKey] ++ votes.map .vote ++ [endTx])

theorem small_enc (f : ZMod 257) (m : Nat) (hm : m ≤ 2) : Mixing.Enc smallParams ⟨ElGamal.enc (1 : ZMod 257)⟩ (smallCt f m) (List.replicate m 0) := by
  refine ⟨?_, fun y hy => ⟨f, ?_⟩⟩
  · simp only [smallParams, List.length_replicate]
    rw [ZMod.val_natCast, Nat.mod_eq_of_lt (by omega)]
  · rw [ElGamal.dec_enc, Option.some.injEq] at hy
    subst hy
    rfl

end Toy

/-- The hypotheses can be met: two voters, of whom either one voted for the first and the other for the second thing. -/
example : ((Toy.smallLedger [Toy.smallVote 31 0 1, Toy.smallVote 32 0 2]).toStore.getElection Toy.eid = .ok ⟨Toy.election, Toy.sig 1⟩ ∧
      (Toy.smallLedger [Toy.smallVote 31 7 2, Toy.smallVote 32 9 1]).toStore.getElection Toy.eid = .ok ⟨Toy.election, Toy.sig 1⟩) ∧
    ((Toy.smallLedger [Toy.smallVote 31 0 1, Toy.smallVote 32 0 2]).toStore.getTransaction (EncryptionKeyTx.buildId Toy.eid) = some (.encryptionKey Toy.smallKey) ∧
      (Toy.smallLedger [Toy.smallVote 31 7 2, Toy.smallVote 32 9 1]).toStore.getTransaction (EncryptionKeyTx.buildId Toy.eid) = some (.encryptionKey Toy.smallKey)) ∧
    ((Toy.smallLedger [Toy.smallVote 31 0 1, Toy.smallVote 32 0 2]).toStore.getMultiple Toy.eid .vote = .ok ([Toy.smallVote 31 0 1, Toy.smallVote 32 0 2].map .vote) ∧
      (Toy.smallLedger [Toy.smallVote 31 7 2, Toy.smallVote 32 9 1]).toStore.getMultiple Toy.eid .vote = .ok ([Toy.smallVote 31 7 2, Toy.smallVote 32 9 1].map .vote)) ∧
    CastByOthers (Mixing.Enc Toy.smallParams) Toy.smallKey.tx.encryptionKey 2 ([Toy.smallVote 31 0 1, Toy.smallVote 32 0 2].map (·.tx)) ([Toy.smallVote 31 7 2, Toy.smallVote 32 9 1].map (·.tx)) ∧
    PerfectMixing (Mixing.node Toy.smallParams 2 Toy.node) (Mixing.Enc Toy.smallParams) Toy.smallKey.tx.encryptionKey (Mixing.coins (ZMod 257) 2) 2 := by
  refine ⟨⟨rfl, rfl⟩, ⟨rfl, rfl⟩, ⟨rfl, rfl⟩, ⟨?_, fun c => ?_⟩, Mixing.perfectMixing _ _ _ _⟩
  · exact .cons ⟨rfl, rfl⟩ (.cons ⟨rfl, rfl⟩ .nil)
  · by_cases hc : c = 0
    · subst hc
      refine ⟨1, [[List.replicate 1 0], [List.replicate 2 0]], [[List.replicate 2 0], [List.replicate 1 0]], by decide, by decide, ?_, ?_, ?_, List.Perm.swap ..⟩
      · intro row h
        have : row ∈ [[Toy.smallCt 0 1], [Toy.smallCt 0 2], [Toy.smallCt 7 2], [Toy.smallCt 9 1]] := h
        simp only [List.mem_cons, List.not_mem_nil, or_false] at this
        rcases this with rfl | rfl | rfl | rfl <;> rfl
      · exact .cons (.cons (Toy.small_enc _ _ (by decide)) .nil) (.cons (.cons (Toy.small_enc _ _ (by decide)) .nil) .nil)
      · exact .cons (.cons (Toy.small_enc _ _ (by decide)) .nil) (.cons (.cons (Toy.small_enc _ _ (by decide)) .nil) .nil)
    · have h0 : ∀ votes : List (Signed VoteTx), (∀ v ∈ votes, ∃ ct, v.tx.encryptedVotes = [⟨0, ct⟩]) → rowsOf c (votes.map (·.tx)) = [] := by
        intro votes h
        rw [rowsOf, List.flatMap_eq_nil_iff]
        intro x hx
        obtain ⟨v, hv, rfl⟩ := List.mem_map.1 hx
        obtain ⟨ct, hct⟩ := h v hv
        rw [hct]
        simpa using fun e : (0 : UInt32) = c => hc e.symm
      refine ⟨0, [], [], ?_⟩
      rw [h0 _ (by intro v hv; simp only [List.mem_cons, List.not_mem_nil, or_false] at hv; rcases hv with rfl | rfl <;> exact ⟨_, rfl⟩),
        h0 _ (by intro v hv; simp only [List.mem_cons, List.not_mem_nil, or_false] at hv; rcases hv with rfl | rfl <;> exact ⟨_, rfl⟩)]
      simp

end CB
