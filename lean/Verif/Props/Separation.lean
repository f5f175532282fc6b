import Verif.Spec.Separation
import Verif.Lemmas.Network
import Verif.Lemmas.NetEmit
import Verif.Props.Exonum
import Verif.Examples.ToyNode
/-!
# C106: the secrets of a trustee for one election are separate from those for another
-/

namespace CB
open Spec

/-! ## Helpers -/

namespace Separation
variable {N : NodeEnv} {d : Derivation} {el : Identifier}

theorem bind_eq {ε α β : Type} {x y : Res ε α} {f g : α → Res ε β} (hx : x = y) (hf : ∀ a, f a = g a) : x.bind f = y.bind g := by rw [hx, funext hf]

theorem sharedSecret_eq (h : SameSecretsFor el d N.hkdf) (sk : SecretKey) (x : X25519Pub) :
    Trustee.sharedSecret (derivingBy N d) sk el x = Trustee.sharedSecret N sk el x := by
  have e1 : Trustee.x25519Secret (derivingBy N d) sk el = Trustee.x25519Secret N sk el := h _ _
  show d el.toArray (N.x25519Dh (Trustee.x25519Secret (derivingBy N d) sk el) x).val _ = _
  rw [e1, h]
  rfl

theorem x25519Key_eq (h : SameSecretsFor el d N.hkdf) (sk : SecretKey) : Trustee.x25519Key (derivingBy N d) sk el = Trustee.x25519Key N sk el := by
  have e1 : Trustee.x25519Secret (derivingBy N d) sk el = Trustee.x25519Secret N sk el := h _ _
  show N.x25519Public _ = N.x25519Public _
  rw [e1]

theorem generator_eq (h : SameSecretsFor el d N.hkdf) (t : Trustee) (sk : SecretKey) : (t.generator (derivingBy N d) sk el : N.Gen) = t.generator N sk el := by
  show N.genNew (d _ _ _) _ _ _ = N.genNew (N.hkdf _ _ _) _ _ _
  rw [h]

theorem receiveCommitments_eq {ε : Type} (l : List (UInt8 × KeygenCommitment)) : ∀ g : N.Gen,
    (Trustee.receiveCommitments (derivingBy N d) g l : Res ε N.Gen) = Trustee.receiveCommitments N g l := by
  induction l with
  | nil => intro g; rfl
  | cons a l ih =>
    obtain ⟨i, c⟩ := a
    intro g
    exact bind_eq (α := N.Gen) rfl ih

theorem receiveShares_eq {ε : Type} (l : List (UInt8 × Scalar)) : ∀ g : N.Gen,
    (Trustee.receiveShares (derivingBy N d) g l : Res ε N.Gen) = Trustee.receiveShares N g l := by
  induction l with
  | nil => intro g; rfl
  | cons a l ih =>
    obtain ⟨i, c⟩ := a
    intro g
    exact bind_eq (α := N.Gen) rfl ih

theorem encryptShares_eq {ε : Type} (h : SameSecretsFor el d N.hkdf) (rng : Rng) (sk : SecretKey) (g : N.Gen) (l : List (UInt8 × X25519Pub)) :
    ∀ (k : Nat) (m : IndexMap UInt8 EncryptedShare),
      (Trustee.encryptShares (derivingBy N d) rng sk el g k m l : Res ε _) = Trustee.encryptShares N rng sk el g k m l := by
  induction l with
  | nil => intro k m; rfl
  | cons a l ih =>
    obtain ⟨i, key⟩ := a
    intro k m
    simp only [Trustee.encryptShares]
    refine congrArg _ (funext fun share => ?_)
    rw [ih, sharedSecret_eq h]
    rfl

theorem generateShares_eq {ε : Type} (h : SameSecretsFor el d N.hkdf) (t : Trustee) (rng : Rng) (sk : SecretKey) (keys : List (UInt8 × X25519Pub))
    (cs : List (UInt8 × KeygenCommitment)) :
    (t.generateShares (derivingBy N d) rng sk keys el cs : Res ε _) = t.generateShares N rng sk keys el cs := by
  have e1 : (Trustee.receiveCommitments (derivingBy N d) (t.generator (derivingBy N d) sk el) cs : Res ε N.Gen) =
      Trustee.receiveCommitments N (t.generator N sk el) cs := (receiveCommitments_eq cs _).trans (by rw [generator_eq h])
  exact bind_eq (α := N.Gen) e1 fun g => encryptShares_eq h rng sk g keys 0 _

theorem decryptShares_eq (h : SameSecretsFor el d N.hkdf) (sk : SecretKey) (keys : List (UInt8 × X25519Pub)) (shares : List (UInt8 × EncryptedShare)) :
    Trustee.decryptShares (derivingBy N d) sk keys el shares = Trustee.decryptShares N sk keys el shares := by
  unfold Trustee.decryptShares
  simp only [sharedSecret_eq h]
  rfl

theorem generateParty_eq (h : SameSecretsFor el d N.hkdf) (t : Trustee) (sk : SecretKey) (cs : List (UInt8 × KeygenCommitment)) (ss : List (UInt8 × Scalar)) :
    (t.generateParty (derivingBy N d) sk cs ss el : VRes N.Party) = t.generateParty N sk cs ss el := by
  have e1 : (Trustee.receiveCommitments (derivingBy N d) (t.generator (derivingBy N d) sk el) cs : VRes N.Gen) =
      Trustee.receiveCommitments N (t.generator N sk el) cs := (receiveCommitments_eq cs _).trans (by rw [generator_eq h])
  exact bind_eq (α := N.Gen) e1 fun g => bind_eq (α := N.Gen) (receiveShares_eq ss g) fun _ => rfl

theorem party_eq (h : SameSecretsFor el d N.hkdf) (t : Trustee) (sk : SecretKey) (keys : List (UInt8 × X25519Pub)) (cs : List (UInt8 × KeygenCommitment))
    (ss : List (UInt8 × EncryptedShare)) : (t.party (derivingBy N d) sk keys cs ss el : VRes N.Party) = t.party N sk keys cs ss el := by
  exact bind_eq (decryptShares_eq h sk keys ss) fun x => generateParty_eq h t sk cs x

theorem generatePublicKey_eq (h : SameSecretsFor el d N.hkdf) (t : Trustee) (sk : SecretKey) (keys : List (UInt8 × X25519Pub)) (cs : List (UInt8 × KeygenCommitment))
    (ss : List (UInt8 × EncryptedShare)) : t.generatePublicKey (derivingBy N d) sk keys cs ss el = t.generatePublicKey N sk keys cs ss el := by
  exact bind_eq (α := N.Party) (party_eq h t sk keys cs ss) fun _ => rfl

theorem partialDecrypt_eq (h : SameSecretsFor el d N.hkdf) (t : Trustee) (r : Bytes) (sk : SecretKey) (keys : List (UInt8 × X25519Pub))
    (cs : List (UInt8 × KeygenCommitment)) (ss : List (UInt8 × EncryptedShare)) (c : Ciphertext) :
    t.partialDecrypt (derivingBy N d) r sk keys cs ss c el = t.partialDecrypt N r sk keys cs ss c el := by
  exact bind_eq (α := N.Party) (party_eq h t sk keys cs ss) fun _ => rfl

theorem itemShares_eq (h : SameSecretsFor el d N.hkdf) (rng : Rng) (sk : SecretKey) (t : Trustee) (keys : List (UInt8 × X25519Pub))
    (cs : List (UInt8 × KeygenCommitment)) (ss : List (UInt8 × EncryptedShare)) (pos : List Nat) (l : List Ciphertext) : ∀ k,
    Server.itemShares (derivingBy N d) rng sk t keys cs ss el pos k l = Server.itemShares N rng sk t keys cs ss el pos k l := by
  induction l with
  | nil => intro k; rfl
  | cons c l ih => intro k; simp only [Server.itemShares, partialDecrypt_eq h, ih]

theorem partialsFrom_eq {e : ElectionTx} (h : SameSecretsFor e.id d N.hkdf) (rng : Rng) (sk : SecretKey) (t : Trustee) (keys : List (UInt8 × X25519Pub))
    (cs : List (UInt8 × KeygenCommitment)) (ss : List (UInt8 × EncryptedShare)) (l : List (Identifier × UInt16 × UInt32 × List Ciphertext)) : ∀ i,
    Server.partialsFrom (derivingBy N d) rng sk e t keys cs ss i l = Server.partialsFrom N rng sk e t keys cs ss i l := by
  induction l with
  | nil => intro i; rfl
  | cons a l ih =>
    obtain ⟨up, n, c, cts⟩ := a
    intro i
    simp only [Server.partialsFrom, itemShares_eq h, ih]
    rfl

theorem producePartials_eq {e : ElectionTx} (h : SameSecretsFor e.id d N.hkdf) (rng : Rng) (sk : SecretKey) (S : Store) (t : Trustee) (c : UInt32) (m : Option MixTx) :
    Server.producePartials (derivingBy N d) rng sk S e t c m = Server.producePartials N rng sk S e t c m := by
  simp only [Server.producePartials, partialsFrom_eq h]

theorem firstMixes_eq (rng : Rng) (sk : SecretKey) (e : ElectionTx) (t : Trustee) (key : ElGamalKey) (l : List (UInt32 × List (Identifier × List Ciphertext))) : ∀ k,
    Server.firstMixes (derivingBy N d) rng sk e t key k l = Server.firstMixes N rng sk e t key k l := by
  induction l with
  | nil => intro k; rfl
  | cons a l ih =>
    obtain ⟨c, votes⟩ := a
    intro k
    simp only [Server.firstMixes, ih]
    rfl

/-- a step that first looks the election up -/
theorem withElection_eq {α : Type} {S : Store} {id : Identifier} {f g : Signed ElectionTx → Server.SRes α}
    (h : ∀ e, S.getTransaction id = some (.election e) → f e = g e) : (Server.v (S.getElection id)).bind f = (Server.v (S.getElection id)).bind g := by
  unfold Store.getElection
  split
  · rename_i e he
    exact h e he
  · rfl

/-- the reaction to a transaction uses the secrets of the election that it names -/
theorem generateTransactions_eq (rng : Rng) (sk : SecretKey) (S : Store) (t : SignedTx)
    (h0 : ∀ s, t = .election s → SameSecretsFor s.tx.id d N.hkdf)
    (h : ∀ s, S.getTransaction (electionOf t) = some (.election s) → SameSecretsFor s.tx.id d N.hkdf) :
    Server.generateTransactions (derivingBy N d) rng sk S t = Server.generateTransactions N rng sk S t := by
  cases t with
  | election s =>
    have hs := h0 s rfl
    show Server.processElection (derivingBy N d) sk s.tx = Server.processElection N sk s.tx
    have e1 : ∀ t : Trustee, t.keygenCommitment (derivingBy N d) sk s.tx.id = t.keygenCommitment N sk s.tx.id := fun t => by
      show N.genCommitment _ = N.genCommitment _
      rw [generator_eq hs]
    simp only [Server.processElection, x25519Key_eq hs, e1]
    rfl
  | keyGenCommitment s =>
    refine withElection_eq fun e he => ?_
    have hs := h e he
    simp only [generateShares_eq hs]
    rfl
  | keyGenShare s =>
    refine withElection_eq fun e he => ?_
    have hs := h e he
    simp only [generatePublicKey_eq hs]
    rfl
  | keyGenPublicKey s => rfl
  | encryptionKey s => rfl
  | vote s => rfl
  | votingEnd s =>
    refine withElection_eq fun e he => ?_
    have hs := h e he
    simp only [producePartials_eq hs, firstMixes_eq]
    rfl
  | mix s =>
    refine withElection_eq fun e he => ?_
    have hs := h e he
    simp only [producePartials_eq hs]
    rfl
  | partialDecryption s => rfl
  | decryption s => rfl

end Separation

/-! ## C106 -/

/-- **C106** (other elections) What a trustee's node publishes when a transaction is committed depends on no secrets but those that it derives for the election which the transaction names. -/
theorem C106_other_secrets_are_not_used (E : Env) (m : MemStore) (hm : Ledger E m) (N : NodeEnv) (derive : Derivation) (rng : Rng) (sk : SecretKey) (t : SignedTx)
    (h : SameSecretsFor (electionOf t) derive N.hkdf) :
    Server.generateTransactions (derivingBy N derive) rng sk m.toStore t = Server.generateTransactions N rng sk m.toStore t := by
  refine Separation.generateTransactions_eq rng sk m.toStore t (fun s hs => ?_) fun s hs => ?_
  · subst hs
    exact h
  · have : s.tx.id = electionOf t := MemStore.get_id hm.replay.wf hs
    rw [this]
    exact h

/-- In the sample election the secrets for another election do not matter, and those for the election do. -/
example : (∃ derive : Derivation, ¬ SameSecretsFor Toy.eid2 derive Toy.node.hkdf ∧ SameSecretsFor (electionOf Toy.electionTx) derive Toy.node.hkdf) ∧
    (∃ c, Server.generateTransactions Toy.node Toy.rng (Toy.key 11) (MemStore.ofList Toy.nodeElection).toStore Toy.electionTx = .ok [.keyGenCommitment c]) ∧
    Server.generateTransactions (derivingBy Toy.node fun _ _ _ => BArr.fill 32 9) Toy.rng (Toy.key 11) (MemStore.ofList Toy.nodeElection).toStore Toy.electionTx ≠
      Server.generateTransactions Toy.node Toy.rng (Toy.key 11) (MemStore.ofList Toy.nodeElection).toStore Toy.electionTx := by
  refine ⟨⟨fun salt material purpose => if salt = Toy.eid.toArray then Toy.node.hkdf salt material purpose else BArr.fill 32 9, fun h => ?_, fun material purpose => if_pos rfl⟩, ⟨_, rfl⟩, fun h => ?_⟩
  · exact absurd (congrArg Subtype.val (h [] [])) (by decide)
  · have h1 := congrArg (fun r => (Toy.txs r).map fun | .keyGenCommitment c => c.tx.x25519PublicKey.val | _ => []) h
    exact absurd h1 (by decide)

/-- **C106** (whole histories) In every history of a network: the secrets for elections that are not on the ledger are not used. -/
theorem C106_histories_use_their_own_secrets (N : NodeEnv) (derive : Derivation) (events : List Server.Event)
    (h : ∀ e, .election e ∈ (Server.Network.run N events).ledger → SameSecretsFor e.tx.id derive N.hkdf) :
    Server.Network.run (derivingBy N derive) events = Server.Network.run N events := by
  induction events using List.reverseRecOn with
  | nil => rfl
  | append_singleton evs ev ih =>
    rw [Server.Network.run_append] at h
    have hp : ∀ e, .election e ∈ (Server.Network.run N evs).ledger → SameSecretsFor e.tx.id derive N.hkdf := fun e he =>
      h e ((Server.Network.ledger_prefix N _ ev).subset he)
    rw [Server.Network.run_append, Server.Network.run_append, ih hp]
    generalize hs : Server.Network.run N evs = s at hp
    have hsound : Server.Network.Sound N.toEnv s.ledger := hs ▸ Server.Network.sound_run N evs
    cases ev with
    | submit t => rfl
    | deliver i => rfl
    | react k rng p view =>
      simp only [Server.Network.step]
      cases ht : (s.ledger.take view)[p]? with
      | none => rfl
      | some t =>
        have hmem : t ∈ s.ledger := List.mem_of_mem_take (List.mem_of_getElem? ht)
        have hn : ((s.ledger.take view).map SignedTx.id).Nodup := List.Nodup.sublist ((List.take_sublist _ _).map _) hsound.nodup
        have heq : Server.generateTransactions (derivingBy N derive) rng k (s.storeAt view).toStore t =
            Server.generateTransactions N rng k (s.storeAt view).toStore t := by
          refine Separation.generateTransactions_eq rng k _ t (fun x hx => hp x (hx ▸ hmem)) fun x hx => hp x ?_
          exact List.mem_of_mem_take ((Server.Network.get_some hn).1 hx).1
        simp only [heq]

/-- A history in which an election is announced and the first trustee's node reacts. -/
example : (∃ e, .election e ∈ (Server.Network.run Toy.node [.submit Toy.electionTx, .deliver 0, .react (Toy.key 11) Toy.rng 0 1]).ledger) ∧
    (Server.Network.run Toy.node [.submit Toy.electionTx, .deliver 0, .react (Toy.key 11) Toy.rng 0 1]).pending.length = 1 := by
  constructor
  · refine ⟨⟨Toy.election, Toy.sig 1⟩, ?_⟩
    have : (Server.Network.run Toy.node [.submit Toy.electionTx, .deliver 0, .react (Toy.key 11) Toy.rng 0 1]).ledger = [Toy.electionTx] := rfl
    rw [this]
    exact List.mem_singleton.2 rfl
  · decide +kernel

/-- **C106** (independence) The secrets that trustees derive — for each trustee and election the secret of its key exchange and that of its polynomial, and for each election the key that follows from
two trustees' exchange — can be any values whatever: none of them tells anything about another, unless HKDF does. -/
theorem C106_secrets_are_independent (N : NodeEnv) (exchange polynomial : SecretKey → Identifier → BArr 32) (channel : Identifier → BArr 32 → BArr 32) :
    ∃ derive : Derivation, ∀ (sk : SecretKey) (election : Identifier),
      Trustee.x25519Key (derivingBy N derive) sk election = N.x25519Public (exchange sk election) ∧
      (∀ t : Trustee, t.keygenCommitment (derivingBy N derive) sk election =
        N.genCommitment (N.genNew (polynomial sk election) t.index.toNat t.threshold.toNat t.numTrustees)) ∧
      ∀ peer, Trustee.sharedSecret (derivingBy N derive) sk election peer = channel election (N.x25519Dh (exchange sk election) peer) := by
  classical
  let derive : Derivation := fun salt material purpose =>
    if h : ∃ el : Identifier, el.toArray = salt then
      if hm : material.length = 32 then
        if purpose = str "cryptoballot_trustee_x25519_secret_key" then exchange ⟨material, hm⟩ h.choose
        else if purpose = str "cryptoballot_trustee_generator" then polynomial ⟨material, hm⟩ h.choose
        else channel h.choose ⟨material, hm⟩
      else BArr.fill 32 0
    else BArr.fill 32 0
  have hd : ∀ (el : Identifier) (k : BArr 32) (purpose : Bytes), derive el.toArray k.val purpose =
      if purpose = str "cryptoballot_trustee_x25519_secret_key" then exchange k el
      else if purpose = str "cryptoballot_trustee_generator" then polynomial k el else channel el k := by
    intro el k purpose
    have h : ∃ el' : Identifier, el'.toArray = el.toArray := ⟨el, rfl⟩
    have hc : h.choose = el := Identifier.toArray_injective h.choose_spec
    simp only [derive]
    rw [dif_pos h, dif_pos k.property, hc]
  have h1 : ∀ sk el, Trustee.x25519Secret (derivingBy N derive) sk el = exchange sk el := fun sk el => by
    show derive el.toArray sk.val _ = _
    rw [hd, if_pos rfl]
  refine ⟨derive, fun sk el => ⟨?_, fun t => ?_, fun peer => ?_⟩⟩
  · show N.x25519Public (Trustee.x25519Secret (derivingBy N derive) sk el) = _
    rw [h1]
  · show N.genCommitment (N.genNew (derive el.toArray sk.val (str "cryptoballot_trustee_generator")) _ _ _) = _
    rw [hd, if_neg (by decide), if_pos rfl]
  · show derive el.toArray (N.x25519Dh (Trustee.x25519Secret (derivingBy N derive) sk el) peer).val (str "cryptoballot_trustee_shared_secret") = _
    rw [h1, hd, if_neg (by decide), if_neg (by decide)]

/-- **C106 (partial)** (on the blockchain) As `C106_other_secrets_are_not_used`, for the ledger of the blockchain, if all submissions are labelled with the id of what they carry. -/
theorem C106_blockchain_uses_own_secrets_partial (N : NodeEnv) (l : List Exonum.Envelope) (hl : ∀ e ∈ l, Labelled e) (derive : Derivation) (rng : Rng) (sk : SecretKey) (t : SignedTx)
    (h : SameSecretsFor (electionOf t) derive N.hkdf) :
    Server.generateTransactions (derivingBy N derive) rng sk (Exonum.toStore (Exonum.deliverAll N.toEnv OMap.empty l)) t =
      Server.generateTransactions N rng sk (Exonum.toStore (Exonum.deliverAll N.toEnv OMap.empty l)) t := by
  refine Separation.generateTransactions_eq rng sk _ t (fun s hs => ?_) fun s hs => ?_
  · subst hs
    exact h
  · have : s.tx.id = electionOf t := Server.electionAt_id (Exonum.lawful (Exonum.wf_deliverAll hl)) ⟨s.sig, hs⟩
    rw [this]
    exact h

/-- **C106 (partial)** (one polynomial) If every transaction is filed under its own id: whenever and on whatever part of the ledger a trustee's node reacts, it commits itself to one polynomial per election. -/
theorem C106_one_commitment_per_election_partial (E : Env) (m view view' : MemStore) (hv : Ledger E view) (hv' : Ledger E view') (hx : Extends view m)
    (hx' : Extends view' m) (N : NodeEnv) (sk : SecretKey) (rng rng' : Rng) (t t' : SignedTx) (ht : InStore view.toStore t) (ht' : InStore view'.toStore t')
    (out out' : List SignedTx) (h : Server.generateTransactions N rng sk view.toStore t = .ok out) (h' : Server.generateTransactions N rng' sk view'.toStore t' = .ok out')
    (c c' : Signed KeyGenCommitmentTx) (hc : .keyGenCommitment c ∈ out) (hc' : .keyGenCommitment c' ∈ out') (he : c.tx.election = c'.tx.election) : c = c' := by
  have h1 := Setup.emitted hv.lawful ht h hc
  have h2 := Setup.emitted hv'.lawful ht' h' hc'
  obtain ⟨h3, -⟩ := Setup.emitted_own hv.lawful ht h hc (by simp [SetupKind, kindOf])
  obtain ⟨h4, -⟩ := Setup.emitted_own hv'.lawful ht' h' hc' (by simp [SetupKind, kindOf])
  have hk : ∀ x : SignedTx, (kindOf x, TxType.keyGenCommitment) ∈ Setup.follows → ∃ s, x = .election s := by
    intro x hx
    cases x <;> simp [Setup.follows, kindOf] at hx ⊢
  obtain ⟨s, rfl⟩ := hk t h1.2.2
  obtain ⟨s', rfl⟩ := hk t' h2.2.2
  have hid : s.tx.id = s'.tx.id := h3.symm.trans (he.trans h4)
  have a : m.getTransaction s.tx.id = some (.election s) := hx _ _ ht
  have b : m.getTransaction s'.tx.id = some (.election s') := hx' _ _ ht'
  rw [hid, b] at a
  cases a
  have : out = out' := Res.ok.inj (h.symm.trans h')
  subst this
  simp only [Server.generateTransactions, Server.processElection] at h
  split at h
  · simp only [Res.bind_def, Res.bind_eq_ok] at h
    obtain ⟨x, -, h⟩ := h
    cases h
    rw [List.mem_singleton] at hc hc'
    rw [SignedTx.keyGenCommitment.injEq] at hc hc'
    exact hc.trans hc'.symm
  · cases h
    cases hc

/-- In the sample election the first trustee's node reacts with a commitment. -/
example : ∃ c, Server.generateTransactions Toy.node Toy.rng (Toy.key 11) (MemStore.ofList Toy.nodeElection).toStore Toy.electionTx = .ok [.keyGenCommitment c] ∧
    InStore (MemStore.ofList Toy.nodeElection).toStore Toy.electionTx := ⟨_, rfl, rfl⟩

/-! ### The witness -/

namespace Separation

/-- the node of the examples, except that commitments tell the threshold -/
def node : NodeEnv := { Toy.node with genNew := fun _ _ t _ => t, genCommitment := fun g => ⟨List.replicate g 1⟩ }

/-- what somebody else, with key 5, makes of the election: the same id and trustees, another threshold -/
def impostor : Signed ElectionTx := ⟨{ Toy.election with authorityPublic := Toy.key 5, trusteesThreshold := 1 }, Toy.sig 5⟩

/-- the election, and the other under a label of its own -/
def submitted : List Exonum.Envelope := [Exonum.Envelope.ofTx Toy.electionTx, { Exonum.Envelope.ofTx (.election impostor) with id := Toy.eid2.toString }]

theorem getTransaction_of_get {s : Exonum.Schema} {i : Identifier} {e : Exonum.Envelope} {t : SignedTx} (h : s.get i.toString = some e) (ht : SignedTx.fromBytes e.data = .ok t) :
    (Exonum.toStore s).getTransaction i = some t := by
  simp only [Exonum.toStore, Exonum.getTransaction, h, Exonum.Envelope.decoded, ht]

/-- the commitment of the first trustee's node, given the threshold -/
def commitment (n : Nat) : Signed KeyGenCommitmentTx := ⟨KeyGenCommitmentTx.new Toy.eid 1 (Toy.key 11) (Toy.key 11) ⟨List.replicate n 1⟩, Toy.sig 11⟩

end Separation

/-- **C106 (one polynomial) is false of the code**: on the blockchain anybody can file a changed copy of an election under another id, and trustees' nodes then publish a second commitment for the
election, made of the same secret with a threshold that the stranger has chosen. -/
theorem C106_one_commitment_per_election_false : ∃ (N : NodeEnv) (l : List Exonum.Envelope) (sk : SecretKey) (id id' : Identifier) (t t' : SignedTx) (c c' : Signed KeyGenCommitmentTx),
    ∀ S, S = Exonum.toStore (Exonum.deliverAll N.toEnv OMap.empty l) →
    S.getTransaction id = some t ∧ S.getTransaction id' = some t' ∧ (∀ rng, Server.generateTransactions N rng sk S t = .ok [.keyGenCommitment c]) ∧
    (∀ rng, Server.generateTransactions N rng sk S t' = .ok [.keyGenCommitment c']) ∧ c.tx.election = c'.tx.election ∧ c.tx.commitment ≠ c'.tx.commitment := by
  refine ⟨Separation.node, Separation.submitted, Toy.key 11, Toy.eid, Toy.eid2, Toy.electionTx, .election Separation.impostor, Separation.commitment 2, Separation.commitment 1, ?_⟩
  rintro S rfl
  have hr1 : SignedTx.fromBytes (Exonum.Envelope.ofTx Toy.electionTx).data = .ok Toy.electionTx :=
    (Exonum.C37_envelope_roundtrip Toy.electionTx (toy_rustData _ (List.mem_of_getElem? (i := 0) rfl))).1
  have hr2 : SignedTx.fromBytes (Exonum.Envelope.ofTx (.election Separation.impostor)).data = .ok (.election Separation.impostor) :=
    (Exonum.C37_envelope_roundtrip (.election Separation.impostor) (fits_of_check _ _ (by decide +kernel))).1
  have hg : ∀ k ∈ [Toy.eid.toString, Toy.eid2.toString], ((Exonum.deliverAll Separation.node.toEnv OMap.empty Separation.submitted).get k).isSome = true := by decide +kernel
  have hne : Toy.eid.toString ≠ Toy.eid2.toString := by decide +kernel
  have key : ∀ (i : Identifier) (t : SignedTx) (e : Exonum.Envelope), i.toString ∈ [Toy.eid.toString, Toy.eid2.toString] →
      (∀ x ∈ Separation.submitted, x.id = i.toString → x = e) → SignedTx.fromBytes e.data = .ok t →
      (Exonum.toStore (Exonum.deliverAll Separation.node.toEnv OMap.empty Separation.submitted)).getTransaction i = some t := by
    intro i t e hi hx ht
    obtain ⟨e', he'⟩ := Option.isSome_iff_exists.1 (hg _ hi)
    obtain ⟨hid, t', b, a, ht', hs, -⟩ := Exonum.C36_stored_was_validated _ _ _ _ he'
    obtain rfl := hx e' (by rw [hs]; simp) hid
    exact Separation.getTransaction_of_get he' ht
  refine ⟨key Toy.eid _ _ (by simp) ?_ hr1, key Toy.eid2 _ { Exonum.Envelope.ofTx (.election Separation.impostor) with id := Toy.eid2.toString } (by simp) ?_ hr2, fun _ => ?_, fun _ => ?_,
    rfl, by decide⟩
  · intro x hx hxi
    simp only [Separation.submitted, List.mem_cons, List.not_mem_nil, or_false] at hx
    rcases hx with rfl | rfl
    · rfl
    · exact absurd hxi.symm hne
  · intro x hx hxi
    simp only [Separation.submitted, List.mem_cons, List.not_mem_nil, or_false] at hx
    rcases hx with rfl | rfl
    · exact absurd hxi hne
    · rfl
  · rfl
  · rfl

end CB
