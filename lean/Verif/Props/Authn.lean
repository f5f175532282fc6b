import Verif.Lemmas.IndexMap
import Verif.Props.Voting
import Verif.Lemmas.SerdeFits
import Verif.Spec.Laws
import Verif.Examples.ToyNode
/-!
# C51: blind authentication
-/

namespace CB
open Spec

/-- The whole exchange between a voter and an authenticator (authn.rs tests, README): the voter blinds the package, the authenticator signs the blinded
digest with the secret, the voter unblinds. -/
def Spec.exchange (N : NodeEnv) (au : Authenticator) (secret : RsaPrivateKey) (p : AuthPackage) (r r' : Bytes) : VRes Authentication := do
  let (blinded, unblinder) ← p.blind N (N.rsaPublic secret) r
  let auth ← au.authenticate N secret blinded r'
  pure (auth.unblind N (N.rsaPublic secret) unblinder)

/-- The package a voter has signed is the CBOR map of the election id, the ballot id and the key. -/
theorem authPackage_message (p : AuthPackage) : p.pack = authMessage p.electionId p.ballotId p.anonymousKey := rfl

/-- **C51** For every voter package, every authenticator holding the public key of `secret` for that ballot, and all randomness: blinding, signing and unblinding
succeed, and the resulting signature is accepted for that election, ballot and key and names the authenticator.  (The package must hash at all: `hash_message`
does not fail.) -/
theorem C51_blind_authentication (N : NodeEnv) (hN : BlindSignatures N) (au : Authenticator) (secret : RsaPrivateKey) (p : AuthPackage) (r r' : Bytes)
    (hkey : au.publicKeys.get p.ballotId = some (N.rsaPublic secret))
    (hd : (N.rsaDigest (N.rsaPublic secret) (authMessage p.electionId p.ballotId p.anonymousKey)).isSome) :
    ∃ a, exchange N au secret p r r' = .ok a ∧ a.authenticator = au.id ∧
      au.verify N.toEnv p.electionId p.ballotId p.anonymousKey a.signature = .ok () := by
  obtain ⟨d, hd⟩ := Option.isSome_iff_exists.1 hd
  obtain ⟨sig, h1, h2⟩ := hN secret _ d r r' hd
  refine ⟨⟨au.id, _⟩, ?_, rfl, Authenticator.verify_ok.2 ⟨_, d, hkey, hd, h2⟩⟩
  have hd' : p.digest N.toEnv (N.rsaPublic secret) = .ok d := by
    unfold AuthPackage.digest
    rw [authPackage_message, hd]
    rfl
  simp only [exchange, AuthPackage.blind, hd', Res.bind_def, Res.ok_bind, Res.pure_def, Authenticator.authenticate, h1, Res.unwrap]
  rfl

/-- **C51** The voter can use such an authentication in a vote: it is a genuine authentication by an authenticator of the election. -/
theorem C51_authentication_genuine (N : NodeEnv) (hN : BlindSignatures N) (e : ElectionTx) (au : Authenticator) (hau : au ∈ e.authenticators)
    (secret : RsaPrivateKey) (ballot : Str) (key : PublicKey) (r r' : Bytes) (hkey : au.publicKeys.get ballot = some (N.rsaPublic secret))
    (hd : (N.rsaDigest (N.rsaPublic secret) (authMessage e.id ballot key)).isSome) :
    ∃ a, exchange N au secret ⟨e.id, ballot, key⟩ r r' = .ok a ∧ AuthenticatedBy N.toEnv e ballot key a := by
  obtain ⟨a, h1, h2, h3⟩ := C51_blind_authentication N hN au secret ⟨e.id, ballot, key⟩ r r' hkey hd
  obtain ⟨k, d, h4, h5, h6⟩ := Authenticator.verify_ok.1 h3
  exact ⟨a, h1, au, hau, h2.symm, k, d, (IndexMap.get_eq_some _ _ _).1 h4, h5, h6⟩

theorem getAuthenticator_of_mem {e : ElectionTx} {au : Authenticator} (hau : au ∈ e.authenticators) (hids : (e.authenticators.map (·.id)).Nodup) :
    e.getAuthenticator au.id = some au := by
  unfold ElectionTx.getAuthenticator
  revert hau hids
  generalize e.authenticators = l
  intro hau hids
  induction l with
  | nil => simp at hau
  | cons x xs ih =>
    rw [List.map_cons, List.nodup_cons] at hids
    by_cases hx : au.id = x.id
    · rcases List.mem_cons.1 hau with rfl | hm
      · simp
      · exact absurd (List.mem_map.2 ⟨au, hm, hx⟩) hids.1
    · rw [List.find?_cons_of_neg (by rw [beq_iff_eq]; exact hx)]
      rcases List.mem_cons.1 hau with rfl | hm
      · exact absurd rfl hx
      · exact ih hm hids.2

/-- **C51** Adding authentications obtained this way from distinct authenticators of the election never makes a vote unacceptable. -/
theorem C51_vote_stays_acceptable (N : NodeEnv) (hN : BlindSignatures N) (v : VoteTx) (e : ElectionTx) (S : Store) (he : ElectionAt S v.election e)
    (hv : ({ v with authentication := [] } : VoteTx).validateTx N.toEnv S = .ok ())
    (hids : (e.authenticators.map (·.id)).Nodup)
    (hd : ∀ key, (N.rsaDigest key (authMessage e.id v.ballotId v.anonymousKey)).isSome)
    (ha : ∀ a ∈ v.authentication, ∃ au ∈ e.authenticators, ∃ secret r r', au.publicKeys.get v.ballotId = some (N.rsaPublic secret) ∧
      exchange N au secret ⟨e.id, v.ballotId, v.anonymousKey⟩ r r' = .ok a) :
    v.validateTx N.toEnv S = .ok () := by
  obtain ⟨h1, e', ⟨sg', he'⟩, h2, h3, h4, _, h5⟩ := VoteTx.validateTx_ok_store.1 hv
  have hee : e' = e := by
    obtain ⟨sg, he⟩ := he
    have := he.symm.trans he'
    simp only [Option.some.injEq, SignedTx.election.injEq, Signed.mk.injEq] at this
    exact this.1.symm
  subst hee
  refine VoteTx.validateTx_ok_store.2 ⟨h1, e', ⟨sg', he'⟩, h2, h3, h4, fun a hm => ?_, h5⟩
  obtain ⟨au, hau, secret, r, r', hk, hx⟩ := ha a hm
  obtain ⟨b, hb, hid, hver⟩ := C51_blind_authentication N hN au secret ⟨e'.id, v.ballotId, v.anonymousKey⟩ r r' hk (hd _)
  have hab : a = b := by
    have := hx.symm.trans hb
    simpa using this
  subst hab
  refine ⟨au, ?_, hver⟩
  rw [hid]
  exact getAuthenticator_of_mem hau hids

/-- **C51** A ballot the authenticator has no key for is refused, whatever the signature. -/
theorem C51_no_key_refused (E : Env) (au : Authenticator) (election : Identifier) (ballot : Str) (key : PublicKey) (sig : Bytes)
    (h : ∀ k, (ballot, k) ∉ au.publicKeys.entries) : au.verify E election ballot key sig = .err .ballotDoesNotExist := by
  have : au.publicKeys.get ballot = none := by
    cases hg : au.publicKeys.get ballot with
    | none => rfl
    | some k => exact absurd ((IndexMap.get_eq_some _ _ _).1 hg) (h k)
  simp [Authenticator.verify, this, Res.ofOption]

/-- **C51** What is signed determines election, ballot and key: an authentication for one cannot be for another. -/
theorem C51_package_binding (p q : AuthPackage) (hp : IsText p.ballotId) (hq : IsText q.ballotId)
    (h : authMessage p.electionId p.ballotId p.anonymousKey = authMessage q.electionId q.ballotId q.anonymousKey) : p = q := by
  have hf : ∀ (i : Identifier) (b : Str) (k : PublicKey), IsText b →
      Fits 1 (Cbor.map [(str "election_id", .text i.toString), (str "ballot_id", .text b), (str "anonymous_key", .bytes k.val)]) := by
    intro i b k hb
    refine De.fits_map [str "election_id", str "ballot_id", str "anonymous_key"] rfl (by decide +kernel) (by simp) ?_
    simp only [List.forall_mem_cons]
    refine ⟨.text (isText_hexEncode ?_), .text hb, .bytes ?_, by simp⟩
    · rw [Identifier.toArray_length]; decide
    · rw [k.property]; decide
  have := Cbor.encode_inj (hf _ _ _ hp) (hf _ _ _ hq) h
  simp only [Cbor.map.injEq, List.cons.injEq, Prod.mk.injEq, true_and, and_true, Cbor.text.injEq, Cbor.bytes.injEq, Identifier.toString_inj] at this
  obtain ⟨a, b, c⟩ := p
  obtain ⟨a', b', c'⟩ := q
  obtain ⟨h1, h2, h3⟩ := this
  simp only at h1 h2 h3
  rw [h1, h2, Subtype.ext h3]

/-- **C51** A new authenticator has a key for exactly the listed ballots, and the secret returned for a ballot is the one whose public half it publishes. -/
theorem C51_new_keys (N : NodeEnv) (id : Uuid) (gen : Nat → Option RsaPrivateKey) (size : Nat) (ballots : List Str) (au : Authenticator)
    (secrets : IndexMap Str RsaPrivateKey) (h : Authenticator.new N id gen size ballots = .ok (au, secrets)) :
    au.id = id ∧ (∀ b ∈ ballots, ∃ sk, secrets.get b = some sk ∧ au.publicKeys.get b = some (N.rsaPublic sk)) ∧
    (∀ b, b ∉ ballots → secrets.get b = none ∧ au.publicKeys.get b = none) := by
  unfold Authenticator.new at h
  split at h
  · cases h
  rw [Res.bind_eq_ok] at h
  obtain ⟨⟨pks, sks⟩, h, he⟩ := h
  simp only [Res.ok.injEq, Prod.mk.injEq] at he
  obtain ⟨rfl, rfl⟩ := he
  have key : ∀ (ballots : List Str) (k : Nat) (p p' : IndexMap Str AuthPublicKey) (s s' : IndexMap Str RsaPrivateKey),
      Authenticator.newLoop N gen k p s ballots = .ok (p', s') →
      (∀ b, b ∈ ballots ∨ (∃ sk, s.get b = some sk ∧ p.get b = some (N.rsaPublic sk)) → ∃ sk, s'.get b = some sk ∧ p'.get b = some (N.rsaPublic sk)) ∧
      (∀ b, b ∉ ballots → s'.get b = s.get b ∧ p'.get b = p.get b) := by
    intro ballots
    induction ballots with
    | nil =>
      intro k p p' s s' h
      simp only [Authenticator.newLoop, Res.ok.injEq, Prod.mk.injEq] at h
      obtain ⟨rfl, rfl⟩ := h
      exact ⟨fun b hb => by simpa using hb, fun b _ => ⟨rfl, rfl⟩⟩
    | cons x xs ih =>
      intro k p p' s s' h
      simp only [Authenticator.newLoop, Res.bind_eq_ok, Res.ofOption_eq_ok] at h
      obtain ⟨sk, hsk, h⟩ := h
      obtain ⟨h1, h2⟩ := ih _ _ _ _ _ h
      refine ⟨fun b hb => h1 b ?_, fun b hb => ?_⟩
      · by_cases hx : b = x
        · exact .inr ⟨sk, by simp [IndexMap.get_insert, hx]⟩
        · rcases hb with hb | hb
          · rcases List.mem_cons.1 hb with rfl | hb
            · exact absurd rfl hx
            · exact .inl hb
          · right; simpa [IndexMap.get_insert, hx] using hb
      · rw [List.mem_cons, not_or] at hb
        obtain ⟨h3, h4⟩ := h2 b hb.2
        simp [h3, h4, IndexMap.get_insert, hb.1]
  obtain ⟨h1, h2⟩ := key _ _ _ _ _ _ h
  exact ⟨rfl, fun b hb => h1 b (.inl hb), fun b hb => by simpa using h2 b hb⟩

/-- **C51** Keys below 2048 bits are refused by release builds (those without debug assertions) only; nothing else makes the creation crash. -/
theorem C51_new_key_size (N : NodeEnv) (id : Uuid) (gen : Nat → Option RsaPrivateKey) (size : Nat) (ballots : List Str) :
    (∃ p, Authenticator.new N id gen size ballots = .panic p) ↔ N.debugAssertions = false ∧ size < 2048 := by
  unfold Authenticator.new
  by_cases h : N.debugAssertions = false ∧ size < 2048
  · rw [if_pos h]
    exact ⟨fun _ => h, fun _ => ⟨_, rfl⟩⟩
  · rw [if_neg h]
    refine ⟨?_, fun h' => absurd h' h⟩
    rintro ⟨p, hp⟩
    have key : ∀ (ballots : List Str) k a b, (∃ m, Authenticator.newLoop N gen k a b ballots = .ok m) ∨ ∃ er, Authenticator.newLoop N gen k a b ballots = .err er := by
      intro ballots
      induction ballots with
      | nil => exact fun k a b => .inl ⟨_, rfl⟩
      | cons x xs ih =>
        intro k a b
        simp only [Authenticator.newLoop]
        cases gen k with
        | none => exact .inr ⟨_, rfl⟩
        | some sk => exact ih _ _ _
    rcases key ballots 0 IndexMap.empty IndexMap.empty with ⟨m, hm⟩ | ⟨er, hm⟩ <;> rw [hm] at hp <;> cases hp

/-- **C51** It succeeds exactly when every key pair could be generated. -/
theorem C51_new_succeeds (N : NodeEnv) (id : Uuid) (gen : Nat → Option RsaPrivateKey) (size : Nat) (ballots : List Str) (hs : N.debugAssertions = true ∨ 2048 ≤ size) :
    (∃ r, Authenticator.new N id gen size ballots = .ok r) ↔ ∀ k, k < ballots.length → (gen k).isSome := by
  unfold Authenticator.new
  rw [if_neg (by rintro ⟨h1, h2⟩; rcases hs with h | h; · rw [h1] at h; cases h
                 · omega)]
  have key : ∀ (ballots : List Str) k a b, (∃ m, Authenticator.newLoop N gen k a b ballots = .ok m) ↔ ∀ i, i < ballots.length → (gen (k + i)).isSome := by
    intro ballots
    induction ballots with
    | nil => exact fun k a b => ⟨fun _ i hi => absurd hi (by simp), fun _ => ⟨_, rfl⟩⟩
    | cons x xs ih =>
      intro k a b
      simp only [Authenticator.newLoop]
      cases hg : gen k with
      | none =>
        refine ⟨fun ⟨m, hm⟩ => (by cases hm), fun h => ?_⟩
        have := h 0 (by simp)
        rw [Nat.add_zero, hg] at this
        cases this
      | some sk =>
        refine (ih _ _ _).trans ⟨fun h i hi => ?_, fun h i hi => ?_⟩
        · cases i with
          | zero => rw [Nat.add_zero, hg]; rfl
          | succ i =>
            have := h i (by simpa using hi)
            rwa [Nat.add_right_comm] at this
        · have := h (i + 1) (by simpa using hi)
          rwa [← Nat.add_assoc, Nat.add_right_comm] at this
  have := key ballots 0 IndexMap.empty IndexMap.empty
  simp only [Nat.zero_add] at this
  rw [← this]
  constructor
  · rintro ⟨r, hr⟩
    rw [Res.bind_eq_ok] at hr
    obtain ⟨m, hm, -⟩ := hr
    exact ⟨m, hm⟩
  · rintro ⟨m, hm⟩
    rw [hm]
    exact ⟨_, rfl⟩

/-! ## The hypotheses are met -/

theorem Toy.blind_signatures : BlindSignatures Toy.node := by
  intro secret m d r r' _
  refine ⟨_, rfl, ?_⟩
  simp [Toy.node, Toy.env, ← List.append_assoc]

/-- An authenticator made by `new` for two ballots, and the exchange for one of them: its result verifies, for the other ballot it does not. -/
example : (match Authenticator.new Toy.node ⟨List.replicate 16 1, rfl⟩ (fun k => some ⟨[UInt8.ofNat k]⟩) 2048 [str "A", str "B"] with
    | .ok (au, secrets) =>
      match secrets.get (str "A") with
      | some sk => match exchange Toy.node au sk ⟨Toy.eid, str "A", Toy.key 31⟩ [1, 2] [3] with
        | .ok a => a.authenticator == au.id && au.verify Toy.env Toy.eid (str "A") (Toy.key 31) a.signature == .ok () &&
            au.verify Toy.env Toy.eid (str "B") (Toy.key 31) a.signature == .err .authSignatureVerificationFailed &&
            au.verify Toy.env Toy.eid (str "C") (Toy.key 31) a.signature == .err .ballotDoesNotExist
        | _ => false
      | none => false
    | _ => false) = true := by decide +kernel

/-- In the sample election a voter obtains their authentication by the exchange, and the vote carrying it is acceptable. -/
example : (Toy.vote (Toy.key 31) [Toy.auth 21 (Toy.key 31)] [⟨0, [Toy.ct "a"]⟩]).validateTx Toy.env (MemStore.ofList Toy.setup).toStore = .ok () := by
  refine C51_vote_stays_acceptable Toy.node Toy.blind_signatures _ (Toy.election) _ ⟨Toy.sig 1, by rfl⟩ (by decide +kernel) (by decide +kernel)
    (fun _ => rfl) ?_
  intro a ha
  refine ⟨Toy.authenticator 21, by simp [Toy.election], ⟨[21]⟩, [1], [2], by decide +kernel, ?_⟩
  have : a = Toy.auth 21 (Toy.key 31) := by simpa [Toy.vote] using ha
  subst this
  decide +kernel

end CB
