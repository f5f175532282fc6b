import Verif.Props.Order
import Verif.Props.Authn
import Verif.Props.Signing
/-!
# C79: ballot independence
-/

namespace CB
open Spec

/-- An authenticator's signature is for one message only: RSA signatures determine the digest, and digests do not collide. -/
def Spec.AuthBinding (E : Env) : Prop :=
  ∀ (rsa : RsaPublicKey) (msg msg' digest digest' sig : Bytes), E.rsaDigest rsa msg = some digest → E.rsaVerify rsa digest sig = true →
    E.rsaDigest rsa msg' = some digest' → E.rsaVerify rsa digest' sig = true → msg = msg'

/-- A copier's vote: the encrypted votes of another vote, under the copier's key and with the copier's authentications. -/
def Spec.copyOf (v : VoteTx) (key : PublicKey) (auths : List Authentication) : VoteTx :=
  { v with id := VoteTx.buildId v.election key, anonymousKey := key, authentication := auths }

/-- **C79** (what happens) As long as voting is open, whoever holds a key not used before can cast any accepted vote again as their own, without knowing what it says: the node
accepts it. -/
theorem C79_votes_can_be_copied (E : Env) (hE : SignCorrect E) (S S' : Store) (hS : Lawful S) (hS' : Lawful S') (hk : Keeps S S') (v : Signed VoteTx)
    (hv : (SignedTx.vote v).validate E S = .ok ()) (hopen : ¬ SlotFilled S' v.tx.election .votingEnd) (sk : SecretKey)
    (hfree : ∀ u, InStore S' u → u.id.electionId = v.tx.election.electionId → u.id.txType = .vote → u.id.uniqueInfo.val ≠ (E.edPublic sk).val.take 10 ++ List.replicate 6 0)
    (auths : List Authentication) (ha : auths = [] ∨ ∃ e, ElectionAt S' v.tx.election e ∧ (e.authenticators.map (·.id)).Nodup ∧
      ∀ a ∈ auths, AuthenticatedBy E e v.tx.ballotId (E.edPublic sk) a) :
    ∃ w, Signed.sign E sk (copyOf v.tx (E.edPublic sk) auths) = .ok w ∧ w.tx = copyOf v.tx (E.edPublic sk) auths ∧ (SignedTx.vote w).validate E S' = .ok () := by
  obtain ⟨hty, _, h3⟩ := SignedTx.validate_ok.1 hv
  obtain ⟨_, e, he, _, hkey, _, _, hb⟩ := (VoteTx.validateTx_ok hS).1 h3
  have hw : Signed.sign E sk (copyOf v.tx (E.edPublic sk) auths) = .ok ⟨copyOf v.tx (E.edPublic sk) auths, E.edSign sk (copyOf v.tx (E.edPublic sk) auths).toCbor.encode⟩ := by
    unfold Signed.sign
    simp only [CBTransaction.pub, copyOf]
    simp
    rfl
  refine ⟨_, hw, rfl, SignedTx.validate_ok.2 ⟨rfl, ?_, ?_⟩⟩
  · intro key hkey
    cases hkey
    exact hE _ _
  · refine (VoteTx.validateTx_ok hS').2 ⟨rfl, e, electionAt_keeps hk he, ?_, slot_keeps hk hkey, hopen, ?_, hb⟩
    · cases hg : S'.getTransaction (collisionId v.tx.election (E.edPublic sk)) with
      | none => exact hg
      | some u =>
        have hu := hS'.keyed _ _ hg
        refine absurd ?_ (hfree u (by rw [InStore, hu]; exact hg) ?_ ?_) <;> rw [hu] <;> rfl
    · rcases ha with ha | ⟨e', ⟨sg', he'⟩, hids, ha⟩
      · intro a hm
        have : a ∈ auths := hm
        rw [ha] at this
        cases this
      · obtain ⟨sg, he⟩ := he
        rw [hk _ _ he] at he'
        cases he'
        intro a hm
        obtain ⟨au, hau, hid, rsa, digest, hmem, hd, hver⟩ := ha a hm
        refine ⟨au, by rw [← hid]; exact getAuthenticator_of_mem hau hids, Authenticator.verify_ok.2 ⟨rsa, digest, (IndexMap.get_eq_some _ _ _).2 hmem, hd, hver⟩⟩

/-- A vote in the sample election can be cast again, with an authentication or without one. -/
example : SignCorrect Toy.env ∧ (Toy.voteTx 31 "a").validate Toy.env (MemStore.ofList Toy.setup).toStore = .ok () ∧
    ¬ SlotFilled (MemStore.ofList (Toy.setup ++ [Toy.voteTx 31 "a"])).toStore Toy.eid .votingEnd ∧
    (MemStore.ofList (Toy.setup ++ [Toy.voteTx 31 "a"])).toStore.getTransaction (collisionId Toy.eid (Toy.env.edPublic (Toy.key 32))) = none ∧
    AuthenticatedBy Toy.env Toy.election (str "b1") (Toy.env.edPublic (Toy.key 32)) (Toy.auth 21 (Toy.key 32)) := by
  refine ⟨fun sk msg => by simp [Toy.env], by decide +kernel, ?_, by decide +kernel, Toy.authenticator 21, by simp [Toy.election], rfl, ⟨[21]⟩, _, by simp [Toy.authenticator], rfl, by decide +kernel⟩
  rintro ⟨x, hx⟩
  have : ((MemStore.ofList (Toy.setup ++ [Toy.voteTx 31 "a"])).toStore.getTransaction (singleId Toy.eid .votingEnd)).isSome = false := by decide +kernel
  rw [hx] at this
  cases this

/-- **C79 (false)** Votes in an election are not independent of each other: two voters' accepted votes may consist of the same ciphertexts. -/
theorem C79_ballot_independence_false : ¬ ∀ (E : Env), SignCorrect E → AuthBinding E → ∀ m : MemStore, Ledger E m → ∀ v w : Signed VoteTx, InStore m.toStore (.vote v) → InStore m.toStore (.vote w) →
    v.tx.election = w.tx.election → v.tx.anonymousKey ≠ w.tx.anonymousKey → ∀ ev ∈ v.tx.encryptedVotes, ∀ ev' ∈ w.tx.encryptedVotes, ∀ c ∈ ev.selections, c ∉ ev'.selections := by
  intro h
  have hl : Ledger Toy.env (MemStore.ofList (Toy.setup ++ [Toy.voteTx 31 "a", Toy.voteTx 32 "a"])) := ledger_of_run (by decide +kernel)
  refine h Toy.env (fun sk msg => by simp [Toy.env]) ?_ _ hl ⟨Toy.vote (Toy.key 31) [Toy.auth 21 (Toy.key 31)] [⟨0, [Toy.ct "a"]⟩], Toy.sig 31⟩
    ⟨Toy.vote (Toy.key 32) [Toy.auth 21 (Toy.key 32)] [⟨0, [Toy.ct "a"]⟩], Toy.sig 32⟩ (by rfl) (by rfl) rfl (by decide +kernel) ⟨0, [Toy.ct "a"]⟩ (by simp [Toy.vote])
    ⟨0, [Toy.ct "a"]⟩ (by simp [Toy.vote]) (Toy.ct "a") (by simp) (by simp)
  intro rsa msg msg' d d' sig h1 h2 h3 h4
  simp only [Toy.env, Option.some.injEq, beq_iff_eq] at h1 h2 h3 h4
  subst h1 h3
  rw [h2] at h4
  exact List.append_cancel_left h4

/-- **C79 (partial)** What cannot be taken over are the authentications: votes of different voters for the same ballot of an election have none in common. -/
theorem C79_ballot_independence_partial (E : Env) (hE : AuthBinding E) (m : MemStore) (hm : Ledger E m) (v w : Signed VoteTx) (hv : InStore m.toStore (.vote v)) (hw : InStore m.toStore (.vote w))
    (hel : v.tx.election = w.tx.election) (hb : v.tx.ballotId = w.tx.ballotId) (htext : IsText v.tx.ballotId) (hne : v.tx.anonymousKey ≠ w.tx.anonymousKey) :
    ∀ a ∈ v.tx.authentication, a ∉ w.tx.authentication := by
  intro a ha ha'
  have key : ∀ x : Signed VoteTx, InStore m.toStore (.vote x) → ∃ e, ElectionAt m.toStore x.tx.election e ∧ ∀ a ∈ x.tx.authentication, ∃ au, e.getAuthenticator a.authenticator = some au ∧
      au.verify E e.id x.tx.ballotId x.tx.anonymousKey a.signature = .ok () := by
    intro x hx
    obtain ⟨m0, hm0, hf, hv, hsteps⟩ := hm.accepted hx
    obtain ⟨_, e, ⟨sg, he⟩, _, _, _, h, _⟩ := (VoteTx.validateTx_ok hm0.lawful).1 (SignedTx.validate_ok.1 hv).2.2
    exact ⟨e, ⟨sg, hsteps.extends _ _ (Extends.set_fresh hf _ _ he)⟩, h⟩
  obtain ⟨e, ⟨sg, he⟩, h⟩ := key v hv
  obtain ⟨e', ⟨sg', he'⟩, h'⟩ := key w hw
  rw [← hel, he] at he'
  cases he'
  obtain ⟨au, hau, hver⟩ := h a ha
  obtain ⟨au', hau', hver'⟩ := h' a ha'
  rw [hau] at hau'
  cases hau'
  obtain ⟨rsa, d, hr, hd, hs⟩ := Authenticator.verify_ok.1 hver
  obtain ⟨rsa', d', hr', hd', hs'⟩ := Authenticator.verify_ok.1 hver'
  rw [← hb, hr] at hr'
  cases hr'
  rw [← hb] at hd'
  have := hE rsa _ _ d d' _ hd hs hd' hs'
  have := C51_package_binding ⟨e.id, v.tx.ballotId, v.tx.anonymousKey⟩ ⟨e.id, v.tx.ballotId, w.tx.anonymousKey⟩ htext htext this
  exact hne (congrArg AuthPackage.anonymousKey this)

/-- Two voters of the sample election. -/
example : AuthBinding Toy.env ∧ InStore (MemStore.ofList Toy.complete).toStore (Toy.voteTx 31 "a") ∧ InStore (MemStore.ofList Toy.complete).toStore (Toy.voteTx 32 "b") ∧
    Toy.auth 21 (Toy.key 31) ≠ Toy.auth 21 (Toy.key 32) ∧ IsText (str "b1") := by
  refine ⟨?_, by rfl, by rfl, by decide +kernel, by decide +kernel, by decide +kernel⟩
  intro rsa msg msg' d d' sig h1 h2 h3 h4
  simp only [Toy.env, Option.some.injEq, beq_iff_eq] at h1 h2 h3 h4
  subst h1 h3
  rw [h2] at h4
  exact List.append_cancel_left h4

end CB
