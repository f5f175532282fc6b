import Mathlib.Data.List.Forall2
import Mathlib.Data.Set.Function
import Verif.Model.Server
/-!
# Specification vocabulary: what mixes hide
-/

namespace CB.Spec

/-- Perfect mixing under the key, up to `size` rows and columns: what comes out of a shuffle depends only on what is in the encryptions, not on where it was.  For two matrices of
encryptions of the same rows in different orders, any outputs come up for as many of the (equally likely) coins. -/
def PerfectMixing (N : NodeEnv) (Enc : ElGamalKey → Ciphertext → Bytes → Prop) (key : ElGamalKey) (coins : Set Bytes) (size : Nat) : Prop :=
  ∀ (seed : Bytes) (width : Nat) (A A' : List (List Ciphertext)) (M M' : List (List Bytes)), A.length ≤ size → width ≤ size → (∀ row ∈ A ++ A', row.length = width) →
    List.Forall₂ (List.Forall₂ (Enc key)) A M → List.Forall₂ (List.Forall₂ (Enc key)) A' M' → M.Perm M' →
    ∃ σ : Bytes → Bytes, Set.BijOn σ coins coins ∧
      ∀ r ∈ coins, (N.shuffle seed A'.length A' key (σ r)).map Prod.fst = (N.shuffle seed A.length A key r).map Prod.fst

/-- The encrypted votes for a contest, in the order of the votes. -/
def rowsOf (contest : UInt32) (votes : List VoteTx) : List (List Ciphertext) :=
  votes.flatMap fun v => (v.encryptedVotes.filter fun ev => ev.contestIndex = contest).map (·.selections)

/-- Two ballot boxes that differ only in who cast which vote: the same voting keys took part in the same contests, and in each contest the same things were voted for, by whomever
(and encrypted anew). -/
def CastByOthers (Enc : ElGamalKey → Ciphertext → Bytes → Prop) (key : ElGamalKey) (size : Nat) (votes votes' : List VoteTx) : Prop :=
  List.Forall₂ (fun v v' => v'.id = v.id ∧ v'.encryptedVotes.map (·.contestIndex) = v.encryptedVotes.map (·.contestIndex)) votes votes' ∧
  ∀ c, ∃ (width : Nat) (M M' : List (List Bytes)), (rowsOf c votes).length ≤ size ∧ width ≤ size ∧ (∀ row ∈ rowsOf c votes ++ rowsOf c votes', row.length = width) ∧
    List.Forall₂ (List.Forall₂ (Enc key)) (rowsOf c votes) M ∧ List.Forall₂ (List.Forall₂ (Enc key)) (rowsOf c votes') M' ∧ M.Perm M'

/-- A transaction without the proof of a mix and without the signature on it. -/
def withoutProof : SignedTx → SignedTx
  | .mix m => .mix ⟨{ m.tx with proof := ⟨[]⟩ }, BArr.fill 64 0⟩
  | t => t

/-- What a node submits, apart from proofs of mixes and signatures on them. -/
def submits (r : Server.SRes (List SignedTx)) : Server.SRes (List SignedTx) := r.bind fun l => .ok (l.map withoutProof)

/-- All draws of a node's random number generator are from `coins`. -/
def DrawsFrom (coins : Set Bytes) : Set Rng := {rng | ∀ p, rng.bytes p ∈ coins}

end CB.Spec
