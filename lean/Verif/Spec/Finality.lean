import Verif.Spec.NetworkE2e
/-!
# Specification vocabulary: when an election has been counted in full
-/

namespace CB.Spec

/-- A decryption of this item of the election is stored. -/
def DecryptedAt (S : Store) (e : ElectionTx) (upstream : Identifier) (index : UInt16) (contest : UInt32) : Prop :=
  ∃ d : Signed DecryptionTx, InStore S (.decryption d) ∧ d.tx.electionId = e.id ∧ d.tx.upstreamId = upstream ∧ d.tx.upstreamIndex = index ∧ d.tx.contestIndex = contest

/-- Without mixnet: every contest of every vote is decrypted. -/
def VotesDecrypted (S : Store) (e : ElectionTx) : Prop :=
  ∀ v : Signed VoteTx, InStore S (.vote v) → v.tx.id.electionId = e.id.electionId → ∀ ev ∈ v.tx.encryptedVotes, DecryptedAt S e v.tx.id 0 ev.contestIndex

/-- With mixnet: every contest of every vote is mixed, and every output of a mix that no further mix has as its input is decrypted. -/
def MixesDecrypted (S : Store) (e : ElectionTx) : Prop :=
  (∀ v : Signed VoteTx, InStore S (.vote v) → v.tx.id.electionId = e.id.electionId → ∀ ev ∈ v.tx.encryptedVotes,
    ∃ x : Signed MixTx, InStore S (.mix x) ∧ x.tx.electionId = e.id ∧ x.tx.contestIndex = ev.contestIndex ∧ v.tx.id ∈ x.tx.voteIds) ∧
  ∀ x : Signed MixTx, InStore S (.mix x) → x.tx.electionId = e.id → (∀ y : Signed MixTx, InStore S (.mix y) → y.tx.prevMixId ≠ some x.tx.id) →
    ∀ n : UInt16, n.toNat < x.tx.mixedCiphertexts.length → DecryptedAt S e x.tx.id n x.tx.contestIndex

/-- The election has been counted in full. -/
def Counted (S : Store) (e : ElectionTx) : Prop :=
  (e.mixConfig = none → VotesDecrypted S e) ∧ (e.mixConfig ≠ none → MixesDecrypted S e)

end CB.Spec
