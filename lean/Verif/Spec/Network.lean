import Verif.Model.Network
import Verif.Spec.Server
import Verif.Props.Threshold
/-!
# Specification vocabulary for networks of nodes
-/

namespace CB.Spec
open Server

/-- the kinds of set-up transactions that follow the election -/
def SetupKind (ty : TxType) : Prop := ty ∈ [.keyGenCommitment, .keyGenShare, .keyGenPublicKey, .encryptionKey]

/-- What may happen: only the nodes with the given keys react, and nobody else submits set-up transactions under the election's name.  Everything else may be submitted
by anyone, at any time. -/
def Permitted (K : List SecretKey) (e : ElectionTx) : Event → Prop
  | .submit t => t.id.electionId = e.id.electionId → ¬ SetupKind (kindOf t)
  | .deliver _ => True
  | .react k _ _ _ => k ∈ K

/-- Deliveries and reactions of the nodes with the given keys; nobody submits anything. -/
def NodesOnly (K : List SecretKey) : Event → Prop
  | .submit _ => False
  | .deliver _ => True
  | .react k _ _ _ => k ∈ K

/-- Outsiders may submit what they like; trustees' and the authority's keys are only used by their nodes, and to announce the election. -/
def Outsiders (K : List SecretKey) (e : ElectionTx) : Event → Prop
  | .submit t => t.id = e.id ∨ ∀ k, signerOf t = some k → k ≠ e.authorityPublic ∧ ∀ tr ∈ e.trustees, k ≠ tr.publicKey
  | .deliver _ => True
  | .react k _ _ _ => k ∈ K

/-- Who runs the nodes: trustees have distinct indices and keys, no two nodes share a trustee's key (`sk` gives the trustees' keys by their indices), and the primitives
work. -/
structure Nodes (N : NodeEnv) (K : List SecretKey) (e : ElectionTx) (sk : UInt8 → SecretKey) : Prop where
  trustees : ProperTrustees e
  keys : (e.trustees.map (·.publicKey)).Nodup
  held : ∀ tr ∈ e.trustees, N.edPublic (sk tr.index) = tr.publicKey
  only : ∀ k ∈ K, ∀ tr ∈ e.trustees, N.edPublic k = tr.publicKey → k = sk tr.index
  sign : SignCorrect N.toEnv
  aes : AesCorrect N
  dh : DhAgrees N

/-- All trustees and the authority run nodes. -/
structure AllRun (N : NodeEnv) (K : List SecretKey) (e : ElectionTx) (sk : UInt8 → SecretKey) : Prop where
  trustees : ∀ tr ∈ e.trustees, sk tr.index ∈ K
  authority : ∃ k ∈ K, N.edPublic k = e.authorityPublic

/-- Nothing is left to do for the election's set-up: no transaction of the election is on its way, and every node has reacted to every accepted set-up transaction. -/
structure Settled (K : List SecretKey) (e : ElectionTx) (s : Network) : Prop where
  delivered : ∀ t ∈ s.pending, t.id.electionId ≠ e.id.electionId
  reacted : ∀ m t, s.ledger[m]? = some t → t.id.electionId = e.id.electionId → (kindOf t = .election ∨ SetupKind (kindOf t)) → ∀ k ∈ K, (k, m) ∈ s.reacted

/-- The election is set up: every trustee has posted its commitment, shares and public key, all public keys agree, and they are the election's encryption key. -/
structure SetUp (S : Store) (e : ElectionTx) (key : ElGamalKey) : Prop where
  commitments : StepDone S e .keyGenCommitment
  shares : StepDone S e .keyGenShare
  publicKeys : StepDone S e .keyGenPublicKey
  agreed : ∀ s, InStore S (.keyGenPublicKey s) → s.tx.id.electionId = e.id.electionId → s.tx.publicKey = key
  encryptionKey : ∃ s, S.getTransaction (singleId e.id .encryptionKey) = some (.encryptionKey s) ∧ s.tx.encryptionKey = key

end CB.Spec
