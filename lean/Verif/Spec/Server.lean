import Verif.Props.Ids
import Verif.Spec.Rules
import Verif.Model.Trustee
/-!
# Specification vocabulary for trustee nodes
-/

namespace CB.Spec

/-- Every stored transaction carries its own type in its id (true of every history, `Replay.typed`). -/
def Typed (S : Store) : Prop := ∀ t, InStore S t → t.id.txType = kindOf t

/-- `l` lists exactly the stored transactions of this kind filed under the election, each once. -/
def StepTxs (S : Store) (e : ElectionTx) (ty : TxType) (l : List SignedTx) : Prop :=
  (l.map SignedTx.id).Nodup ∧ ∀ t, t ∈ l ↔ InStore S t ∧ t.id.electionId = e.id.electionId ∧ kindOf t = ty

/-- Exactly `n` transactions of this kind are filed under the election. -/
def CountIs (S : Store) (e : ElectionTx) (ty : TxType) (n : Nat) : Prop := ∃ l, StepTxs S e ty l ∧ l.length = n

/-- Every trustee of the election has posted a transaction of this kind. -/
def StepDone (S : Store) (e : ElectionTx) (ty : TxType) : Prop :=
  ∀ tr ∈ e.trustees, ∃ t, InStore S t ∧ t.id.electionId = e.id.electionId ∧ kindOf t = ty ∧ trusteeOf t = some (tr.index, tr.publicKey)

/-- The step of a key-generation transaction of this kind by trustee `i`. -/
def keygenStep (i : UInt8) : TxType → Option Step
  | .keyGenCommitment => some (.commitment i)
  | .keyGenShare => some (.share i)
  | .keyGenPublicKey => some (.publicKey i)
  | _ => none

/-- Every stored key-generation transaction of this kind under the election is by one of its trustees and sits in that trustee's own slot. -/
def OwnSlots (S : Store) (e : ElectionTx) (ty : TxType) : Prop :=
  ∀ t, InStore S t → t.id.electionId = e.id.electionId → kindOf t = ty →
    ∃ tr ∈ e.trustees, trusteeOf t = some (tr.index, tr.publicKey) ∧ ∃ s, keygenStep tr.index ty = some s ∧ t.id = stepId e.id s

/-- No two trustees of the election share an index. -/
def DistinctTrustees (e : ElectionTx) : Prop := (e.trustees.map (·.index)).Nodup

/-- The key is one of the election's trustees. -/
def TrusteeKey (e : ElectionTx) (key : PublicKey) : Prop := ∃ tr ∈ e.trustees, tr.publicKey = key

end CB.Spec

namespace CB.Spec

/-- Every stored vote of the election has exactly one encrypted vote for the contest. -/
def OneVoteEach (S : Store) (e : ElectionTx) (contest : UInt32) : Prop :=
  ∀ v : Signed VoteTx, InStore S (.vote v) → v.tx.id.electionId = e.id.electionId →
    (v.tx.encryptedVotes.filter fun ev => ev.contestIndex = contest).length = 1

/-- Some stored vote of the election has an encrypted vote for the contest. -/
def VotedIn (S : Store) (e : ElectionTx) (contest : UInt32) : Prop :=
  ∃ v : Signed VoteTx, InStore S (.vote v) ∧ v.tx.id.electionId = e.id.electionId ∧ ∃ ev ∈ v.tx.encryptedVotes, ev.contestIndex = contest

end CB.Spec

namespace CB.Spec

/-- Shuffles succeed with a proof: what the shuffler outputs has the length of its input and verifies, under the same generators. -/
def ShuffleComplete (N : NodeEnv) : Prop :=
  ∀ seed inputs key random out proof, N.shuffle seed inputs.length inputs key random = .ok (out, proof) →
    out.length = inputs.length ∧ N.shuffleVerify seed inputs.length proof inputs out key = true

end CB.Spec

namespace CB.Spec

/-- `x` is a correctly signed partial decryption, by the trustee with this index and key, of the item `(upstream, position)` of a contest, with one share per
ciphertext of the item. -/
def IsPartialOf (E : Env) (e : ElectionTx) (index : UInt8) (key : PublicKey) (upstream : Identifier) (position : UInt16) (contest : UInt32) (cts : List Ciphertext)
    (x : SignedTx) : Prop :=
  ∃ p : Signed PartialDecryptionTx, x = .partialDecryption p ∧ p.tx.electionId = e.id ∧ p.tx.upstreamId = upstream ∧ p.tx.upstreamIndex = position ∧
    p.tx.contestIndex = contest ∧ p.tx.trusteeIndex = index ∧ p.tx.trusteePublicKey = key ∧ p.tx.partialDecryption.length = cts.length ∧
    p.tx.id = PartialDecryptionTx.buildId e.id upstream contest position index ∧ E.edVerify key p.tx.toCbor.encode p.sig = true

end CB.Spec
