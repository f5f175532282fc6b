import Verif.Spec.Cbor
/-!
# What survives serialization
-/

namespace CB
namespace Spec

/-- A trustee without the two fields that are deliberately not serialized. -/
def forgetTrustee (tr : Trustee) : Trustee := ⟨tr.publicKey, tr.index, 0, 0⟩

/-- An election without the fields that are deliberately not serialized. -/
def forgetElection (e : ElectionTx) : ElectionTx := { e with trustees := e.trustees.map forgetTrustee }

/-- A transaction without the fields that are deliberately not serialized: `num_trustees` and `threshold` of an election's trustees (both are
recomputed from the election whenever they are needed); everything else is kept. -/
def forget : SignedTx → SignedTx
  | .election s => .election ⟨forgetElection s.tx, s.sig⟩
  | t => t

/-- The same transaction with another signature. -/
def withSig (sig : Signature) : SignedTx → SignedTx
  | .election s => .election ⟨s.tx, sig⟩
  | .keyGenCommitment s => .keyGenCommitment ⟨s.tx, sig⟩
  | .keyGenShare s => .keyGenShare ⟨s.tx, sig⟩
  | .keyGenPublicKey s => .keyGenPublicKey ⟨s.tx, sig⟩
  | .encryptionKey s => .encryptionKey ⟨s.tx, sig⟩
  | .vote s => .vote ⟨s.tx, sig⟩
  | .votingEnd s => .votingEnd ⟨s.tx, sig⟩
  | .mix s => .mix ⟨s.tx, sig⟩
  | .partialDecryption s => .partialDecryption ⟨s.tx, sig⟩
  | .decryption s => .decryption ⟨s.tx, sig⟩

/-- Same type and same content (apart from the signature and the unserialized fields). -/
def SameContent (t t' : SignedTx) : Prop := ∀ sig, withSig sig (forget t) = withSig sig (forget t')

/-- All data of the transaction is data a Rust program can hold and serde_cbor can read: strings are UTF-8, lengths fit 64 bits, JSON properties do not
nest deeper than serde_cbor's limit. -/
def RustData (t : SignedTx) : Prop := Fits 127 t.toCbor

end Spec
end CB
