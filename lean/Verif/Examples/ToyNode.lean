import Verif.Model.Server
import Verif.Examples.Toy
/-!
# A concrete node environment, and a set-up produced by nodes

Keys agree by exchanging bytes that are added up, encryption appends the key, a generator is its trustee's index, polynomial shares are
all `[1]`, partial decryptions repeat the ciphertext, shuffles reverse.
-/

namespace CB.Toy
open Spec

def xor32 (a b : BArr 32) : BArr 32 := ⟨List.zipWith (· ^^^ ·) a.val b.val, by simp [a.property, b.property]⟩
def pad32 (b : Bytes) : BArr 32 := ⟨(b ++ List.replicate 32 0).take 32, by simp⟩

def node (checks : Bool := true) : NodeEnv where
  toEnv := env checks
  hkdf _ ikm _ := pad32 ikm
  x25519Public s := s
  x25519Dh a b := xor32 a b
  aesEncrypt key _ m := m ++ key.val
  aesDecrypt key _ c := if c.drop (c.length - 32) = key.val then some (c.take (c.length - 32)) else none
  scalarOf b := some ⟨b⟩
  Gen := Nat
  Party := Nat
  genNew _ i _ _ := i
  genCommitment _ := ⟨[]⟩
  genReceiveCommitment g _ c := if c.raw = [] then .ok g else .error ⟨1⟩
  genShare _ _ := .ok ⟨[1]⟩
  genReceiveShare g _ s := if s.raw = [1] then .ok g else .error ⟨2⟩
  genFinish g := .ok g
  partyKey _ := ⟨[5]⟩
  partyProof p := ⟨[UInt8.ofNat p]⟩
  encrypt _ m _ := ⟨m⟩
  partyDecrypt _ c _ := ⟨c.raw⟩
  shuffle _ _ inputs _ _ := .ok (inputs.reverse, ⟨[]⟩)
  rsaPublic sk := ⟨sk.raw⟩
  rsaBlind _ d r := (r ++ d, r)
  rsaSign sk b _ := some (sk.raw ++ b)
  rsaUnblind key sig r := key.raw ++ sig.drop (key.raw.length + r.length)

def rng : Rng := ⟨fun _ => BArr.fill 12 3, fun _ => [4]⟩

/-- the transactions in a result, none if it is not `ok` -/
def txs {ε : Type} : Res ε (List SignedTx) → List SignedTx
  | .ok l => l
  | _ => []

/-- what the node with key `k` submits when `t` is committed -/
def reaction (k : UInt8) (l : List SignedTx) (t : SignedTx) : List SignedTx :=
  txs (Server.generateTransactions node rng (key k) (MemStore.ofList l).toStore t)

/-- the set-up the nodes of trustees 1 and 2 and of the authority produce -/
def nodeElection (mix : Option MixConfig := some ⟨60, none⟩) : List SignedTx := [electionTx mix]
def nodeCommits (mix : Option MixConfig := some ⟨60, none⟩) : List SignedTx :=
  nodeElection mix ++ reaction 11 (nodeElection mix) (electionTx mix) ++ reaction 12 (nodeElection mix) (electionTx mix)
def nodeShares (mix : Option MixConfig := some ⟨60, none⟩) : List SignedTx :=
  nodeCommits mix ++ reaction 11 (nodeCommits mix) ((nodeCommits mix).getLastD endTx) ++ reaction 12 (nodeCommits mix) ((nodeCommits mix).getLastD endTx)
def nodeKeys (mix : Option MixConfig := some ⟨60, none⟩) : List SignedTx :=
  nodeShares mix ++ reaction 11 (nodeShares mix) ((nodeShares mix).getLastD endTx) ++ reaction 12 (nodeShares mix) ((nodeShares mix).getLastD endTx)
def nodeSetup (mix : Option MixConfig := some ⟨60, none⟩) : List SignedTx :=
  nodeKeys mix ++ reaction 1 (nodeKeys mix) ((nodeKeys mix).getLastD endTx)

end CB.Toy
