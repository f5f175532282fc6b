import Verif.Lemmas.Ledger
/-!
# A concrete cryptographic environment and a complete concrete election

`toyEnv` interprets the primitives so that concrete transactions can be evaluated: keys sign by repeating themselves, a ciphertext is its
plaintext, a shuffle proof accepts exactly permutations, threshold decryption needs `threshold` distinct indexes.  It satisfies every law a theorem
assumes (see the `toy_*` lemmas) and serves only to show that hypotheses can be met and to build counterexamples.
-/

namespace CB.Toy
open Spec

/-- the environment of the examples; `checks` = debug build -/
def env (checks : Bool := true) : Env where
  overflowChecks := checks
  debugAssertions := checks
  edPublic sk := sk
  edSign sk _ := ⟨sk.val ++ sk.val, by simp [sk.property]⟩
  edVerify pk _ sig := sig.val == pk.val ++ pk.val
  rsaDigest _ m := some m
  rsaVerify key digest sig := sig == key.raw ++ digest
  shareVerify s _ c := s.raw == c.raw
  shuffleVerify _ _ _ inputs outputs _ := inputs.isPerm outputs
  thresholdDecrypt k c shares := if k ≤ (shares.map (·.1)).eraseDups.length then .ok c.raw else .error ⟨0⟩

/-- a key made of one repeated byte -/
def key (b : UInt8) : PublicKey := BArr.fill 32 b
/-- its signature on anything -/
def sig (b : UInt8) : Signature := BArr.fill 64 b

/-- the election id of the examples -/
def eid : Identifier := ⟨BArr.fill 15 7, .election, BArr.fill 16 0⟩
/-- a second election -/
def eid2 : Identifier := ⟨BArr.fill 15 9, .election, BArr.fill 16 0⟩

def trustee (i : UInt8) (k : UInt8) : Trustee := ⟨key k, i, 0, 0⟩
def authenticator (b : UInt8) : Authenticator := ⟨BArr.fill 16 b, ⟨[(str "b1", ⟨[b]⟩)], by simp⟩⟩

/-- two trustees, both needed; one authenticator needed; ballot `b1` with contests 0 and 1 -/
def election (mix : Option MixConfig := some ⟨60, none⟩) : ElectionTx :=
  { id := eid, authorityPublic := key 1, trustees := [trustee 1 11, trustee 2 12], trusteesThreshold := 2,
    authenticators := [authenticator 21], authenticatorsThreshold := 1, mixConfig := mix,
    ballots := [⟨str "b1", [0, 1], .empty⟩], contests := [], properties := .empty }

def electionTx (mix : Option MixConfig := some ⟨60, none⟩) : SignedTx := .election ⟨election mix, sig 1⟩
def commitTx (i k : UInt8) : SignedTx := .keyGenCommitment ⟨KeyGenCommitmentTx.new eid i (key k) (key 0) ⟨[]⟩, sig k⟩
def shares12 : IndexMap UInt8 EncryptedShare := ⟨[(1, ⟨[]⟩), (2, ⟨[]⟩)], by decide⟩
def shareTx (i k : UInt8) : SignedTx := .keyGenShare ⟨KeyGenShareTx.new eid i (key k) shares12, sig k⟩
def pkTx (i k : UInt8) : SignedTx := .keyGenPublicKey ⟨KeyGenPublicKeyTx.new eid i (key k) ⟨[5]⟩ ⟨[i]⟩, sig k⟩
def encTx : SignedTx := .encryptionKey ⟨EncryptionKeyTx.new eid (key 1) ⟨[5]⟩, sig 1⟩

/-- the toy encryption of a plurality choice -/
def ct (name : String) : Ciphertext := ⟨Selection.encode ⟨false, 0, str name⟩⟩
def sel (name : String) : Selection := ⟨false, 0, str name⟩

/-- the authenticator's (unblinded) signature on a voter's package -/
def auth (a : UInt8) (k : PublicKey) : Authentication := ⟨BArr.fill 16 a, [a] ++ AuthPackage.pack ⟨eid, str "b1", k⟩⟩

def vote (k : PublicKey) (auths : List Authentication) (evs : List EncryptedVote) : VoteTx :=
  { id := VoteTx.buildId eid k, election := eid, ballotId := str "b1", encryptedVotes := evs, anonymousKey := k, authentication := auths }

/-- signature of an arbitrary key -/
def sigOf (k : PublicKey) : Signature := ⟨k.val ++ k.val, by simp [k.property]⟩

def voteTx (k : UInt8) (name : String) : SignedTx := .vote ⟨vote (key k) [auth 21 (key k)] [⟨0, [ct name]⟩], sig k⟩
def endTx : SignedTx := .votingEnd ⟨VotingEndTx.new eid (key 1), sig 1⟩

def mixTx (i k : UInt8) (prev : Option Identifier) (ids : List Identifier) (out : List (List Ciphertext)) : SignedTx :=
  .mix ⟨MixTx.new eid prev (trustee i k) (i - 1) 0 0 ids out ⟨[]⟩, sig k⟩

def ids : List Identifier := [VoteTx.buildId eid (key 31), VoteTx.buildId eid (key 32)]
def mix1Tx : SignedTx := mixTx 1 11 none ids [[ct "b"], [ct "a"]]
def mix2Tx : SignedTx := mixTx 2 12 (some mix1Tx.id) ids [[ct "a"], [ct "b"]]
def partialTx (n : UInt16) (name : String) (i k : UInt8) : SignedTx :=
  .partialDecryption ⟨PartialDecryptionTx.new eid mix2Tx.id n i 0 (key k) [⟨(ct name).raw⟩], sig k⟩
def decTx (n : UInt16) (name : String) : SignedTx :=
  .decryption ⟨⟨DecryptionTx.buildId eid mix2Tx.id 0 n, eid, mix2Tx.id, n, 0, [1, 2], [sel name]⟩, sig 0⟩

/-- everything up to the encryption key -/
def setup (mix : Option MixConfig := some ⟨60, none⟩) : List SignedTx :=
  [electionTx mix, commitTx 1 11, commitTx 2 12, shareTx 1 11, shareTx 2 12, pkTx 1 11, pkTx 2 12, encTx]

/-- a complete election: set-up, two votes, end, two mixes, all partial decryptions, both decryptions -/
def complete : List SignedTx :=
  setup ++ [voteTx 31 "a", voteTx 32 "b", endTx, mix1Tx, mix2Tx,
    partialTx 0 "a" 1 11, partialTx 0 "a" 2 12, partialTx 1 "b" 1 11, partialTx 1 "b" 2 12, decTx 0 "a", decTx 1 "b"]

theorem complete_runs : (runLedger (env) .empty complete).isSome = true := by decide +kernel

theorem complete_ledger : Ledger env (MemStore.ofList complete) := ledger_of_run complete_runs

theorem setup_ledger : Ledger env (MemStore.ofList (setup)) := ledger_of_run (by decide +kernel)

end CB.Toy
