import Verif.Model.Trustee
import Verif.Model.Selection
/-!
# What voters and election authorities run: `encrypt_vote` and the `generate` commands of the command line

The commands print or post the transaction they build; the model returns it.  Reading the encryption key over REST is an argument (`lookup`, see
`Model/Api.lean` for the server's side), randomness is an argument.  Shell expansion of arguments is not modelled.
-/

namespace CB

/-- `encrypt_vote` from selection number `k` on, vote.rs:164-168. -/
def encryptVoteFrom (N : NodeEnv) (key : ElGamalKey) (rng : Rng) : Nat → List Selection → List Ciphertext
  | _, [] => []
  | k, s :: ss => N.encrypt key s.encode (rng.bytes [k]) :: encryptVoteFrom N key rng (k + 1) ss

/-- `encrypt_vote`, vote.rs:158-171 (`encode` into a `Vec` cannot fail). -/
def encryptVote (N : NodeEnv) (key : ElGamalKey) (rng : Rng) (vote : List Selection) : List Ciphertext := encryptVoteFrom N key rng 0 vote

/-- `ElectionTransaction::new`, election.rs:55-70; the random id is an argument. -/
def ElectionTx.new (eid : BArr 15) (authority : PublicKey) : ElectionTx :=
  { id := ElectionTx.buildId eid, authorityPublic := authority, trustees := [], trusteesThreshold := 1, authenticators := [],
    authenticatorsThreshold := 1, mixConfig := none, ballots := [], contests := [], properties := IndexMap.empty }

namespace Client

/-- The election built by `cryptoballot election generate`, command_election.rs:34-66. -/
def election (N : NodeEnv) (sk : SecretKey) (eid : BArr 15) : ElectionTx :=
  { ElectionTx.new eid (N.edPublic sk) with
    ballots := [⟨str "BALLOT1", [0], IndexMap.empty⟩]
    contests := [⟨str "TESTCONTEST", 0, .plurality, 1, true, [], IndexMap.empty⟩]
    authenticatorsThreshold := 0
    trustees := [⟨N.edPublic sk, 1, 1, 1⟩]
    mixConfig := some ⟨0, none⟩ }

/-- `Signed::sign(&secret_key, tx).unwrap()`. (command_election.rs:68-80, command_vote.rs:78, command_voting_end.rs:45.) -/
def sign {ε T : Type} [CBTransaction T] (N : NodeEnv) (sk : SecretKey) (tx : T) : Res ε (Signed T) :=
  match Signed.sign N.toEnv sk tx with
  | .ok s => .ok s
  | _ => .panic .unwrapFailed

/-- `command_election_generate`, command_election.rs:30-80. -/
def electionGenerate {ε : Type} (N : NodeEnv) (sk : SecretKey) (eid : BArr 15) : Res ε SignedTx :=
  (sign N sk (election N sk eid)).bind fun s => .ok (.election s)

/-- The vote built by `cryptoballot vote generate`, command_vote.rs:33-37 and 55-73. -/
def vote (N : NodeEnv) (sk : SecretKey) (rng : Rng) (key : EncryptionKeyTx) (text : Str) : VoteTx :=
  { id := VoteTx.buildId key.election (N.edPublic sk), election := key.election, ballotId := str "BALLOT1",
    encryptedVotes := [⟨0, encryptVote N key.encryptionKey rng [⟨true, 0, text⟩]⟩], anonymousKey := N.edPublic sk, authentication := [] }

/-- `command_vote_generate`, command_vote.rs:14-88: panics on an invalid election id, when the encryption key cannot be read, or when the transaction read is not
an encryption key. -/
def voteGenerate (N : NodeEnv) (sk : SecretKey) (rng : Rng) (lookup : Identifier → Option SignedTx) (electionId text : Str) : VRes SignedTx := do
  let encId ← Res.unwrap (Identifier.newFromStrId electionId .encryptionKey none) .expectFailed
  let tx ← Res.unwrap (lookup encId) .expectFailed
  let key ← tx.intoEncryptionKey
  let s ← sign N sk (vote N sk rng key.tx text)
  pure (.vote s)

/-- `command_voting_end_generate`, command_voting_end.rs:25-56. -/
def votingEndGenerate {ε : Type} (N : NodeEnv) (sk : SecretKey) (electionId : Str) : Res ε SignedTx :=
  (Res.unwrap (Identifier.newFromStrId electionId .election none) .expectFailed).bind fun id =>
    (sign N sk (VotingEndTx.new id (N.edPublic sk))).bind fun s => .ok (.votingEnd s)

end Client
end CB
