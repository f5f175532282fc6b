import Verif.Model.Client
/-!
# Casting a vote with the library
-/

namespace CB

/-- `VoteTransaction::new`, vote.rs:42-59; the key that `generate_keypair` makes is an argument. -/
def VoteTx.new (N : NodeEnv) (sk : SecretKey) (election : Identifier) (ballotId : Str) (encryptedVotes : List EncryptedVote) : VoteTx :=
  { id := VoteTx.buildId election (N.edPublic sk), election, ballotId, encryptedVotes, anonymousKey := N.edPublic sk, authentication := [] }

/-- How a voter uses the library (tests.rs:288-304): make the vote, push the authentications obtained, and sign (`Signed::sign(..).unwrap()`). -/
def castVote {ε : Type} (N : NodeEnv) (sk : SecretKey) (election : Identifier) (ballotId : Str) (encryptedVotes : List EncryptedVote) (authentication : List Authentication) :
    Res ε SignedTx :=
  (Client.sign N sk { VoteTx.new N sk election ballotId encryptedVotes with authentication }).bind fun s => .ok (.vote s)

end CB
