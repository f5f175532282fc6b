import Verif.Model.Types
/-!
# The decrypted ballots of a contest
-/

namespace CB
namespace Spec

/-- The decrypted ballots of a contest of an election among some transactions: the selections of each of its decryptions.  The transactions of an election are those whose ids
begin with the election's id. -/
def ballots (election : Identifier) (contest : UInt32) : List SignedTx → List (List Selection)
  | [] => []
  | .decryption d :: ts => if d.tx.id.electionId = election.electionId ∧ d.tx.contestIndex = contest then d.tx.decryptedVote :: ballots election contest ts
    else ballots election contest ts
  | _ :: ts => ballots election contest ts

end Spec
end CB
