import Verif.Spec.Rules
/-!
# Specification vocabulary: settings of an election
-/

namespace CB.Spec

/-- The elections have the same id, authority, trustees (by index and key), threshold, authenticators and ballots (by id and contests), and both have a mixnet or
neither has.  They may differ in everything else: what kind of contests there are, who is a candidate in them, how many win, whether write-ins are allowed, how many votes
make a batch of the mixnet, how long it may take, how many authenticators are to sign a vote, and all properties. -/
structure SameSetup (e e' : ElectionTx) : Prop where
  id : e.id = e'.id
  authority : e.authorityPublic = e'.authorityPublic
  trustees : e.trustees.map (fun t => (t.index, t.publicKey)) = e'.trustees.map fun t => (t.index, t.publicKey)
  threshold : e.trusteesThreshold = e'.trusteesThreshold
  authenticators : e.authenticators = e'.authenticators
  ballots : e.ballots.map (fun b => (b.id, b.contests)) = e'.ballots.map fun b => (b.id, b.contests)
  mixed : e.mixConfig = none ↔ e'.mixConfig = none

/-- The same transaction, or two elections set up alike. -/
def Alike (t t' : SignedTx) : Prop := t = t' ∨ ∃ s s' : Signed ElectionTx, t = .election s ∧ t' = .election s' ∧ SameSetup s.tx s'.tx

/-- The stores hold the same, except that elections may differ in their other settings. -/
def SameBut (S S' : Store) : Prop := ∀ id, Option.Rel Alike (S.getTransaction id) (S'.getTransaction id)

/-- Elections have contests in both stores or in neither. -/
def SameContestless (S S' : Store) : Prop := ∀ id e e', ElectionAt S id e → ElectionAt S' id e' → (e.contests = [] ↔ e'.contests = [])

end CB.Spec
