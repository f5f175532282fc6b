import Verif.Model.Server
import Verif.Model.MemStore
/-!
# Nodes around a ledger (cryptoballot_server/src/service.rs)

The committed transactions in the order of their acceptance, the submitted ones that are still on their way, and what each node has already reacted to.  Anything may
interleave: submissions are delivered in any order, a node reacts at any later time to a committed transaction, possibly more than once, and on its own view of the
ledger, which may lag behind the others'.

Simplified: the ledger is the list of the accepted transactions, each stored under its own id (an Exonum envelope can claim another id, see C36/C38, and there are
no blocks); a submission is never lost on its way (`broadcaster.submit_tx(..).ok()` drops errors).  `Model/Blocks.lean` does without these simplifications.
-/

namespace CB
namespace Server

/-- The state of the network. (what service.rs:36-128 reads and writes.) -/
structure Network where
  /-- accepted transactions, the oldest first -/
  ledger : List SignedTx
  /-- submitted but not yet delivered -/
  pending : List SignedTx
  /-- the nodes that have reacted, and to the transaction at which position of the ledger -/
  reacted : List (SecretKey × Nat)

/-- What can happen next. (service.rs:36-44 and 52-128.) -/
inductive Event
  /-- someone submits a transaction (api.rs, command line client) -/
  | submit (t : SignedTx)
  /-- the `i`-th pending transaction reaches the ledger -/
  | deliver (i : Nat)
  /-- the node with this key reacts to the transaction at this position, seeing the first `view` transactions of the ledger -/
  | react (key : SecretKey) (rng : Rng) (position view : Nat)

namespace Network

/-- the blockchain before the first transaction, service.rs. -/
def empty : Network := ⟨[], [], []⟩

/-- the store a node sees that has processed the first `view` transactions. (service.rs:88.) -/
def storeAt (s : Network) (view : Nat) : MemStore := MemStore.ofList (s.ledger.take view)
/-- the store that holds everything accepted so far. (service.rs:88.) -/
def store (s : Network) : MemStore := MemStore.ofList s.ledger

/-- One step.  Delivery is `verify_and_store` (cryptoballot_exonum/src/lib.rs:139-177): a fresh and valid transaction is appended, any other is dropped.
A reaction is one turn of the loop in `after_commit`, service.rs:92-126: generate the dependent transactions and submit those that are not stored yet; if
generating fails the node crashes and nothing happens. -/
def step (N : NodeEnv) (s : Network) : Event → Network
  | .submit t => { s with pending := s.pending ++ [t] }
  | .deliver i =>
    match s.pending[i]? with
    | none => s
    | some t =>
      if (s.store.getTransaction t.id).isNone ∧ t.validate N.toEnv s.store.toStore = .ok () then
        { s with ledger := s.ledger ++ [t], pending := s.pending.eraseIdx i }
      else { s with pending := s.pending.eraseIdx i }
  | .react key rng position view =>
    match (s.ledger.take view)[position]? with
    | none => s
    | some t =>
      match generateTransactions N rng key (s.storeAt view).toStore t with
      | .ok l =>
        { s with
          pending := s.pending ++ l.filter fun d => ((s.storeAt view).getTransaction d.id).isNone
          reacted := (key, position) :: s.reacted }
      | _ => s

/-- A whole schedule. (a run of service.rs:36-128 at all nodes.) -/
def run (N : NodeEnv) (events : List Event) : Network := events.foldl (step N) empty

end Network
end Server
end CB
