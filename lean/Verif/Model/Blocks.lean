import Verif.Model.Server
/-!
# Nodes around a blockchain (cryptoballot_server/src/service.rs)

Unlike `Model/Network.lean`, this keeps the envelopes, the blocks and the hook that nodes run after each block.  Exonum decides which submissions enter which block and
in which order; a block also holds the transactions that failed.  Every node runs `after_commit` once it has committed a block, at whatever time; it then sees the
blockchain up to that block.

Simplified: Exonum's own signatures are left out, and with them its refusal of byte-identical submissions (a client signs each submission with a new key, rest.rs:34-36).  A node
that panics is taken to stop in the middle of that hook.  `DEPENDENT_TXS` (service.rs:11-14, 55-71) is left out: no code ever fills it.
-/

namespace CB
namespace Server

/-- The state of the blockchain and what is on its way to it. (what service.rs:52-128 and Exonum work on.) -/
structure Chain where
  /-- the committed blocks by height; the genesis block is at height 0 -/
  blocks : List (List Exonum.Envelope)
  /-- submitted but not yet in a block -/
  pool : List Exonum.Envelope
  /-- submissions that never got through -/
  lost : List Exonum.Envelope
  /-- the nodes that have completed `after_commit`, and at which height -/
  processed : List (SecretKey × Nat)

/-- What can happen next. (Exonum calls service.rs:36-44 for each transaction of a block and service.rs:52-128 after it.) -/
inductive BlockEvent
  /-- someone submits an envelope -/
  | submit (x : Exonum.Envelope)
  /-- the next block is committed, with these submissions, each given by its place among those that are then left -/
  | commit (places : List Nat)
  /-- a submission gets lost: `broadcaster.submit_tx(..).ok()` ignores errors, service.rs:120 -/
  | lose (place : Nat)
  /-- the node with this key runs `after_commit` for this height; the randomness is per transaction of the block -/
  | afterCommit (key : SecretKey) (rng : Nat → Rng) (height : Nat)

namespace Chain

/-- Only the genesis block, which holds no transactions of the service. (`height().previous()`, service.rs:77-78.) -/
def genesis : Chain := ⟨[[]], [], [], []⟩

/-- `TransactionSchema::new(ctx.service_data())` (service.rs:88) after the block at this height. -/
def schemaAt (E : Env) (c : Chain) (height : Nat) : Exonum.Schema := Exonum.deliverAll E OMap.empty (c.blocks.take (height + 1)).flatten
/-- the same after the last block. (service.rs:88.) -/
def schema (E : Env) (c : Chain) : Exonum.Schema := Exonum.deliverAll E OMap.empty c.blocks.flatten

/-- The chosen elements, and those left. (Exonum chooses which submissions (service.rs:120) go into a block.) -/
def pick {α : Type} : List α → List Nat → List α × List α
  | pool, [] => ([], pool)
  | pool, i :: is =>
    match pool[i]? with
    | some x => (x :: (pick (pool.eraseIdx i) is).1, (pick (pool.eraseIdx i) is).2)
    | none => pick pool is

/-- The loop of `after_commit`, service.rs:90-126: what is submitted, and whether the loop completes (a panic ends it). -/
def processBlock (N : NodeEnv) (rng : Nat → Rng) (sk : SecretKey) (s : Exonum.Schema) : Nat → List Exonum.Envelope → List Exonum.Envelope × Bool
  | _, [] => ([], true)
  | i, x :: xs =>
    match react N (rng i) sk s x with
    | .ok l => (l ++ (processBlock N rng sk s (i + 1) xs).1, (processBlock N rng sk s (i + 1) xs).2)
    | _ => ([], false)

/-- One step.  `after_commit` (service.rs:52-128) at a height looks at the block before, "one block behind", with the blockchain as it is after the block at this height;
nothing is modelled for height 0, where there is no block before. -/
def step (N : NodeEnv) (c : Chain) : BlockEvent → Chain
  | .submit x => { c with pool := c.pool ++ [x] }
  | .commit places => { c with blocks := c.blocks ++ [(pick c.pool places).1], pool := (pick c.pool places).2 }
  | .lose i =>
    match c.pool[i]? with
    | some x => { c with pool := c.pool.eraseIdx i, lost := c.lost ++ [x] }
    | none => c
  | .afterCommit key rng height =>
    match height with
    | 0 => c
    | h + 1 =>
      if h + 1 < c.blocks.length then
        let r := processBlock N rng key (c.schemaAt N.toEnv (h + 1)) 0 (c.blocks.getD h [])
        { c with pool := c.pool ++ r.1, processed := if r.2 then (key, h + 1) :: c.processed else c.processed }
      else c

/-- A whole schedule. (a run of service.rs:36-128 at all nodes.) -/
def run (N : NodeEnv) (events : List BlockEvent) : Chain := events.foldl (step N) genesis

end Chain
end Server
end CB
