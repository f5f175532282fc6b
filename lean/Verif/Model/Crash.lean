import Verif.Model.Blocks
/-!
# Nodes that stop in the middle of their work (cryptoballot_server/src/service.rs)

A node's process can be stopped at any point of `after_commit`.  By then the block is committed, and a node that is started again goes on with the blocks after it: nothing in the code runs
the hook for a block a second time, and nothing of a run of the hook is kept on disk.

Simplified: between two submissions, the point at which the hook is stopped makes no difference to others; what is submitted is submitted.  That Exonum does not call the hook again after
a restart is read off its documentation; its source is not part of /repo.
-/

namespace CB
namespace Server

/-- What can happen next, including that a node stops. (service.rs:36-44 and 52-128.) -/
inductive CrashEvent
  /-- as in `Model/Blocks.lean` -/
  | block (ev : BlockEvent)
  /-- the node with this key runs `after_commit` for this height and is stopped when it has made so many submissions -/
  | crash (key : SecretKey) (rng : Nat → Rng) (height sent : Nat)

namespace Chain

/-- One step, with `after_commit` (service.rs:52-128) cut off after some submissions: it does not count as completed, and the remaining submissions (service.rs:120) are lost. -/
def stepC (N : NodeEnv) (c : Chain) : CrashEvent → Chain
  | .block ev => step N c ev
  | .crash key rng height sent =>
    match height with
    | 0 => c
    | h + 1 =>
      if h + 1 < c.blocks.length then
        let r := (processBlock N rng key (c.schemaAt N.toEnv (h + 1)) 0 (c.blocks.getD h [])).1
        { c with pool := c.pool ++ r.take sent, lost := c.lost ++ r.drop sent }
      else c

/-- A whole schedule. (a run of service.rs:36-128 at all nodes.) -/
def runC (N : NodeEnv) (events : List CrashEvent) : Chain := events.foldl (stepC N) genesis

end Chain
end Server
end CB
