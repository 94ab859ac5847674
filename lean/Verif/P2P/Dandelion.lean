import Verif.Tx.Pool

/-!
# The thread that relays transactions of the stem pool

Model of `src/P2P/Dandelion.cpp` on top of the pools.  Peers are their IP addresses.
-/
namespace Verif.P2P
open Verif.Tx

/-- The members of `Dandelion` (Dandelion.h) and the pools. -/
structure Monitor where
  relay : Option Nat
  until_ : Int
  pools : Pools

/-- What is sent: a stem message to a peer (Dandelion.cpp:142), or a transaction to all (151, 183, 199). -/
inductive Sent where
  | stem (tx : Tx) (peer : Nat)
  | all (tx : Tx)
deriving DecidableEq

/-- What one run sees of the rest of the node: the clock, the peers with most work, the random index, the peers connected when a message is
sent, the height of the confirmed tip, the configured times with the random addition, and the txhashset in each phase.  The chain is read
again at each step of the code; here it may differ between the phases, not within the last one. -/
structure RunView (S : Type) where
  now : Int
  best : List Nat
  pick : Nat
  connected : Nat → Bool
  tip : Option Nat
  relaySeconds : Nat
  embargo : Nat
  stemState : Option S
  fluffState : Option S
  poolState : Option S

variable {S : Type} (R : PoolRules S)

/-- `BlockChain::AddTransaction` (BlockChainImpl.cpp:205-240) to the public pool: whether the status is SUCCESS. -/
def nodeAdd (p : Pools) (v : RunView S) (tx : Tx) : Res (Pools × Bool) :=
  match v.tip with
  | none => .ok (p, false)
  | some h =>
    match addTx R p v.poolState h tx true false with
    | .ok (p', st) => .ok (p', st = .added)
    | .throw => .ok (p, false)
    | .ub => .ub

/-- The choice of the relay (Dandelion.cpp:103-115): `none` if there is no peer. -/
def chooseRelay (m : Monitor) (v : RunView S) : Option Monitor :=
  if m.relay = none ∨ m.until_ < v.now then
    if v.best = [] then none
    else some { m with relay := v.best[v.pick]?, until_ := v.now + v.relaySeconds }
  else some m

/-- The rest of `ProcessStemPhase` after a transaction to stem was found (Dandelion.cpp:136-154). -/
def sendStem (m : Monitor) (v : RunView S) (tx : Tx) : Res (Monitor × List Sent) :=
  match m.relay with
  | none => .ub
  | some q =>
    if v.connected q then .ok (m, [.stem tx q])
    else do
      let r ← nodeAdd R m.pools v tx
      return ({ m with pools := r.1 }, if r.2 then [.all tx] else [])

/-- `ProcessStemPhase` (Dandelion.cpp:101-157).  The last component is false if an exception was thrown. -/
def stemPhase (m : Monitor) (v : RunView S) : Res (Monitor × List Sent × Bool) :=
  match chooseRelay m v with
  | none => .ok (m, [], true)
  | some m =>
    match v.stemState with
    | none => .ok (m, [], true)
    | some s =>
      match toStem R m.pools s with
      | .ub => .ub
      | .throw => .ok (m, [], false)
      | .ok (p, none) => .ok ({ m with pools := p }, [], true)
      | .ok (p, some tx) => do
        let r ← sendStem R { m with pools := p } v tx
        return (r.1, r.2, true)

/-- `ProcessFluffPhase` (Dandelion.cpp:159-187). -/
def fluffPhase (m : Monitor) (v : RunView S) : Res (Monitor × List Sent × Bool) :=
  match v.fluffState with
  | none => .ok (m, [], true)
  | some s =>
    match toFluff R m.pools s with
    | .ub => .ub
    | .throw => .ok (m, [], false)
    | .ok (p, none) => .ok ({ m with pools := p }, [], true)
    | .ok (p, some tx) => .ok ({ m with pools := p }, [.all tx], true)

/-- The loop of `ProcessExpiredEntries` (Dandelion.cpp:195-206). -/
def expireLoop (m : Monitor) (v : RunView S) : List Tx → Res (Monitor × List Sent)
  | [] => .ok (m, [])
  | tx :: txs => do
    let r ← nodeAdd R m.pools v tx
    let q ← expireLoop { m with pools := r.1 } v txs
    return (q.1, (if r.2 then [.all tx] else []) ++ q.2)

/-- One round of `Thread_Monitor` (Dandelion.cpp:77-95): an exception skips the phases that follow. -/
def monitorRun (m : Monitor) (v : RunView S) : Res (Monitor × List Sent) := do
  let a ← stemPhase R m v
  if !a.2.2 then return (a.1, a.2.1)
  else do
    let b ← fluffPhase R a.1 v
    if !b.2.2 then return (b.1, a.2.1 ++ b.2.1)
    else do
      let c ← expireLoop R b.1 v (expired b.1.pools v.now v.embargo)
      return (c.1, a.2.1 ++ b.2.1 ++ c.2)

end Verif.P2P
