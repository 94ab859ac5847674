import Verif.Base.Outcome

/-!
# Rate counters, the listener, queues and the transaction pipe

Model of `include/Net/RateCounter.h`, of `Seeder::Accept` and the thread that runs its handlers (src/P2P/Seed/Seeder.cpp),
of `include/Common/ConcurrentQueue.h` and of `src/P2P/Pipeline/TransactionPipe.cpp`.
-/
namespace Verif.P2P

/-! ## RateCounter -/

/-- `AddMessageReceived` and `AddMessageSent` (RateCounter.h:19-29) at time `now`. -/
def rateAdd (q : List Int) (now : Int) : List Int := q ++ [now]

/-- The loop of `GetReceivedInLastMinute` (RateCounter.h:35-43). -/
def rateDrop (minuteAgo : Int) : List Int → List Int
  | [] => []
  | t :: q => if minuteAgo ≤ t then t :: q else rateDrop minuteAgo q

/-- `GetReceivedInLastMinute` and `GetSentInLastMinute` (RateCounter.h:31-63): the queue afterwards and the count. -/
def rateGet (q : List Int) (now : Int) : List Int × Nat :=
  let q := rateDrop (now - 60) q
  (q, q.length)

/-- Calls to one of the two counters, with the time of the call. -/
inductive RateOp
  | add (now : Int)
  | get (now : Int)

/-- One call. -/
def RateOp.step (q : List Int) : RateOp → List Int
  | .add t => rateAdd q t
  | .get t => (rateGet q t).1

/-! ## The listener -/

/-- What `Accept` finds for a connection (Seeder.cpp:122-163): `error` is its argument, `full` that there are as many
connections as allowed, `gone` that the other side has hung up already, so that `remote_endpoint()` throws, `blocked`
and `allowed` the lists of the configuration, `banned` the peer. -/
structure Arrival where
  error : Bool
  full : Bool
  gone : Bool
  blocked : Bool
  allowed : Bool
  banned : Bool
deriving DecidableEq, Repr

/-- The thread of `Thread_AsioContext` (Seeder.cpp:57-67) and its `io_context`.  `armed`: an `async_accept` is pending;
`ops`: how many other operations (connects, reads, writes) are pending; `stopped`: `run` ran out of work, after which every
further call of `run` returns at once, as `restart` is never called; `dead`: an exception left the thread, which ends the
program; `opened` and `served` count connections made by `Accept` and operations completed. -/
structure Net where
  armed : Bool
  ops : Nat
  stopped : Bool
  dead : Bool
  opened : Nat
  served : Nat
deriving DecidableEq, Repr

/-- `Accept` (Seeder.cpp:122-163). -/
def Net.accept (n : Net) (a : Arrival) : Net :=
  let n := { n with armed := false }
  if a.error then n
  else if a.full then { n with armed := true }
  else if a.gone then { n with dead := true }
  else if a.blocked then n
  else if !a.allowed then n
  else if a.banned then { n with armed := true }
  else { n with armed := true, opened := n.opened + 1 }

/-- What can happen: a connection arrives at the port; another thread starts an operation; an operation completes, and its
handler starts the next one or does not. -/
inductive NetEvent
  | arrive (a : Arrival)
  | start
  | complete (again : Bool)

/-- `run` returns when no operation is pending, and the context is then stopped. -/
def Net.settle (n : Net) : Net := if n.armed = false ∧ n.ops = 0 then { n with stopped := true } else n

/-- One event.  Handlers run only while the context is not stopped. -/
def Net.step (n : Net) : NetEvent → Net
  | .arrive a => if n.dead || n.stopped || !n.armed then n else (n.accept a).settle
  | .start => if n.dead then n else { n with ops := n.ops + 1 }
  | .complete again =>
    if n.dead || n.stopped || n.ops = 0 then n
    else if again then { n with served := n.served + 1 }
    else { n with ops := n.ops - 1, served := n.served + 1 }.settle

/-- `StartListener` (Seeder.cpp:106-120) and the first call of `run`; `bound` is whether the port could be opened. -/
def Net.initial (bound : Bool) : Net := Net.settle ⟨bound, 0, false, false, 0, 0⟩

/-! ## ConcurrentQueue -/

/-- The calls that change a queue (ConcurrentQueue.h:77-142), `push_back_unique` with its comparator. -/
inductive QOp (α : Type)
  | push (a : α)
  | pushUnique (a : α)
  | pop (n : Nat)

/-- `push_back_unique` (ConcurrentQueue.h:128-142). -/
def pushUnique {α : Type} (same : α → α → Bool) (q : List α) (a : α) : List α × Bool :=
  if q.any (fun b => same b a) then (q, false) else (q ++ [a], true)

/-- `copy_front` with a number (ConcurrentQueue.h:45-63).  For 0 the loop does not end before the queue does. -/
def copyFront {α : Type} (q : List α) (n : Nat) : List α := if n = 0 then q else q.take n

/-- One call; the queue, and the elements popped so far (`pop_front`, ConcurrentQueue.h:77-87). -/
def QOp.step {α : Type} (same : α → α → Bool) (s : List α × List α) : QOp α → List α × List α
  | .push a => (s.1 ++ [a], s.2)
  | .pushUnique a => ((P2P.pushUnique same s.1 a).1, s.2)
  | .pop n => (s.1.drop n, s.2 ++ s.1.take n)

/-! ## TransactionPipe -/

/-- `EBlockChainStatus` as `AddTransaction` returns it (BlockChainImpl.cpp:205-240). -/
inductive TxStatus | success | invalid | unknownError
deriving DecidableEq, Repr

/-- A queued transaction: the connection, the transaction and whether it is for the memory pool (TransactionPipe.h). -/
structure TxEntry (T : Type) where
  peer : Nat
  tx : T
  mempool : Bool

/-- The pipe: the queue, the pool behind `AddTransaction`, the peers banned and the transactions announced. -/
structure Pipe (T P : Type) where
  queue : List (TxEntry T)
  pool : P
  banned : List Nat
  announced : List T

/-- One round of `Thread_ProcessTransactions` (TransactionPipe.cpp:38-73).  `add` is `AddTransaction`, which lets no
exception out; `announce` the loop of `BroadcastMessage` over the kernels, which may throw.  The element is removed after
all this; an exception skips the removal. -/
def Pipe.round {T P : Type} (add : P → TxEntry T → P × TxStatus) (announce : P → T → Res Unit) (s : Pipe T P) : Pipe T P :=
  match s.queue with
  | [] => s
  | e :: rest =>
    let r := add s.pool e
    if r.2 = .success ∧ e.mempool = true then
      match announce r.1 e.tx with
      | .ok _ => { s with queue := rest, pool := r.1, announced := s.announced ++ [e.tx] }
      | _ => { s with pool := r.1 }
    else if r.2 = .invalid then { s with queue := rest, pool := r.1, banned := s.banned ++ [e.peer] }
    else { s with queue := rest, pool := r.1 }

/-- `n` rounds. -/
def Pipe.rounds {T P : Type} (add : P → TxEntry T → P × TxStatus) (announce : P → T → Res Unit) : Nat → Pipe T P → Pipe T P
  | 0, s => s
  | n + 1, s => Pipe.rounds add announce n (s.round add announce)

/-- `AddTransactionToProcess` (TransactionPipe.cpp:78-86), transactions compared by hash. -/
def Pipe.push {T P H : Type} [DecidableEq H] (hash : T → H) (s : Pipe T P) (e : TxEntry T) : Pipe T P × Bool :=
  let r := pushUnique (fun a b => hash a.tx = hash b.tx) s.queue e
  ({ s with queue := r.1 }, r.2)

end Verif.P2P
