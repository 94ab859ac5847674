import Mathlib.Data.List.Basic

/-!
# Threads that wait for locks

The locks of a node that its threads take one inside the other, and the order in which each operation takes them.
-/
namespace Verif.Conc

/-- `lock_shared` or `lock`. -/
inductive Mode
  | shared | excl
deriving DecidableEq, Repr

/-- What a thread does with locks: `take` waits until all can be had (`std::lock` for more than one: it holds none while it
waits), `drop` releases. -/
inductive LockOp (L : Type)
  | take (m : Mode) (ls : List L)
  | drop (ls : List L)
deriving DecidableEq, Repr

/-- A thread: the locks it holds and what it still does. -/
structure Thread (L : Type) where
  held : List (L × Mode)
  prog : List (LockOp L)
deriving DecidableEq, Repr

variable {L : Type} [DecidableEq L]

/-- `std::shared_mutex` and `std::mutex`: whether a lock can be had now.  As in the C library on Linux, a thread that waits to write does not
keep readers out.  A thread that asks to write, or for what it holds for writing, waits for itself. -/
def free (s : List (Thread L)) (m : Mode) (l : L) : Bool :=
  s.all fun t => t.held.all fun h => h.1 ≠ l || (m = .shared && h.2 = .shared)

/-- Whether the thread at this place can go on. -/
def canStep (s : List (Thread L)) (i : Nat) : Bool :=
  match s[i]? with
  | none => false
  | some t =>
    match t.prog with
    | [] => false
    | .drop _ :: _ => true
    | .take m ls :: _ => ls.all (free s m)

/-- A thread after its next step. -/
def Thread.next (t : Thread L) : Thread L :=
  match t.prog with
  | [] => t
  | .take m ls :: p => ⟨ls.map (fun l => (l, m)) ++ t.held, p⟩
  | .drop ls :: p => ⟨t.held.filter (fun h => h.1 ∉ ls), p⟩

/-- The thread at this place goes on, if it can. -/
def stepThread (s : List (Thread L)) (i : Nat) : List (Thread L) :=
  if canStep s i then s.modify i Thread.next else s

/-- The threads go on in this order. -/
def schedule (s : List (Thread L)) (order : List Nat) : List (Thread L) := order.foldl stepThread s

/-! ## The locks of a node -/

/-- The locks: `Connection::m_mutex` of each connection (Connection.h:115), the chain state, the chain store, the block
database, the header MMR and the tx hash set (each in a `Locked`, Lockable.h:258-314), the files of the chains and of the header MMR
(Chain.cpp:126, HeaderMMRImpl.h:32), `TransactionPool::m_mutex`, and the list of connections (ConnectionManager.h).  Locks under
which no other is taken (sockets, rate counters, queues, caches, the peer database, contexts of the crypto library) are not modelled. -/
inductive NodeLock
  | connection (id : Nat)
  | chainState | chainStore | blockDB | headerMMR | txHashSet | files | pool | connections
deriving DecidableEq, Repr

/-- Locking, then something, then releasing. -/
def holding (m : Mode) (ls : List NodeLock) (inner : List (LockOp NodeLock)) : List (LockOp NodeLock) :=
  .take m ls :: (inner ++ [.drop ls])

/-- What is locked for reading for one call within a method of `ChainState` (ChainState.h:66-72, 86-92, 106-112, 135-150). -/
inductive Part
  | chainStore | blockDB | headerMMR | txHashSet
deriving DecidableEq, Repr

/-- Its lock. -/
def Part.lock : Part → NodeLock
  | .chainStore => .chainStore
  | .blockDB => .blockDB
  | .headerMMR => .headerMMR
  | .txHashSet => .txHashSet

/-- Calls within a method of `ChainState`, one after the other. -/
def calls (ps : List Part) : List (LockOp NodeLock) := ps.flatMap fun p => holding .shared [p.lock] []

/-- `ConnectionManager::BroadcastMessage`, `SendMessageToPeer` (ConnectionManager.cpp:147-171): the list is copied under its lock. -/
def broadcast : List (LockOp NodeLock) := holding .shared [.connections] []

/-- Operations on the chain and the pool. -/
inductive ChainOp
  /-- The methods of `BlockChain` that read (BlockChainImpl.cpp:118-131, 280-385, 420-440). -/
  | read (ps : List Part)
  /-- `BlockChain::AddTransaction` (BlockChainImpl.cpp:205-240); the two readers of lines 214-215 are made in an order the
  compiler chooses. -/
  | addTransaction (dbFirst : Bool)
  /-- `CoinView::GetOutputType` (CoinView.cpp:5-19). -/
  | coinView
  /-- Whatever is done in a batch of the chain state: headers, blocks, snapshots, resync (BlockHeaderProcessor.cpp:23, 156,
  BlockProcessor.cpp:43, TxHashSetProcessor.cpp:31, 50, ChainResyncer.cpp:13, BlockChainImpl.cpp:177); `ChainState::OnInitWrite` (ChainState.cpp:268-280) locks
  the four parts, which lock their files; a number of times the pool is reconciled. -/
  | write (reconciled : Nat)
  /-- `Dandelion::ProcessStemPhase`, `ProcessFluffPhase` (Dandelion.cpp:119-134, 163-178). -/
  | relay
  /-- `DefaultNodeClient::PostTransaction` (DefaultNodeClient.h:122-160). -/
  | post
  /-- Reading the block database directly (DefaultNodeClient.h:90-120, TxHashSetAPI.cpp:241, ChainAPI.cpp:160). -/
  | lookup
  /-- Reading the pool (TransactionPoolImpl.cpp:13-25, 93-110, 189-200). -/
  | readPool
  /-- Changing the pool alone (TransactionPoolImpl.cpp:113-187). -/
  | changePool
  /-- A message for one peer or all. -/
  | broadcast

/-- The locks an operation takes. -/
def ChainOp.locks : ChainOp → List (LockOp NodeLock)
  | .read ps => holding .shared [.chainState] (calls ps)
  | .addTransaction dbFirst =>
    holding .shared [.chainState] (calls [.chainStore, .blockDB] ++
      if dbFirst then holding .shared [.blockDB] (holding .shared [.txHashSet] (holding .excl [.pool] []))
      else holding .shared [.txHashSet] (holding .shared [.blockDB] (holding .excl [.pool] [])))
  | .coinView => holding .shared [.chainState] (holding .shared [.blockDB] (calls [.txHashSet]))
  | .write n =>
    holding .excl [.chainState] (holding .excl [.chainStore, .blockDB, .headerMMR, .txHashSet]
      (holding .excl [.files] ((List.replicate n (holding .excl [.pool] [])).flatten)))
  | .relay => holding .shared [.blockDB, .txHashSet] (holding .excl [.pool] [])
  | .post => holding .shared [.chainState] (calls [.chainStore, .blockDB]) ++
      holding .shared [.blockDB] (holding .excl [.pool] [] ++ Conc.broadcast)
  | .lookup => holding .shared [.blockDB] []
  | .readPool => holding .shared [.pool] []
  | .changePool => holding .excl [.pool] []
  | .broadcast => Conc.broadcast

/-- What the threads of a node do. -/
inductive NodeOp
  /-- An operation on the chain or the pool. -/
  | chain (op : ChainOp)
  /-- `Connection::HandleReceivedBody` (Connection.cpp:176-220): a message is handled under the lock of its connection.  Also
  `CheckPing`, `ReceiveSync` and `HandleReceivedHeader` (Connection.cpp:144-174, 222-241, 258-270), which do nothing of this kind. -/
  | message (id : Nat) (ops : List ChainOp)
  /-- `ConnectionManager::PruneConnections` (ConnectionManager.cpp:191-217), which calls `Disconnect` (Connection.cpp:21-30) of
  the connections it finds dead. -/
  | prune (dead : List Nat)

/-- The locks taken. -/
def NodeOp.locks : NodeOp → List (LockOp NodeLock)
  | .chain op => op.locks
  | .message id ops => holding .excl [.connection id] (ops.flatMap ChainOp.locks)
  | .prune dead => holding .excl [.connections] (dead.flatMap fun id => holding .excl [.connection id] [])

/-- A thread that does these, one after the other. -/
def worker (ops : List NodeOp) : Thread NodeLock := ⟨[], ops.flatMap NodeOp.locks⟩

end Verif.Conc
