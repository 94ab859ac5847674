import Verif.Conc.Deadlock

/-!
# A node that is asked to stop

The threads of a node, what each still does when the node is asked to stop, and the thread that stops it and waits for the others to
end.  That a thread has not ended is modelled as a lock that it holds: who joins it waits for that lock.
-/
namespace Verif.Conc

/-- The threads that are joined: `Dandelion` (Dandelion.cpp:56), `Syncer` (Syncer.cpp:44), the two of `Seeder` (Seeder.cpp:51-52),
those of the pipes: that takes over a snapshot and those that send one (TxHashSetPipe.cpp:58, 166), for transactions
(TransactionPipe.cpp:28), for blocks and orphans (BlockPipe.cpp:25-26), one for each block of a group (BlockPipe.cpp:50), and the one
that pings (ConnectionManager.cpp:50). -/
inductive ThreadName
  | dandelion | sync | seed | asio | snapshot | tx | blocks | orphans | ping
  | send (k : Nat)
  | task (k : Nat)
deriving DecidableEq, Repr

/-- `Seeder::m_mutex` (Seeder.h:69), that a thread has not ended, and the locks of the node. -/
inductive StopLock
  | accept
  | ended (t : ThreadName)
  | node (l : NodeLock)
deriving DecidableEq, Repr

/-- The locks of the node among these. -/
def lift : List (LockOp NodeLock) → List (LockOp StopLock) :=
  List.map fun
    | .take m ls => .take m (ls.map .node)
    | .drop ls => .drop (ls.map .node)

/-- `ThreadUtil::Join` (ThreadUtil.h:31-40). -/
def waitFor (t : ThreadName) : List (LockOp StopLock) := [.take .shared [.ended t], .drop [.ended t]]

/-- What the threads are doing when the node is asked to stop.  `rest`: what each does until it sees that it is to end — what is left of the round of its
loop (Dandelion.cpp:71-96, Syncer.cpp:61-98, Seeder.cpp:81-101, TransactionPipe.cpp:38-75, BlockPipe.cpp:36-62, ConnectionManager.cpp:265-273)
or of the handler that is running (after `stop`, Seeder.cpp:22, no other is started), or of the snapshot (TxHashSetPipe.cpp:100, 217).
`tasks`: how many blocks are being processed as a group (at most 8); `sends`: how many snapshots have been sent.  `accepting`: whether the handler that is running is
`Seeder::Accept`, and if so whether it has locked `m_mutex` (Seeder.cpp:124). -/
structure Doing where
  rest : ThreadName → List NodeOp
  tasks : Nat
  sends : Nat
  accepting : Option Bool

/-- The threads there are. -/
def Doing.names (d : Doing) : List ThreadName :=
  [.dandelion, .sync, .seed, .asio, .snapshot, .tx, .blocks, .orphans, .ping] ++
    (List.range d.sends).map .send ++ (List.range d.tasks).map .task

/-- What `Accept` locks after `m_mutex`: the list of connections, when it counts them (Seeder.cpp:128), and the peers, a lock under which no other is taken. -/
def counting : List (LockOp StopLock) := lift (holding .shared [.connections] [])

/-- What a thread does before the rest of its operations: that of the blocks waits for those of the group (BlockPipe.cpp:53),
that of the network is in `Accept` or not (Seeder.cpp:122-163). -/
def Doing.first (d : Doing) : ThreadName → List (LockOp StopLock)
  | .blocks => (List.range d.tasks).flatMap fun k => waitFor (.task k)
  | .asio =>
    match d.accepting with
    | none => []
    | some false => .take .excl [.accept] :: (counting ++ [.drop [.accept]])
    | some true => counting ++ [.drop [.accept]]
  | _ => []

/-- A thread of the node: it has not ended until it has done all this. -/
def Doing.thread (d : Doing) (t : ThreadName) : Thread StopLock :=
  ⟨(.ended t, .excl) :: (if t = .asio ∧ d.accepting = some true then [(.accept, .excl)] else []),
   d.first t ++ lift ((d.rest t).flatMap NodeOp.locks) ++ [.drop [.ended t]]⟩

/-- `P2PServer::~P2PServer` (P2PServerImpl.cpp:30-38) up to where it closes the connections: `~Dandelion` (Dandelion.cpp:33-37),
`~Syncer` (Syncer.cpp:26-30), `~Seeder` (Seeder.cpp:17-27), the pipes in the reverse of the order of Pipeline.h:68-70
(TxHashSetPipe.cpp:19-23, TransactionPipe.cpp:15-20, BlockPipe.cpp:14-20), and that of the pings (ConnectionManager.cpp:33). -/
def Doing.joins (d : Doing) : List (LockOp StopLock) :=
  waitFor .dandelion ++ waitFor .sync ++
  ([.take .excl [.accept]] ++ waitFor .seed ++ waitFor .asio ++ [.drop [.accept]]) ++
  (waitFor .snapshot ++ (List.range d.sends).flatMap (fun k => waitFor (.send k))) ++
  waitFor .tx ++ (waitFor .blocks ++ waitFor .orphans) ++ waitFor .ping

/-- `PruneConnections(false)` (ConnectionManager.cpp:35, 191-217): the connections it comes to are closed. -/
def closing (ids : List Nat) : List (LockOp StopLock) := lift (NodeOp.prune ids).locks

/-- The node from the moment it is asked to stop: the thread that stops it first, then the others. -/
def Doing.stopping (d : Doing) (ids : List Nat) : List (Thread StopLock) :=
  ⟨[], d.joins ++ closing ids⟩ :: d.names.map d.thread

end Verif.Conc
