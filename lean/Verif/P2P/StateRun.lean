import Verif.P2P.Sync

/-!
# Whom a node asks for the state, and whom it bans

Model of the members of `StateSyncer` and of the parts of `SyncStatus` it looks at, over time (src/P2P/Sync/StateSyncer.cpp,
src/P2P/Pipeline/TxHashSetPipe.cpp:67-151).  Peers are numbers.  The header at the height asked for is there (C61 has the case that it is not), and the
node is not being stopped.
-/
namespace Verif.P2P
open Verif

/-- `SyncStatus` (SyncStatus.h) and the members of `StateSyncer` (StateSyncer.h:28-30), with the peers asked so far and those banned. -/
structure StateSync where
  phase : SyncPhase
  headerHeight : Nat
  blockHeight : Nat
  downloaded : Nat
  requested : Nat
  timeRequested : Int
  peer : Option Nat
  asked : List Nat
  banned : List Nat

/-- A node that has just been started (StateSyncer.h:17-19).  The time is that of the start there; it is not looked at before a request. -/
def StateSync.fresh (headerHeight blockHeight : Nat) : StateSync := ⟨.other, headerHeight, blockHeight, 0, 0, 0, none, [], []⟩

/-- What `IsStateSyncDue` sees. -/
def StateSync.view (connected : Nat → Bool) (s : StateSync) : SyncView :=
  ⟨s.phase, s.headerHeight, s.blockHeight, s.downloaded, s.requested, s.timeRequested, s.peer.map connected⟩

/-- `RequestState` (StateSyncer.cpp:90-116): the peer asked last is banned (92-97), the state is asked of `best`, the peer of most work
(`SendMessageToMostWorkPeer`, ConnectionManager.cpp:135-145), if there is one. -/
def StateSync.request (now : Int) (best : Option Nat) (s : StateSync) : StateSync :=
  { s with
    peer := best
    banned := s.banned ++ s.peer.toList
    asked := s.asked ++ best.toList
    timeRequested := if best.isSome then now else s.timeRequested
    requested := if best.isSome then sub64 s.headerHeight stateSyncThreshold else s.requested }

/-- `SyncState` (StateSyncer.cpp:8-16), run by the sync thread. -/
def StateSync.tick (now : Int) (connected : Nat → Bool) (best : Option Nat) (s : StateSync) : StateSync :=
  if stateSyncDue now (s.view connected) then ({ s with phase := .other } : StateSync).request now best else s

/-- What happens to a node that syncs: the sync thread comes to the state; a peer announces an archive (TxHashSetPipe.cpp:82); bytes of it have come
(115); the transmission breaks off, or the archive is not valid (106-107, 132-133, 145-146); the archive is complete and being processed (126); it is
accepted (137), our blocks then end at its height; headers; blocks; the sync thread enters another status (Syncer.cpp:69-71, 84, 90-92). -/
inductive SyncEvent
  | tick (now : Int) (connected : Nat → Bool) (best : Option Nat)
  | announced
  | received (bytes : Nat)
  | failed (peer : Nat)
  | processing
  | accepted (height : Nat)
  | headers (height : Nat)
  | blocks (height : Nat)
  | status

/-- One of these. -/
def StateSync.on (s : StateSync) : SyncEvent → StateSync
  | .tick now connected best => s.tick now connected best
  | .announced => { s with downloaded := 0 }
  | .received n => { s with downloaded := n }
  | .failed p => { s with phase := .txHashSetFailed, banned := s.banned ++ [p] }
  | .processing => { s with phase := .processingTxHashSet }
  | .accepted h => { s with phase := .other, blockHeight := h }
  | .headers h => { s with headerHeight := h }
  | .blocks h => { s with blockHeight := h }
  | .status => { s with phase := .other }

/-- A run. -/
def StateSync.run (s : StateSync) (es : List SyncEvent) : StateSync := es.foldl StateSync.on s

end Verif.P2P
