import Verif.Codec.Messages

/-!
# Locks taken while a message is handled and while the chain is opened

`std::mutex` and `std::shared_mutex` are not recursive: locking one a second time in the thread that holds it
is undefined (in practice the thread blocks for ever).  A computation is a function of the set of mutexes its
thread holds; leaving a scope, normally or by an exception, releases what the scope took.
-/
namespace Verif.Conc

open Verif Verif.Codec

/-- The mutexes concerned: `Connection::m_mutex` (Connection.h:115) and those of the `Locked` objects
(Lockable.h:258-314) of the block database, tx hash set manager, chain state and chain store. -/
inductive Mutex
  | connection | blockDB | txHashSet | chainState | chainStore
deriving DecidableEq, Repr

/-- A computation of a thread, given the mutexes it holds. -/
abbrev Locks (α : Type) := List Mutex → Res α

/-- `std::unique_lock lock(m); act` (also a `Reader` or `Writer` of `Locked`, Lockable.h:271-299: shared locking
by a thread that holds the mutex is undefined too). -/
def locked {α : Type} (m : Mutex) (act : Locks α) : Locks α :=
  fun held => if m ∈ held then .ub else act (m :: held)

/-- The state of a connection (Connection.h:97-115) and its peer, as far as `HandleReceivedBody` uses it;
`waiting`: a read of the next header has been started. -/
structure Conn where
  terminate : Bool
  socketOpen : Bool
  peerConnected : Bool
  banned : Bool
  receivingDisabled : Bool
  waiting : Bool
deriving DecidableEq, Repr

/-- `Connection::Disconnect` (Connection.cpp:21-30). -/
def disconnect (c : Conn) : Locks Conn :=
  locked .connection fun _ =>
    .ok (if c.terminate then c else { c with terminate := true, socketOpen := false, peerConnected := false })

/-- How `ProcessMessageInternal` (MessageProcessor.cpp:105-432) ends: normally, or with a `BadDataException`, a
`BlockChainException`, a `DeserializationException` or another `std::exception`. -/
inductive Processed
  | done | badData | chainError | malformed | otherError
deriving DecidableEq, Repr

/-- `MessageProcessor::ProcessMessage` (MessageProcessor.cpp:65-103), with `Connection::BanPeer`
(Connection.cpp:272-277). -/
def processMessage (r : Processed) (c : Conn) : Locks Conn := fun held =>
  match r with
  | .done => .ok c
  | .badData => .ok { c with banned := true, terminate := true }
  | .chainError => .ok c
  | .malformed => disconnect c held
  | .otherError => .throw

/-- `Connection::HandleReceivedBody` (Connection.cpp:176-220); `complete`: no socket error and as many bytes as
the header announced. -/
def handleReceivedBody (complete : Bool) (r : Processed) (c : Conn) : Locks Conn :=
  locked .connection fun held =>
    if complete && c.socketOpen then
      match processMessage r c held with
      | .ok c' => .ok { c' with waiting := !c'.receivingDisabled && c'.socketOpen }
      | .throw => .ok { c with socketOpen := false, peerConnected := false, waiting := false }
      | .ub => .ub
    else .ok { c with socketOpen := false, peerConnected := false, waiting := false }

/-- The outcome of a message whose body the deserializer refuses; other bodies go on to handlers outside this
model, whose outcome is `r`. -/
def outcomeOf {α : Type} (d : Res α) (r : Processed) : Processed :=
  match d with
  | .throw => .malformed
  | _ => r

/-- `Consensus::GetHorizonHeight` (Consensus.h:123, 153-158). -/
def horizonHeight (h : Nat) : Nat := max h 10080 - 10080

/-- `BlockChain::Create`, lines 97-101 of BlockChainImpl.cpp: drop the tx hash set if it is too far behind,
else compact it.  Returns whether it was dropped. -/
def dropOrCompact (behind : Bool) : Locks Bool := fun held =>
  if behind then locked .txHashSet (fun _ => .ok true) held else .ok false

/-- `BlockChain::Create`, the compaction at start-up (BlockChainImpl.cpp:87-104), with the horizon rule as a
parameter.  `flushed` is the height of the flushed header of the tx hash set, if there is one.  Returns whether
the set was dropped (to be downloaded again) rather than compacted. -/
def startupWith (horizon : Nat → Nat) (flushed : Option Nat) (confirmedHeight : Nat) : Locks Bool :=
  locked .blockDB fun held => do
    let _ ← locked .chainStore (fun _ => .ok ()) held
    locked .txHashSet (fun held =>
      match flushed with
      | none => .ok false
      | some f => do
        let h ← locked .chainState (fun held => locked .chainStore (fun _ => .ok confirmedHeight) held) held
        dropOrCompact (decide (f < horizon h)) held) held

/-- The same with the horizon of the code (BlockChainImpl.cpp:96). -/
def startupCompaction : Option Nat → Nat → Locks Bool := startupWith horizonHeight

end Verif.Conc
