import Verif.P2P.Archive

/-!
# Snapshots served to several peers at a time

Model of `TxHashSetPipe::SendTxHashSet` and `Thread_SendTxHashSet` (src/P2P/Pipeline/TxHashSetPipe.cpp:153-230) with the files they share.  One
thread runs per request; they meet at the path of the archive, which is made of the hash of the header only (TxHashSetManager.cpp:101-102).
Paths and files are those of POSIX: creating a file that exists empties it, removing it takes away the name only.  Nothing goes wrong with the
socket, and the node is not stopped meanwhile.
-/
namespace Verif.P2P
open Verif

/-- What becomes of the archive asked for: the header is not known (TxHashSetPipe.cpp:180-183), it is below the horizon or there is no chain state
(BlockChainImpl.cpp:179-182, TxHashSetManager.cpp:93-96), making it fails (149-153), or it is made, with these bytes. -/
inductive Making
  | unknown
  | refused
  | broken
  | made (file : Bytes)
deriving DecidableEq

/-- Where a thread is in `Thread_SendTxHashSet`.  Files are numbered. -/
inductive ServePhase
  | asked
  | creating
  | made
  | opened (file : Nat)
  | sending (file : Nat) (offset : Nat)
  | closing
  | done
deriving DecidableEq

/-- One request: the number its header gives to the path, what will be made, where its thread is, the size announced to the peer and the bytes sent
after that, and whether other messages to the peer are held back (Connection.h:107). -/
structure Serving where
  key : Nat
  making : Making
  phase : ServePhase
  size : Option Nat
  sent : Bytes
  silent : Bool
deriving DecidableEq

/-- A request as `SendTxHashSet` leaves it to its thread (TxHashSetPipe.cpp:162-172). -/
def askedFor (key : Nat) (m : Making) : Serving := ⟨key, m, .asked, none, [], true⟩

/-- The names of the archives and the files. -/
structure Disk where
  path : Nat → Option Nat
  data : Nat → Bytes
  next : Nat

/-- `zipOpen` with `APPEND_STATUS_CREATE` (Zipper.cpp:12). -/
def Disk.create (d : Disk) (key : Nat) : Disk :=
  match d.path key with
  | some f => { d with data := fun x => if x = f then [] else d.data x }
  | none => ⟨fun k => if k = key then some d.next else d.path k, fun x => if x = d.next then [] else d.data x, d.next + 1⟩

/-- The files put into the archive (Zipper.cpp:19-44), in one step. -/
def Disk.fill (d : Disk) (key : Nat) (bytes : Bytes) : Disk :=
  match d.path key with
  | some f => { d with data := fun x => if x = f then bytes else d.data x }
  | none => d

/-- `FileUtil::RemoveFile`. -/
def Disk.remove (d : Disk) (key : Nat) : Disk := { d with path := fun k => if k = key then none else d.path k }

/-- The node: its disk, the requests. -/
structure ServeState where
  disk : Disk
  reqs : List Serving

/-- Whether an archive is just being made: it is made in a batch of the chain state, of which there is one at a time (BlockChainImpl.cpp:177). -/
def ServeState.busy (st : ServeState) : Bool := st.reqs.any (fun r => r.phase = .creating)

/-- One step of the thread of a request (TxHashSetPipe.cpp:180-229): making the archive (180-192), opening it (197-201), asking for the size of what
is at the path, 0 when there is nothing (FileUtil.cpp:235-245), and announcing it (204-207), sending a block (211-220) or, when there is no whole one left, letting other messages through again (222),
removing the name (228-229).  `busy` says whether the chain state is taken by another; a request that will be refused waits for it too.  Simplified:
the archive is emptied in one step and has all its bytes after the next. -/
def Serving.step (busy : Bool) (d : Disk) (r : Serving) : Disk × Serving :=
  match r.phase with
  | .asked =>
    if busy then (d, r)
    else
      match r.making with
      | .unknown => (d, { r with phase := .done })
      | .refused => (d, { r with phase := .done })
      | .broken => (d.remove r.key, { r with phase := .done })
      | .made _ => (d.create r.key, { r with phase := .creating })
  | .creating =>
    match r.making with
    | .made b => (d.fill r.key b, { r with phase := .made })
    | _ => (d, r)
  | .made =>
    match d.path r.key with
    | none => (d, { r with phase := .done })
    | some f => (d, { r with phase := .opened f })
  | .opened f =>
    match d.path r.key with
    | none => (d, { r with phase := .sending f 0, size := some 0 })
    | some g => (d, { r with phase := .sending f 0, size := some (d.data g).length })
  | .sending f off =>
    if (d.data f).length < off + archiveBuffer then (d, { r with phase := .closing, silent := false })
    else (d, { r with phase := .sending f (off + archiveBuffer), sent := r.sent ++ ((d.data f).drop off).take archiveBuffer })
  | .closing => (d.remove r.key, { r with phase := .done })
  | .done => (d, r)

/-- A step of thread `i`. -/
def ServeState.step (st : ServeState) (i : Nat) : ServeState :=
  match st.reqs[i]? with
  | none => st
  | some r => ⟨(r.step st.busy st.disk).1, st.reqs.set i (r.step st.busy st.disk).2⟩

/-- The threads run in this order. -/
def ServeState.run (st : ServeState) (sched : List Nat) : ServeState := sched.foldl ServeState.step st

/-- `Connection::SendAsync` (Connection.cpp:52-67): what is on its way to the peer. -/
def sendAsync (silent : Bool) (out : List Bytes) (msg : Bytes) : List Bytes := if silent then out else out ++ [msg]

end Verif.P2P
