import Verif.Base.Outcome
import Verif.Base.Bytes

/-!
# Sending messages to a peer

`Socket::SendAsync` and `Socket::HandleSent` (src/Net/Socket.cpp) with the queue of `SharedQueue.h`, as they run in
several threads.  A call is a thread that makes one step at a time, in any order relative to the others; the operations of
the queue are one step each (they hold its mutex; `empty` holds no lock and is taken as one step too, although strictly it
is a data race).  Counting messages for the rate limit is not modelled.
-/
namespace Verif.SendQ
open Verif

/-- Where a call of `SendAsync` or of `HandleSent` is: the next line it executes. -/
inductive Th where
  /-- Line 186: is the queue empty? -/
  | look (m : Bytes)
  /-- Line 187: the message is put into the queue; `first`: line 186 found it empty. -/
  | push (m : Bytes) (first : Bool)
  /-- Lines 195-202, 218-225: the write of this message is started, if the socket is open. -/
  | start (m : Bytes)
  /-- Line 209: is the queue empty?  `ok`: the write succeeded. -/
  | sent (ok : Bool)
  /-- Line 210. -/
  | pop (ok : Bool)
  /-- Lines 213-215: is the queue empty? -/
  | next
  /-- Line 216: the first message is copied. -/
  | front
deriving DecidableEq, Repr

/-- A socket: the queue `m_writeQueue`, the calls under way, for each `async_write` under way the bytes not yet handed to
the system, the bytes that were, and `m_socketOpen`. -/
structure Sock where
  queue : List Bytes
  threads : List Th
  writes : List Bytes
  wire : Bytes
  isOpen : Bool
deriving DecidableEq, Repr

/-- A socket just opened. -/
def Sock.fresh : Sock := ⟨[], [], [], [], true⟩

/-- What happens next. -/
inductive Act where
  /-- Some thread calls `SendAsync`. -/
  | call (m : Bytes)
  /-- The call at this place makes a step.  `room`: how many bytes the system takes if that step starts a write; `async_write`
  tries to write at once. -/
  | step (i room : Nat)
  /-- The system takes more bytes of the write at this place. -/
  | more (i room : Nat)
  /-- The write at this place ends, with or without an error; `HandleSent` is called. -/
  | finish (i : Nat) (ok : Bool)
  /-- The socket is closed. -/
  | close
deriving DecidableEq, Repr

/-- The calls without the one at this place. -/
def Sock.ended (s : Sock) (i : Nat) : Sock := { s with threads := s.threads.eraseIdx i }

/-- The call at this place goes on with this line. -/
def Sock.goOn (s : Sock) (i : Nat) (t : Th) : Sock := { s with threads := s.threads.set i t }

/-- One line of `SendAsync` (Socket.cpp:184-203) or `HandleSent` (Socket.cpp:205-227) of the call at place `i`.  A call that
waits for the queue to be filled stays where it is (SharedQueue.h:16-24, 26-34).  At the end of the call the buffer of the write it started is
freed: it is the argument, which `Connection::SendAsync` holds in a local variable (Connection.cpp:55-65), or the local
variable `message` (line 216). -/
def line (s : Sock) (i room : Nat) : Th → Sock
  | .look m => s.goOn i (.push m s.queue.isEmpty)
  | .push m first =>
    let s' := { s with queue := s.queue ++ [m] }
    if first then s'.goOn i (.start m) else s'.ended i
  | .start m =>
    if s.isOpen then
      { s.ended i with writes := s.writes ++ [m.drop room], wire := s.wire ++ m.take room }
    else s.ended i
  | .sent ok => if s.queue.isEmpty then (if ok then s.goOn i .next else s.ended i) else s.goOn i (.pop ok)
  | .pop ok =>
    match s.queue with
    | [] => s
    | _ :: q => if ok then { s.goOn i .next with queue := q } else { s.ended i with queue := q }
  | .next => if s.queue.isEmpty then s.ended i else s.goOn i .front
  | .front =>
    match s.queue with
    | [] => s
    | m :: _ => s.goOn i (.start m)

/-- One step.  Taking more bytes of a write reads a buffer that has been freed: undefined.  A write ends without an error only
when all its bytes are taken.  What is not possible changes nothing. -/
def act (s : Sock) : Act → Res Sock
  | .call m => .ok { s with threads := s.threads ++ [.look m] }
  | .step i room =>
    match s.threads[i]? with
    | some t => .ok (line s i room t)
    | none => .ok s
  | .more i room =>
    match s.writes[i]? with
    | some (_ :: _) => if room = 0 then .ok s else .ub
    | _ => .ok s
  | .finish i ok =>
    match s.writes[i]? with
    | some rest =>
      if ok = true ∧ rest ≠ [] then .ok s
      else .ok { s with writes := s.writes.eraseIdx i, threads := s.threads ++ [.sent ok] }
    | none => .ok s
  | .close => .ok { s with isOpen := false }

/-- A sequence of steps. -/
def acts (s : Sock) : List Act → Res Sock
  | [] => .ok s
  | a :: as => do
    let s' ← act s a
    acts s' as

end Verif.SendQ
