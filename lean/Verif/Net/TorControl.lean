import Verif.Base.Outcome
import Verif.Codec.Text

/-!
# The control connection to Tor

Model of `TorControlClient::Invoke` (`src/Net/Tor/TorControlClient.cpp`) and of `TorControl` (`src/Net/Tor/TorControl.cpp`).  Tor itself is not
part of the code; what it answers is taken from its control protocol (control-spec, sections 2.3 and 3.9, 3.7, 3.27, 3.28).  Lines are the
bytes between line feeds, as `Client::ReadLine` returns them (Client.h:102-126).  Time limits are left out, except that a line that never
comes ends the request with an exception.
-/
namespace Verif.Net
open Verif.Codec

/-- The line that ends an answer. -/
def okLine : Bytes := str "250 OK"

/-- The loop of `TorControlClient::Invoke` (TorControlClient.cpp:75-83) on the lines that arrive: the answer, and the lines left for the
next request. -/
def readReply : List Bytes → Res (List Bytes) × List Bytes
  | [] => (.throw, [])
  | l :: ls =>
    let t := trim l
    if t = okLine then (.ok [], ls)
    else if !startsWith t (str "250") then (.throw, ls)
    else
      let r := readReply ls
      (r.1 >>= fun ts => .ok (t :: ts), r.2)

/-- The commands sent (TorControl.cpp:116-121, 138, 149, 162), without the key and the ports of `ADD_ONION`. -/
inductive TorCommand where
  | services
  | addOnion (a : Bytes)
  | delOnion (a : Bytes)
  | heartbeat
deriving DecidableEq, Repr

/-- A line as Tor sends it, with a carriage return before the line feed. -/
def torLine (s : Bytes) : Bytes := s ++ [13]

/-- What Tor with the detached services `svcs` does on a command (control-spec; not part of the code): the services afterwards and the lines
of the answer.  A value of one line is sent as `250-key=value`, one of several lines as `250+key=`, the lines and a full stop. -/
def torAnswer (svcs : List Bytes) : TorCommand → List Bytes × List Bytes
  | .services =>
    (svcs, (match svcs with
      | [] => [str "250-onions/detached=", okLine]
      | [a] => [str "250-onions/detached=" ++ a, okLine]
      | _ => str "250+onions/detached=" :: svcs ++ [str ".", okLine]).map torLine)
  | .addOnion a =>
    if a ∈ svcs then (svcs, [torLine (str "550 Onion address collision")])
    else (svcs ++ [a], [str "250-ServiceID=" ++ a, okLine].map torLine)
  | .delOnion a =>
    if a ∈ svcs then (svcs.filter (fun b => decide (b ≠ a)), [torLine okLine])
    else (svcs, [torLine (str "552 Unknown Onion Service id")])
  | .heartbeat => (svcs, [torLine okLine])

/-- The connection: the services of Tor and the lines not read yet. -/
structure Control where
  svcs : List Bytes
  unread : List Bytes
deriving DecidableEq, Repr

/-- `TorControlClient::Invoke` (TorControlClient.cpp:66-93). -/
def Control.invoke (c : Control) (cmd : TorCommand) : Res (List Bytes) × Control :=
  let a := torAnswer c.svcs cmd
  let r := readReply (c.unread ++ a.2)
  (r.1, ⟨a.1, r.2⟩)

/-- `StringUtil::Split` (StringUtil.h:49-71): every character of the delimiter separates. -/
def splitSetGo (delim : Bytes) : Bytes → Bytes → List Bytes
  | [], cur => if cur = [] then [] else [cur]
  | c :: s, cur =>
    if c ∈ delim then (if cur = [] then splitSetGo delim s [] else cur :: splitSetGo delim s [])
    else splitSetGo delim s (cur ++ [c])

/-- The loop of `TorControl::QueryHiddenServices` (TorControl.cpp:168-184); `l` says whether addresses are being listed. -/
def listServices (l : Bool) : List Bytes → List Bytes
  | [] => []
  | t :: ts =>
    if trim t = okLine ∨ trim t = str "." then []
    else if startsWith t (str "250+onions/detached=") then
      let parts := splitSetGo (str "250+onions/detached=") t []
      (if trim t ≠ str "250+onions/detached=" ∧ parts.length = 2 then [trim (parts.getD 1 [])] else []) ++ listServices true ts
    else if l then trim t :: listServices l ts
    else listServices l ts

/-- `TorControl::AddOnion` (TorControl.cpp:98-133). -/
def Control.addOnion (c : Control) (a : Bytes) : Res Bytes × Control :=
  match c.invoke .services with
  | (.ok ls, c1) =>
    if a ∈ listServices false ls then (.ok a, c1)
    else
      match c1.invoke (.addOnion a) with
      | (.ok rs, c2) =>
        (match rs.find? (fun l => startsWith l (str "250-ServiceID=")) with
          | some l => .ok (l.drop (str "250-ServiceID=").length)
          | none => .throw, c2)
      | (.throw, c2) => (.throw, c2)
      | (.ub, c2) => (.ub, c2)
  | (.throw, c1) => (.throw, c1)
  | (.ub, c1) => (.ub, c1)

/-- `TorControl::DelOnion` (TorControl.cpp:135-143): whether it succeeded. -/
def Control.delOnion (c : Control) (a : Bytes) : Bool × Control :=
  let r := c.invoke (.delOnion a)
  (match r.1 with | .ok _ => true | _ => false, r.2)

/-- `TorControl::CheckHeartbeat` (TorControl.cpp:145-157). -/
def Control.heartbeat (c : Control) : Bool × Control :=
  let r := c.invoke .heartbeat
  (match r.1 with | .ok _ => true | _ => false, r.2)

/-- `TorProcess` (TorProcess.h:67-73): the control connection, the active services (in the order they were added, not in that of the map) and
those to add. -/
structure TorThread where
  control : Option Control
  active : List Bytes
  queue : List Bytes
deriving DecidableEq, Repr

/-- The private `TorProcess::AddListener` (TorProcess.cpp:152-173) with what its callers do if it fails (TorProcess.cpp:53-56, 96-99); every
address returned is taken to be well formed. -/
def TorThread.listen (t : TorThread) (a : Bytes) : TorThread :=
  match t.control with
  | none => { t with queue := t.queue ++ [a] }
  | some c =>
    match c.addOnion a with
    | (.ok b, c') => { t with control := some c', active := if b ∈ t.active then t.active else t.active ++ [b] }
    | (_, c') => { t with control := some c', queue := t.queue ++ [a] }

/-- One round of `TorProcess::Thread_Initialize` (TorProcess.cpp:34-110) when Tor can be started. -/
def TorThread.round (t : TorThread) : TorThread :=
  match t.control with
  | some c =>
    match c.heartbeat with
    | (false, _) => { t with control := none }
    | (true, c') => t.queue.foldl TorThread.listen { t with control := some c', queue := [] }
  | none => t.active.foldl TorThread.listen { t with control := some ⟨[], []⟩ }

/-- Several rounds. -/
def TorThread.rounds (t : TorThread) : Nat → TorThread
  | 0 => t
  | n + 1 => (t.rounds n).round

end Verif.Net
