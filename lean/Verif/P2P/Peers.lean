import Verif.Base.Outcome

/-!
# Connections and peers

Model of `PruneConnections`, `GetMostWorkPeer` and `GetMostWorkPeers` (src/P2P/ConnectionManager.cpp) and of
`GetPeersWithCapability`, `GetNewPeer` and `GetPeers` (src/P2P/Seed/PeerManager.cpp).
-/
namespace Verif.P2P

/-- A connection as far as the connection manager looks at it (Connection.h, ConnectedPeer.h:56-60).  `active` is what
`IsConnectionActive` (Connection.cpp:32-50) answers at the time of the pass. -/
structure Conn where
  id : Nat
  inbound : Bool
  active : Bool
  difficulty : Nat
  height : Nat
deriving DecidableEq, Repr

/-- The loop of `PruneConnections` (ConnectionManager.cpp:196-207): `erase(iter)` moves the later connections one place to
the front, and the loop increments `iter` all the same.  `fuel` bounds the rounds.  When the last connection was erased
`iter` is incremented past the end of the vector (undefined by the letter of the standard; the comparison with `<`
ends the loop). -/
def pruneLoop {α : Type} (drop : α → Bool) : Nat → List α → Nat → Res (List α)
  | 0, _, _ => .ub
  | fuel + 1, cs, i =>
    match cs[i]? with
    | none => .ok cs
    | some c => if drop c then pruneLoop drop fuel (cs.eraseIdx i) (i + 1) else pruneLoop drop fuel cs (i + 1)

/-- `PruneConnections` (ConnectionManager.cpp:191-217): the connections left, `m_numInbound` and `m_numOutbound`. -/
def prune (inactiveOnly : Bool) (cs : List Conn) : Res (List Conn × Nat × Nat) := do
  let cs ← pruneLoop (fun c => !inactiveOnly || !c.active) (cs.length + 1) cs 0
  let inbound := cs.foldl (fun n c => if c.inbound then n + 1 else n) 0
  .ok (cs, inbound, cs.length - inbound)

/-- The candidates of `GetMostWorkPeer` (ConnectionManager.cpp:219-251): `mostWork`, `mostWorkHeight`, `mostWorkPeers`. -/
def mostWorkStep (acc : Nat × Nat × List Conn) (c : Conn) : Nat × Nat × List Conn :=
  if c.height = 0 then acc
  else if c.difficulty > acc.1 then (c.difficulty, c.height, [c])
  else if c.difficulty = acc.1 then
    if c.height > acc.2.1 then (acc.1, c.height, [c])
    else if c.height = acc.2.1 then (acc.1, acc.2.1, acc.2.2 ++ [c])
    else acc
  else acc

/-- `GetMostWorkPeer` (ConnectionManager.cpp:219-261); `random n` is a number from 0 to `n`. -/
def mostWorkPeer (random : Nat → Nat) (cs : List Conn) : Option Conn :=
  let peers := (cs.foldl mostWorkStep (0, 0, [])).2.2
  if peers = [] then none else peers[random (peers.length - 1)]?

/-- `GetMostWorkPeers` (ConnectionManager.cpp:79-96). -/
def mostWorkPeers (random : Nat → Nat) (cs : List Conn) : List Conn :=
  match mostWorkPeer random cs with
  | none => []
  | some m => cs.filter fun c => c.difficulty ≥ m.difficulty && c.height > 0

/-- A peer the peer manager knows (Peer.h) and the time of the last attempt to connect (PeerManager.h:44-60). -/
structure PeerEntry where
  address : Nat
  capabilities : Nat
  connected : Bool
  lastBan : Int
  lastAttempt : Int
deriving DecidableEq, Repr

/-- `P2P::BAN_WINDOW` and `P2P::RETRY_WINDOW` (include/P2P/Common.h:37,40). -/
def banWindow : Int := 10800
def retryWindow : Int := 300

/-- `Capabilities::HasCapability` (include/P2P/Capabilities.h:43). -/
def hasCapability (value capability : Nat) : Bool := value &&& capability = capability

/-- The loop of `GetPeersWithCapability` (PeerManager.cpp:236-264), `n` rounds, `iter` at place `pos` of the map.  The
`continue` for a banned peer leaves `iter` where it is.  Returns the addresses found and the map. -/
def peersLoop (now : Int) (capability max : Nat) (connecting : Bool) :
    Nat → Nat → List PeerEntry → List Nat → List Nat × List PeerEntry
  | 0, _, es, found => (found, es)
  | n + 1, pos, es, found =>
    let pos := if pos = es.length then 0 else pos
    match es[pos]? with
    | none => (found, es)
    | some e =>
      if connecting && decide (e.lastBan > now - banWindow) then peersLoop now capability max connecting n pos es found
      else if hasCapability e.capabilities capability then
        let r :=
          if !connecting then (found ++ [e.address], es)
          else if !e.connected && decide (now - e.lastAttempt > retryWindow) then
            (found ++ [e.address], es.set pos { e with lastAttempt := now })
          else (found, es)
        if r.1.length = max then r else peersLoop now capability max connecting n (pos + 1) r.2 r.1
      else peersLoop now capability max connecting n (pos + 1) es found

/-- `GetPeersWithCapability` (PeerManager.cpp:217-265); `start` is the random place, from 0 to the number of peers.  The
map is a list in its order. -/
def getPeersWithCapability (now : Int) (start capability max : Nat) (connecting : Bool) (es : List PeerEntry) :
    List Nat × List PeerEntry :=
  if es.length = 0 then ([], es) else peersLoop now capability max connecting es.length start es []

/-- `GetNewPeer` (PeerManager.cpp:135-147), with the two random places. -/
def getNewPeer (now : Int) (start start' capability : Nat) (es : List PeerEntry) : Option Nat × List PeerEntry :=
  let r := getPeersWithCapability now start capability 1 true es
  let r := if r.1 = [] then getPeersWithCapability now start' 0 1 true r.2 else r
  (r.1.head?, r.2)

/-- `GetPeers` (PeerManager.cpp:175-185). -/
def getPeers (now : Int) (start start' capability max : Nat) (es : List PeerEntry) : List Nat :=
  let r := getPeersWithCapability now start capability max false es
  if r.1 = [] then (getPeersWithCapability now start' 0 max false es).1 else r.1

end Verif.P2P
