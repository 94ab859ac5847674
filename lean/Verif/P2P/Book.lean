import Verif.Codec.Messages
import Verif.Codec.Text
import Verif.P2P.Peers

/-!
# The peers the node knows, and bans

Model of `include/P2P/Peer.h`, of the map of `src/P2P/Seed/PeerManager.cpp`, of `src/Database/PeerDBImpl.cpp`, of the decision about
a ban in `Seeder::Accept` (src/P2P/Seed/Seeder.cpp) and of `Peer_Handler` of `src/Server/Node/API/PeersAPI.cpp`.  A `Peer` is shared
between the map and the connections; here it is a place in a list.  Times are in seconds.  RocksDB is a map from keys to values
whose operations succeed.
-/
namespace Verif.P2P

open Verif Verif.Codec

/-- `Peer` (Peer.h:192-202).  `m_lastTxHashSetRequest`, which is neither stored nor looked at here, is left out. -/
structure Peer where
  ip : IpAddr
  version : Nat
  capabilities : Nat
  agent : Bytes
  lastContact : Int
  lastBan : Int
  reason : Int
  connected : Bool
  dirty : Bool
deriving DecidableEq, Repr

/-- The constructor from an address (Peer.h:24-37), also the one of PeerManager.cpp:203. -/
def Peer.fresh (ip : IpAddr) : Peer := ⟨ip, 0, 0, [], 0, 0, 0, false, false⟩

/-- `Ban` (Peer.h:108-113) at time `now`. -/
def Peer.ban (now reason : Int) (p : Peer) : Peer := { p with lastBan := now, reason := reason, dirty := true }

/-- `Unban` (Peer.h:114-118). -/
def Peer.unban (p : Peer) : Peer := { p with lastBan := 0, dirty := true }

/-- `IsBanned` (Peer.h:135-139). -/
def Peer.isBanned (now : Int) (p : Peer) : Bool := decide (p.lastBan > now - banWindow)

/-- `Append<int32_t>` (Serializer.h:35-48). -/
def serI32 (x : Int) : Bytes := beBytes 4 (x % 2 ^ 32).toNat

/-- `Read32` (ByteBuffer.h:113-119). -/
def readI32 : Parser Int := do
  let n ← readBE 4
  return if n < 2 ^ 31 then (n : Int) else (n : Int) - 2 ^ 32

/-- `IPAddress::Serialize` (IPAddress.h:118-130). -/
def ipSer : IpAddr → Bytes
  | .v4 b => beBytes 1 0 ++ b
  | .v6 b => beBytes 1 1 ++ b

/-- `Peer::Serialize` (Peer.h:144-153). -/
def peerSer (p : Peer) : Bytes :=
  sockAddrSer ⟨p.ip, 0⟩ ++ (beBytes 4 p.version ++ (beBytes 4 p.capabilities ++ (serVarStr p.agent ++
    (serI64 p.lastContact ++ (serI64 p.lastBan ++ serI32 p.reason)))))

/-- `Peer::Deserialize` (Peer.h:155-174). -/
def peerDeser : Parser Peer := do
  let a ← sockAddrDeser
  let version ← readBE 4
  let capabilities ← readBE 4
  let agent ← readVarStr
  let lastContact ← readI64
  let lastBan ← readI64
  let reason ← readI32
  return ⟨a.ip, version, capabilities, agent, lastContact, lastBan, reason, false, false⟩

/-- The database: keys and values (PeerDBImpl.h), in the order an iterator visits them, which plays no part. -/
abbrev PeerDisk := List (Bytes × Bytes)

/-- `SavePeers` (PeerDBImpl.cpp:97-118). -/
def savePeers (d : PeerDisk) (ps : List Peer) : PeerDisk :=
  ps.foldl (fun d p => (ipSer p.ip, peerSer p) :: d.filter (fun e => e.1 ≠ ipSer p.ip)) d

/-- `DeletePeers` (PeerDBImpl.cpp:120-137). -/
def deletePeers (d : PeerDisk) (ps : List Peer) : PeerDisk :=
  ps.foldl (fun d p => d.filter (fun e => e.1 ≠ ipSer p.ip)) d

/-- `PeerDB::GetPeer` without a port (PeerDBImpl.cpp:68-95). -/
def diskGet (d : PeerDisk) (ip : IpAddr) : Res (Option Peer) :=
  match d.find? (fun e => e.1 = ipSer ip) with
  | none => .ok none
  | some e =>
    match peerDeser ⟨e.2, 0⟩ with
    | .ok (p, _) => .ok (some p)
    | .throw => .throw
    | .ub => .ub

/-- `LoadAllPeers` (PeerDBImpl.cpp:51-66). -/
def loadAll : PeerDisk → Res (List Peer)
  | [] => .ok []
  | e :: d => do
    let r ← peerDeser ⟨e.2, 0⟩
    let ps ← loadAll d
    return r.1 :: ps

/-- `PeerDB::OpenDB` (PeerDBImpl.cpp:22-49) over what an earlier run left: the directory is removed first (line 36). -/
def openDisk (_left : PeerDisk) : PeerDisk := []

/-- An entry of `m_peersByAddress` (PeerManager.h:44-60): the address, which `Peer` and `m_lastAttempt`. -/
structure Entry where
  ip : IpAddr
  peer : Nat
  lastAttempt : Int
deriving DecidableEq, Repr

/-- The peer manager: every `Peer` made, the map and the database.  The map is a list; its order, which only decides where a random
search starts, is that of insertion. -/
structure Book where
  peers : List Peer
  entries : List Entry
  disk : PeerDisk
deriving Repr

/-- `m_peersByAddress.find` (PeerManager.cpp:115). -/
def Book.find (b : Book) (ip : IpAddr) : Option Nat := (b.entries.find? (fun e => e.ip = ip)).map (·.peer)

/-- A change to a `Peer` through one of the pointers to it. -/
def Book.update (b : Book) (o : Nat) (f : Peer → Peer) : Book := { b with peers := b.peers.modify o f }

/-- `make_shared<Peer>` and `emplace` for an address that is not there (PeerManager.cpp:120-121, 192, 203-205). -/
def Book.add (b : Book) (p : Peer) (lastAttempt : Int) : Book :=
  { b with peers := b.peers ++ [p], entries := b.entries ++ [⟨p.ip, b.peers.length, lastAttempt⟩] }

/-- `GetPeer` (PeerManager.cpp:113-123). -/
def Book.getPeer (b : Book) (ip : IpAddr) : Nat × Book :=
  match b.find ip with
  | some o => (o, b)
  | none => (b.peers.length, b.add (Peer.fresh ip) 0)

/-- `AddFreshPeers` (PeerManager.cpp:187-195). -/
def Book.addFresh (b : Book) (ips : List IpAddr) : Book := ips.foldl (fun b ip => (b.getPeer ip).2) b

/-- `BanPeer` (PeerManager.cpp:197-207). -/
def Book.banPeer (b : Book) (now : Int) (ip : IpAddr) (reason : Int) : Book :=
  match b.find ip with
  | some o => b.update o (Peer.ban now reason)
  | none => b.add ((Peer.fresh ip).ban now reason) now

/-- `UnbanPeer` (PeerManager.cpp:209-215). -/
def Book.unbanPeer (b : Book) (ip : IpAddr) : Book :=
  match b.find ip with
  | some o => b.update o Peer.unban
  | none => b

/-- `GetAllPeers` (PeerManager.cpp:149-160), the pointers. -/
def Book.allPeers (b : Book) : List Nat :=
  (b.entries.map (·.peer)).filter fun o => match b.peers[o]? with
    | some p => decide (p.lastContact > 0)
    | none => false

/-- `UnbanAllPeers` (P2PServerImpl.cpp:141-153). -/
def Book.unbanAll (b : Book) (now : Int) : Book :=
  b.allPeers.foldl (fun b o => b.update o fun p => if p.isBanned now then p.unban else p) b

/-- What a pass finds for an entry (PeerManager.cpp:84-91): to be saved, to be deleted or neither. -/
def saves (p : Peer) : Bool := p.dirty
def drops (now : Int) (p : Peer) : Bool :=
  !p.dirty && decide (p.lastContact > 0) && decide (p.lastContact < now - 604800)

/-- The `Peer` of an entry. -/
def Book.peerOf (b : Book) (e : Entry) : Option Peer := b.peers[e.peer]?

/-- `Thread_ManagePeers` (PeerManager.cpp:67-111). -/
def Book.manage (b : Book) (now : Int) : Book :=
  let toSave := (b.entries.filterMap b.peerOf).filter saves
  let toDrop := (b.entries.filterMap b.peerOf).filter (drops now)
  let dirty := (b.entries.filter fun e => match b.peerOf e with
    | some p => saves p
    | none => false).map (·.peer)
  let peers := dirty.foldl (fun ps o => ps.modify o fun p => { p with dirty := false }) b.peers
  { peers := peers
    entries := b.entries.filter fun e => !(toDrop.map (·.ip)).contains e.ip
    disk := deletePeers (savePeers b.disk (toSave.map fun p => { p with dirty := false })) toDrop }

/-- The map as `GetPeersWithCapability` sees it; a `Peer` stands for its address there. -/
def Book.view (b : Book) : List PeerEntry :=
  b.entries.map fun e =>
    let p := (b.peerOf e).getD (Peer.fresh e.ip)
    ⟨e.peer, p.capabilities, p.connected, p.lastBan, e.lastAttempt⟩

/-- `GetNewPeer` (PeerManager.cpp:135-147) with the random places: the `Peer` to connect to, and the times of the attempts. -/
def Book.newPeer (b : Book) (now : Int) (start start' capability : Nat) : Option Nat × Book :=
  let r := getNewPeer now start start' capability b.view
  (r.1, { b with entries := b.entries.zipWith (fun e v => { e with lastAttempt := v.lastAttempt }) r.2 })

/-- `PeerManager::Create` (PeerManager.cpp:25-65) over the database `disk`.  `emplace` does nothing for an address already there. -/
def Book.create (preferred : List IpAddr) (disk : PeerDisk) : Res Book :=
  if preferred.length > 0 then .ok (Book.addFresh ⟨[], [], disk⟩ preferred)
  else do
    let ps ← loadAll disk
    return ps.foldl (fun b p => match b.find p.ip with
      | some _ => b
      | none => b.add p 0) ⟨[], [], disk⟩

/-- The read-only `GetPeer` (PeerManager.cpp:125-133), which the API answers with. -/
def Book.lookup (b : Book) (ip : IpAddr) : Res (Option Peer) :=
  match b.find ip with
  | some o => .ok b.peers[o]?
  | none => diskGet b.disk ip

/-- Whether `Accept` goes on to connect a peer that it would otherwise welcome (Seeder.cpp:143-145). -/
def Book.admits (b : Book) (now : Int) (ip : IpAddr) : Bool :=
  match (b.getPeer ip).2.peers[(b.getPeer ip).1]? with
  | some p => !p.isBanned now
  | none => false

/-- What happens to the peer manager: a connection arrives (Seeder.cpp:143); addresses are learnt (MessageProcessor.cpp:167,
Seeder.cpp:209); the user bans or lifts a ban (PeersAPI.cpp:91-101), or all of them on a resync (ServerAPI.cpp:139); a connection
bans its peer (Connection.cpp:272-277 and the pipes); it hears from it (Connection.cpp:191, 268, HandShake.cpp:138); it opens or
closes (Connection.cpp:28, 94, 173, 219); it learns about it in the handshake (HandShake.cpp:48-52, 78-83); the seeder looks for a peer
(Seeder.cpp:167); the pass every 15 seconds; the program is started again. -/
inductive BookEv
  | arrive (ip : IpAddr)
  | fresh (ips : List IpAddr)
  | ban (ip : IpAddr) (reason : Int)
  | unban (ip : IpAddr)
  | unbanAll
  | banned (o : Nat) (reason : Int)
  | contact (o : Nat)
  | connected (o : Nat) (v : Bool)
  | shake (o version capabilities : Nat) (agent : Bytes)
  | seek (start start' capability : Nat)
  | manage
  | restart (preferred : List IpAddr)

/-- One event at time `now`.  Starting again: the old `Peer`s are gone, the database is opened. -/
def Book.step (b : Book) (now : Int) : BookEv → Book
  | .arrive ip => (b.getPeer ip).2
  | .fresh ips => b.addFresh ips
  | .ban ip r => b.banPeer now ip r
  | .unban ip => b.unbanPeer ip
  | .unbanAll => b.unbanAll now
  | .banned o r => b.update o (Peer.ban now r)
  | .contact o => b.update o fun p => { p with lastContact := now }
  | .connected o v => b.update o fun p => { p with connected := v, dirty := true }
  | .shake o v c a => b.update o fun p => { p with version := v, capabilities := c, agent := a, dirty := true }
  | .seek s s' c => (b.newPeer now s s' c).2
  | .manage => b.manage now
  | .restart preferred =>
    match Book.create preferred (openDisk b.disk) with
    | .ok b' => b'
    | _ => b

/-- A history of events with their times. -/
def Book.run (b : Book) (h : List (Int × BookEv)) : Book := h.foldl (fun b e => b.step e.1 e.2) b

/-- `ParseIPAddress` (PeersAPI.cpp:130-145), 58 is ':' and 47 is '/'. -/
def parseIp (request : Bytes) : Bytes :=
  if request.contains 58 then request.takeWhile (· ≠ 58)
  else if request.contains 47 then request.takeWhile (· ≠ 47)
  else request

/-- `ParseCommand` (PeersAPI.cpp:147-156). -/
def parseCommand (request : Bytes) : Bytes :=
  if request.contains 47 then (request.dropWhile (· ≠ 47)).drop 1 else []

/-- What `Peer_Handler` answers (PeersAPI.cpp:74-128): the list of all peers, a success, a peer, a bad request or not found. -/
inductive PeerAnswer
  | all
  | done
  | peer (p : Peer)
  | badRequest
  | notFound
deriving DecidableEq, Repr

/-- `Peer_Handler` (PeersAPI.cpp:74-128) for what follows `/v1/peers/`; `post` is the method, of POST and GET; `parse` is
`asio::ip::make_address`.  ManualBan is 5 (BanReason.h:12).  An exception other than that of a bad address is logged and the answer is
"not found". -/
def peerHandler (parse : Bytes → Option IpAddr) (b : Book) (now : Int) (post : Bool) (request : Bytes) : PeerAnswer × Book :=
  if request = [] then (.all, b)
  else
    match parse (parseIp request) with
    | none => (.badRequest, b)
    | some ip =>
      if parseCommand request = str "ban" ∧ post = true then (.done, b.banPeer now ip 5)
      else if parseCommand request = str "unban" ∧ post = true then (.done, b.unbanPeer ip)
      else if parseCommand request = [] ∧ post = false then
        match b.lookup ip with
        | .ok (some p) => (.peer p, b)
        | _ => (.notFound, b)
      else (.badRequest, b)

end Verif.P2P
