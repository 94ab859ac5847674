import Verif.Base.Outcome
import Verif.Codec.Armor

/-!
# The addresses of a wallet

Model of the handling of slatepack and Tor addresses in `src/Wallet/WalletManagerImpl.cpp`, `src/Wallet/SessionManager.cpp`,
`src/Wallet/ForeignController.cpp`, `src/API/Wallet/Foreign/ForeignServer.cpp`, the owner calls `get_new_address`
(`GetNewWalletAddressHandler.h`) and `retry_tor` (`RetryTorHandler.h`), the change of address in `ReceiveTxHandler.h`, of
`src/Net/Tor/TorProcess.cpp`, and of `Wallet::DecryptSlatepack`.  An address is named by the seed it is derived from and its index
(`m/0/1/index`); passwords and tokens are those of `Wallet.Session` and left out here, sessions are numbered.
-/
namespace Verif.Wallet
open Verif.Codec

/-- An address: seed and index. -/
abbrev Addr := Nat × Nat

/-- `TorProcess` (TorProcess.h:32-81).  `up` says whether `m_pControl` is set, `published` what the Tor process behind it serves (address and
local port), `active` is `m_activeServices`, `queue` is `m_servicesToAdd`. -/
structure TorProc where
  up : Bool
  published : List (Addr × Nat)
  active : List (Addr × Nat)
  queue : List (Addr × Nat)
deriving DecidableEq, Repr

/-- `std::map::insert`: an entry that is there is kept. -/
def keepInsert (l : List (Addr × Nat)) (a : Addr) (p : Nat) : List (Addr × Nat) :=
  if l.any (fun e => decide (e.1 = a)) then l else l ++ [(a, p)]

/-- Erasing the entry of an address. -/
def dropAddr (l : List (Addr × Nat)) (a : Addr) : List (Addr × Nat) := l.filter (fun e => decide (e.1 ≠ a))

/-- The public `TorProcess::AddListener` (TorProcess.cpp:145-150): the service is queued. -/
def TorProc.add (t : TorProc) (a : Addr) (port : Nat) : TorProc := { t with queue := t.queue ++ [(a, port)] }

/-- `TorProcess::RemoveListener` (TorProcess.cpp:175-196): the queue is not looked at.  `TorControl::DelOnion` (TorControl.cpp:135-143) of an
unknown address is an error that is logged. -/
def TorProc.remove (t : TorProc) (a : Addr) : TorProc :=
  { t with active := dropAddr t.active a, published := if t.up then dropAddr t.published a else t.published }

/-- The private `TorProcess::AddListener` (TorProcess.cpp:152-173) with `TorControl::AddOnion` (TorControl.cpp:98-133) if the control
connection succeeds: a service that is running already is left as it is.  If it fails (`ok = false`), the service goes to the queue.  The exchange with
Tor is modelled in `Net.TorControl`. -/
def TorProc.onion (ok : Addr → Bool) (t : TorProc) (e : Addr × Nat) : TorProc :=
  if ok e.1 then { t with published := keepInsert t.published e.1 e.2, active := keepInsert t.active e.1 e.2 }
  else { t with queue := t.queue ++ [e] }

/-- One round of the thread with a control connection (TorProcess.cpp:39-62). -/
def TorProc.work (ok : Addr → Bool) (t : TorProc) : TorProc :=
  if t.up then t.queue.foldl (TorProc.onion ok) { t with queue := [] } else t

/-- A round in which the heartbeat fails (TorProcess.cpp:40-44), and `RetryInit` (TorProcess.cpp:138-143): the Tor process ends. -/
def TorProc.lost (t : TorProc) : TorProc := { t with up := false, published := [] }

/-- A round without a control connection in which Tor is started (TorProcess.cpp:80-103): the active services are added again. -/
def TorProc.start (ok : Addr → Bool) (t : TorProc) : TorProc :=
  if t.up then t else t.active.foldl (TorProc.onion ok) { t with up := true, published := [] }

/-- `LoggedInSession` (LoggedInSession.h): the addresses of `Wallet` (Wallet.h:40-45) and `WalletImpl` (WalletImpl.h:43-45).  `shown` is
`Wallet::m_address`, `sender` is `WalletImpl::m_address` (which is never changed), `tor` the Tor address of both. -/
structure AddrSession where
  user : Nat
  shown : Nat
  sender : Nat
  tor : Nat
  port : Nat
deriving DecidableEq, Repr

/-- `ForeignController::Context` with its `ForeignServer` (ForeignController.cpp:8-15, ForeignServer.h:14-67): the Tor address is the one
of the time it was started. -/
structure AddrServer where
  user : Nat
  refs : Nat
  port : Nat
  tor : Nat
deriving DecidableEq, Repr

/-- The wallets of one computer: seed and `current_address_index` of each wallet file, the sessions by number, the servers, and Tor. -/
structure Desk where
  seed : Nat → Nat
  index : Nat → Nat
  sessions : List (Nat × AddrSession)
  next : Nat
  servers : List AddrServer
  tor : TorProc

/-- `SessionManager::Login` (SessionManager.cpp:145-187) with `WalletImpl::LoadWallet` (WalletImpl.cpp:32-49) and
`ForeignController::StartListener` (ForeignController.cpp:31-63); `port` is chosen by the system if a new server is started. -/
def Desk.login (d : Desk) (u port : Nat) : Desk :=
  let i := d.index u
  match d.servers.find? (fun s => decide (s.user = u)) with
  | some s =>
    { d with
      sessions := d.sessions ++ [(d.next, ⟨u, i, i, s.tor, s.port⟩)]
      next := d.next + 1
      servers := d.servers.map (fun s => if s.user = u then { s with refs := s.refs + 1 } else s) }
  | none =>
    { d with
      sessions := d.sessions ++ [(d.next, ⟨u, i, i, i, port⟩)]
      next := d.next + 1
      servers := d.servers ++ [⟨u, 1, port, i⟩]
      tor := d.tor.add (d.seed u, i) port }

/-- A session by its number. -/
def Desk.find (d : Desk) (k : Nat) : Option AddrSession := (d.sessions.find? (fun e => decide (e.1 = k))).map (·.2)

/-- Changing a session. -/
def Desk.put (d : Desk) (k : Nat) (s : AddrSession) : List (Nat × AddrSession) :=
  d.sessions.map (fun e => if e.1 = k then (k, s) else e)

/-- `SessionManager::Logout` (SessionManager.cpp:190-202) with `ForeignController::StopListener` (ForeignController.cpp:65-82) and the
destructor of `ForeignServer` (ForeignServer.h:28-35). -/
def Desk.logout (d : Desk) (k : Nat) : Desk :=
  match d.find k with
  | none => d
  | some s =>
    let rest := d.sessions.eraseP (fun e => decide (e.1 = k))
    match d.servers.find? (fun v => decide (v.user = s.user)) with
    | none => { d with sessions := rest }
    | some v =>
      if v.refs = 1 then
        { d with
          sessions := rest
          servers := d.servers.filter (fun v => decide (v.user ≠ s.user))
          tor := d.tor.remove (d.seed s.user, v.tor) }
      else
        { d with
          sessions := rest
          servers := d.servers.map (fun v => if v.user = s.user then { v with refs := v.refs - 1 } else v) }

/-- The call `get_new_address` (GetNewWalletAddressHandler.h:24-33), and the change of address after a payment was received
(ReceiveTxHandler.h:36-43): `RemoveCurrentTorListener`, `IncreaseAddressKeyChainPathIndex`, `AddTorListener`
(WalletManagerImpl.cpp:142-186) and `SetSlatepackAddress`. -/
def Desk.rotate (d : Desk) (k : Nat) : Desk :=
  match d.find k with
  | none => d
  | some s =>
    let i := d.index s.user
    { d with
      index := fun u => if u = s.user then i + 1 else d.index u
      sessions := d.put k { s with shown := i + 1, tor := i + 1 }
      tor := (d.tor.remove (d.seed s.user, i)).add (d.seed s.user, i + 1) s.port }

/-- The call `retry_tor` (RetryTorHandler.h:42-72): the listener is added for index 0. -/
def Desk.retry (d : Desk) (k : Nat) : Desk :=
  match d.find k with
  | none => d
  | some s =>
    { d with
      sessions := d.put k { s with tor := 0 }
      tor := d.tor.lost.add (d.seed s.user, 0) s.port }

/-- What happens: calls of users, rounds of the thread of `TorProcess`, and a wallet file made from a seed
(`create_wallet`, `restore_wallet`: the new file begins with index 0, AccountsTable.cpp:12-18). -/
inductive DeskEvent where
  | login (u port : Nat)
  | logout (k : Nat)
  | rotate (k : Nat)
  | retry (k : Nat)
  | work (ok : Addr → Bool)
  | lost
  | start (ok : Addr → Bool)

/-- One event. -/
def Desk.step (d : Desk) : DeskEvent → Desk
  | .login u p => d.login u p
  | .logout k => d.logout k
  | .rotate k => d.rotate k
  | .retry k => d.retry k
  | .work ok => { d with tor := d.tor.work ok }
  | .lost => { d with tor := d.tor.lost }
  | .start ok => { d with tor := d.tor.start ok }

/-- Several events. -/
def Desk.run (d : Desk) (es : List DeskEvent) : Desk := es.foldl Desk.step d

/-- New wallet files, nobody logged in, Tor not started. -/
def Desk.new (seed : Nat → Nat) : Desk := ⟨seed, fun _ => 0, [], 0, [], ⟨false, [], [], []⟩⟩

/-- The loop of `Wallet::DecryptSlatepack` (Wallet.cpp:330-342) over the indexes left; an error of the key derivation leaves the loop, one of
`Armor::Unpack` does not. -/
def decryptLoop {K : Type} (unpack : K → Res Message) (key : Nat → Res K) : List Nat → Res Message
  | [] => .throw
  | i :: is => do
    let k ← key i
    match unpack k with
    | .throw => decryptLoop unpack key is
    | r => r

/-- `Wallet::DecryptSlatepack` (Wallet.cpp:323-346). -/
def decryptSlatepack {K : Type} (unpack : K → Res Message) (key : Nat → Res K) (current : Nat) : Res Message :=
  decryptLoop unpack key (List.range (current + 1))

end Verif.Wallet
