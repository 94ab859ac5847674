import Verif.Base.Bytes
import Verif.Base.Outcome

/-!
# Sessions

Model of `src/Wallet/SessionManager.cpp`, `src/Wallet/ForeignController.cpp` and of opening and closing wallets in
`src/Wallet/WalletDB/Sqlite/SqliteStore.cpp`.  The maps are functions or association lists; locks, logging, the network
side of a listener and the contents of a wallet are left out: a wallet is named by its user.
-/
namespace Verif.Wallet

/-- `SessionToken` (include/Wallet/SessionToken.h:11-55). -/
structure Token where
  id : Nat
  key : Bytes
deriving DecidableEq

/-- `LoggedInSession` (src/Wallet/LoggedInSession.h): the wallet, named by its user, and the masked seed. -/
structure Session where
  user : Bytes
  masked : Bytes
deriving DecidableEq

/-- `ForeignController::Context` (ForeignController.cpp:8-15): the number of references and the token the listener was
started with. -/
structure Listener where
  user : Bytes
  refs : Nat
  token : Token
deriving DecidableEq

/-- The state of `SessionManager` (SessionManager.h:58-66), its `ForeignController` and the open databases of
`SqliteStore`. -/
structure SM where
  sessions : List (Nat × Session)
  next : Nat
  listeners : List Listener
  opened : List Bytes
deriving DecidableEq

/-- The bytewise exclusive or of SessionManager.cpp:137-141, 211-215. -/
def mask (a k : Bytes) : Bytes := List.zipWith (· ^^^ ·) a k

/-- The first four bytes of the hash (SessionManager.cpp:127-131). -/
def seedSum (H : Bytes → Bytes) (seed : Bytes) : Bytes := (H seed).take 4

/-- `m_sessionsById.find` (SessionManager.cpp:192, 206, 235). -/
def findSession (s : SM) (id : Nat) : Option Session := (s.sessions.find? (fun e => e.1 = id)).map (·.2)

/-- `m_sessionsById.erase`. -/
def eraseSession (id : Nat) (l : List (Nat × Session)) : List (Nat × Session) := l.filter (fun e => e.1 ≠ id)

/-- `ForeignController::StartListener` (ForeignController.cpp:31-63); `create` says whether `ForeignServer::Create`
succeeds.  A listener that already runs keeps its token. -/
def startListener (create : Bool) (user : Bytes) (t : Token) (ls : List Listener) : Option (List Listener) :=
  if ls.any (fun l => decide (l.user = user)) then
    some (ls.map (fun l => if l.user = user then { l with refs := l.refs + 1 } else l))
  else if create then some (ls ++ [⟨user, 1, t⟩])
  else none

/-- `ForeignController::StopListener` (ForeignController.cpp:65-82). -/
def stopListener (user : Bytes) (ls : List Listener) : List Listener :=
  (ls.map (fun l => if l.user = user then { l with refs := l.refs - 1 } else l)).filter
    (fun l => ¬ (l.user = user ∧ l.refs = 0))

/-- `SqliteStore::OpenWallet` (SqliteStore.cpp:34-70). -/
def openWallet (user : Bytes) (o : List Bytes) : List Bytes := if user ∈ o then o else o ++ [user]

/-- `SessionManager::Login` with a decrypted seed (SessionManager.cpp:122-188).  `key` is the random token key, as long
as the seed with its checksum.  If the listener cannot be started the exception leaves the session behind. -/
def login (H : Bytes → Bytes) (user seed key : Bytes) (create : Bool) (s : SM) : SM × Option Token :=
  let t : Token := ⟨s.next, key⟩
  let s1 : SM :=
    { s with
      sessions := (s.next, ⟨user, mask (seed ++ seedSum H seed) key⟩) :: eraseSession s.next s.sessions
      next := (s.next + 1) % 2 ^ 64
      opened := openWallet user s.opened }
  match startListener create user t s.listeners with
  | none => (s1, none)
  | some ls => ({ s1 with listeners := ls }, some t)

/-- `SessionManager::Logout` (SessionManager.cpp:190-202): the key of the token is not looked at. -/
def logout (t : Token) (s : SM) : SM :=
  match findSession s t.id with
  | none => s
  | some e =>
    let ls := stopListener e.user s.listeners
    { s with
      sessions := eraseSession t.id s.sessions
      listeners := ls
      opened := if ls.any (fun l => decide (l.user = e.user)) then s.opened else s.opened.filter (· ≠ e.user) }

/-- `SessionManager::GetSeed` (SessionManager.cpp:204-231).  Reading past the end of the token's key is undefined. -/
def getSeed (H : Bytes → Bytes) (t : Token) (s : SM) : Res Bytes :=
  match findSession s t.id with
  | none => .throw
  | some e =>
    if t.key.length < e.masked.length then .ub
    else
      let p := mask e.masked t.key
      let seed := p.take (p.length - 4)
      if p.drop (p.length - 4) = seedSum H seed then .ok seed else .throw

/-- `SessionManager::GetWallet` (SessionManager.cpp:233-242), `GetWalletImpl` (244-253): the key is not looked at. -/
def getWallet (t : Token) (s : SM) : Res Bytes :=
  match findSession s t.id with
  | none => .throw
  | some e => .ok e.user

/-- `WalletManager::GetWallet`, and the way `Send`, `Receive` and `Finalize` begin (WalletManagerImpl.cpp:43-49, 263-264,
292-293, 313-314): the seed first, then the wallet.  The result is the wallet's user and the seed used with it. -/
def openWith (H : Bytes → Bytes) (t : Token) (s : SM) : Res (Bytes × Bytes) := do
  let seed ← getSeed H t s
  let u ← getWallet t s
  return (u, seed)

/-- `SqliteStore::DeleteWallet` (SqliteStore.cpp:106-111): refused while the wallet's database is open. -/
def deletable (user : Bytes) (s : SM) : Bool := !decide (user ∈ s.opened)

/-- Calls of the manager: logging in (after the password was accepted), logging out. -/
inductive SOp where
  | login (user seed key : Bytes) (create : Bool)
  | logout (t : Token)

/-- One call. -/
def stepSession (H : Bytes → Bytes) (s : SM) : SOp → SM
  | .login u d k c => (login H u d k c s).1
  | .logout t => logout t s

/-- A history of calls. -/
def runSessions (H : Bytes → Bytes) (s : SM) (ops : List SOp) : SM := ops.foldl (stepSession H) s

/-- A new `SessionManager` (SessionManager.cpp:11-22): the first session id is random. -/
def newSM (first : Nat) : SM := ⟨[], first, [], []⟩

end Verif.Wallet
