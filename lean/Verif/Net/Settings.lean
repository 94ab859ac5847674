import Verif.Codec.Json
import Verif.PoW.Consensus

/-!
# The configuration: what is loaded at the start, what the API changes

Model of `Config::Load`, `Config::Default` and the setters of `src/Core/Config.cpp`, of the constructors in `src/Core/Config/*.h`
(`P2PConfig`, `DandelionConfig`, `NodeConfig`, `WalletConfig`, `TorConfig`), of `IPAddress::IsValidIPAddress` (include/Net/IPAddress.h) and of
`update_config`/`get_config` (src/API/Node/Handlers).  Reading and writing JSON text is jsoncpp's; the directories that are made are left out, and
so is a configuration file that cannot be written at the start, which ends the program.
-/
namespace Verif.Settings
open Verif.Codec Verif.PoW

/-- What the program asks of its surroundings: `asio::ip::make_address` (IPAddress.h:34-44), the resolver (IPAddress.h:69-91, an exception is
`none`), and whether `std::hash<IPAddress>` has a value (IPAddress.h:183-192: not for IPv6 addresses that stand for no IPv4 address). -/
structure Names (Addr : Type) where
  parse : Bytes → Option Addr
  resolve : Bytes → Option (List Addr)
  hashes : Addr → Bool

/-- `Json::Value::isMember(key)` and `operator[]`: what is neither null nor an object fails an assertion of jsoncpp. -/
def member (j : Json) (key : String) : Res (Option Json) :=
  match j with
  | .null => .ok none
  | .obj fs => .ok (fs.lookup key)
  | _ => .throw

/-- A section of the configuration; one that is missing is as good as an empty one (P2PConfig.h:56-60, DandelionConfig.h:35, NodeConfig.h:45,
WalletConfig.h:35, TorConfig.h:164, Config.cpp:33). -/
def sect (j : Json) (key : String) : Res Json := do
  let m ← member j key
  return m.getD .null

/-- `Json::Value::asInt`; numbers with a fraction are left out. -/
def asInt : Json → Res Int
  | .null => .ok 0
  | .bool b => .ok (if b then 1 else 0)
  | .int n => if -2 ^ 31 ≤ n ∧ n < 2 ^ 31 then .ok n else .throw
  | _ => .throw

/-- `Json::Value::asUInt`; numbers with a fraction are left out. -/
def asUInt : Json → Res Nat
  | .null => .ok 0
  | .bool b => .ok (if b then 1 else 0)
  | .int n => if 0 ≤ n ∧ n < 2 ^ 32 then .ok n.toNat else .throw
  | _ => .throw

/-- `json.get(key, d).asInt()`. -/
def intIn (s : Json) (key : String) (d : Int) : Res Int := do
  match ← member s key with
  | none => return d
  | some v => asInt v

/-- `json.get(key, d).asUInt()`. -/
def natIn (s : Json) (key : String) (d : Nat) : Res Nat := do
  match ← member s key with
  | none => return d
  | some v => asUInt v

/-- `Json::Value::asCString`, taken as a string: it ends at the first NUL. -/
def asCString : Json → Res Bytes
  | .str s => .ok (s.takeWhile (· ≠ 0))
  | _ => .throw

/-- The elements a loop over a `Json::Value` visits. -/
def children : Json → List Json
  | .arr l => l
  | .obj fs => fs.map (·.2)
  | _ => []

/-- `IPAddress::split` (IPAddress.h:160-177) at dots. -/
def splitDots : Bytes → List Bytes
  | [] => [[]]
  | c :: cs =>
    if c = 46 then [] :: splitDots cs
    else match splitDots cs with
      | [] => [[c]]
      | p :: ps => (c :: p) :: ps

/-- `IPAddress::isNumber` (IPAddress.h:153-157): brackets pass. -/
def isNumber (t : Bytes) : Bool := t ≠ [] && t.all (fun c => isDigit c || c == 91 || c == 93)

/-- The loop of `IsValidIPAddress` (IPAddress.h:57-64). -/
def allNumbers : List Bytes → Res Bool
  | [] => .ok true
  | t :: ts =>
    if isNumber t then do
      let (n, _) ← stoi t
      if n > 255 ∨ n < 0 then return false else allNumbers ts
    else .ok false

/-- `IPAddress::IsValidIPAddress` (IPAddress.h:46-67); `stoi` may throw. -/
def isAddress (s : Bytes) : Res Bool :=
  if (splitDots s).length ≠ 4 then .ok false else allNumbers (splitDots s)

section
variable {Addr : Type} [DecidableEq Addr] (W : Names Addr)

/-- `P2PConfig::GetValidIPAddress` (P2PConfig.h:108-132). -/
def validAddresses (s : Bytes) : Res (List Addr) := do
  if ← isAddress s then return (W.parse s).toList
  else return (W.resolve s).getD []

/-- `insert` into an `unordered_set<IPAddress>`: the hash may throw. -/
def insertAll : List Addr → List Addr → Res (List Addr)
  | [], s => .ok s
  | a :: as, s => if W.hashes a then insertAll as (if a ∈ s then s else s ++ [a]) else .throw

/-- The loops over peers (P2PConfig.h:72-76, 81-85, 90-94). -/
def loadPeers : List Json → List Addr → Res (List Addr)
  | [], s => .ok s
  | p :: ps, s => do
    let t ← asCString p
    let as ← validAddresses W t
    let s' ← insertAll W as s
    loadPeers ps s'

/-- A list of peers of the section `P2P` (P2PConfig.h:70-77, 79-86, 88-95). -/
def peersIn (s : Json) (key : String) : Res (List Addr) := do
  match ← member s key with
  | none => return []
  | some v => loadPeers W (children v) []

/-- `P2PConfig` (P2PConfig.h:99-106); the port and the magic bytes follow from the environment and are left out. -/
structure P2P (Addr : Type) where
  maxPeers : Int
  minPeers : Int
  preferred : List Addr
  allowed : List Addr
  blocked : List Addr

/-- The constructor of `P2PConfig` (P2PConfig.h:38-96). -/
def loadP2P (s : Json) : Res (P2P Addr) := do
  let maxPeers ← intIn s "MAX_PEERS" 60
  let minPeers ← intIn s "MIN_PEERS" 10
  let preferred ← peersIn W s "PREFERRED_PEERS"
  let allowed ← peersIn W s "ALLOWED_PEERS"
  let blocked ← peersIn W s "BLOCKED_PEERS"
  return ⟨maxPeers, minPeers, preferred, allowed, blocked⟩

/-- `m_minSyncPeers` (P2PConfig.h:46, 53). -/
def minSync : Env → Nat
  | .testing => 1
  | _ => 3

/-- `DandelionConfig` (DandelionConfig.h:61-65). -/
structure Dandelion where
  relay : Nat
  embargo : Nat
  patience : Nat
  stem : Nat

/-- The constructor of `DandelionConfig` (DandelionConfig.h:28-59): cut to sixteen and eight bits. -/
def loadDandelion (s : Json) : Res Dandelion := do
  let relay ← natIn s "RELAY_SECS" 600
  let embargo ← natIn s "EMBARGO_SECS" 180
  let patience ← natIn s "PATIENCE_SECS" 10
  let stem ← natIn s "STEM_PROBABILITY" 90
  return ⟨relay % 2 ^ 16, embargo % 2 ^ 16, patience % 2 ^ 8, stem % 2 ^ 8⟩

/-- The port of the REST API (NodeConfig.h:39-51), cut to sixteen bits. -/
def loadRest (env : Env) (s : Json) : Res Nat := do
  let p ← intIn s "REST_API_PORT" (if env = .mainnet then 3413 else 13413)
  return (p % 2 ^ 16).toNat

/-- `WalletConfig` (WalletConfig.h:53-59) without what follows from the environment. -/
structure WalletSettings where
  minConf : Nat
  reuse : Nat

/-- The constructor of `WalletConfig` (WalletConfig.h:15-43). -/
def loadWallet (s : Json) : Res WalletSettings := do
  let minConf ← natIn s "MIN_CONFIRMATIONS" 10
  let reuse ← natIn s "REUSE_ADDRESS" 1
  return ⟨minConf, reuse⟩

/-- `TorConfig` (TorConfig.h:189-195). -/
structure TorSettings where
  socks : Nat
  control : Nat
  password : Bytes
  hashed : Bytes

/-- The constructor of `TorConfig` (TorConfig.h:153-177): the passwords count only together. -/
def loadTor (s : Json) : Res TorSettings := do
  let socks ← natIn s "SOCKS_PORT" 3422
  let control ← natIn s "CONTROL_PORT" 3423
  match ← member s "PASSWORD", ← member s "HASHED_PASSWORD" with
  | some p, some h => do
    let p ← asCString p
    let h ← asCString h
    return ⟨socks % 2 ^ 16, control % 2 ^ 16, p, h⟩
  | _, _ => return ⟨socks % 2 ^ 16, control % 2 ^ 16, str "MyPassword",
      str "16:906248AB51F939ED605CE9937D3B1FDE65DEB4098A889B2A07AC221D8F"⟩

/-- The level of the log (Config.cpp:32-36). -/
def loadLog (s : Json) : Res Bytes := do
  match ← member s "LOG_LEVEL" with
  | none => return str "DEBUG"
  | some v => v.asString

/-- `Config::Impl` (Config.cpp:18-47): the JSON it was made from and the settings.  `dataPath` is `DATA_PATH`, without it the default
directory. -/
structure Live (Addr : Type) where
  json : Json
  dataPath : Option Bytes
  p2p : P2P Addr
  dandelion : Dandelion
  restPort : Nat
  wallet : WalletSettings
  tor : TorSettings
  logLevel : Bytes

/-- `DATA_PATH` (Config.cpp:93-97). -/
def loadPath (j : Json) : Res (Option Bytes) := do
  match ← member j "DATA_PATH" with
  | none => return none
  | some v => do
    let s ← v.asString
    return some s

/-- `Config::Load(json, environment)` (Config.cpp:91-100) with the constructor of `Impl` (Config.cpp:20-37). -/
def loadJson (env : Env) (j : Json) : Res (Live Addr) := do
  let path ← loadPath j
  let s ← sect j "P2P"
  let p2p ← loadP2P W s
  let s ← sect j "DANDELION"
  let dandelion ← loadDandelion s
  let s ← sect j "SERVER"
  let rest ← loadRest env s
  let s ← sect j "WALLET"
  let wallet ← loadWallet s
  let s ← sect j "TOR"
  let tor ← loadTor s
  let s ← sect j "LOGGER"
  let log ← loadLog s
  return ⟨j, path, p2p, dandelion, rest, wallet, tor, log⟩

/-- `Json::Value::empty`. -/
def Json.isEmpty : Json → Bool
  | .null => true
  | .arr [] => true
  | .obj [] => true
  | _ => false

/-- The JSON of `Config::Default` (Config.cpp:109-115). -/
def defaultJson : Json :=
  .obj [("P2P", .obj [("MAX_PEERS", .int 60), ("MIN_PEERS", .int 10)]),
    ("WALLET", .obj [("DATABASE", .str (str "SQLITE")), ("MIN_CONFIRMATIONS", .int 10)])]

/-- A file: not there or not to be read, no JSON, a JSON value. -/
inductive Stored
  | missing
  | garbage (raw : Bytes)
  | value (j : Json)

/-- The files by their paths. -/
abbrev Disk := Bytes → Stored

/-- Writing a file. -/
def Disk.write (d : Disk) (path : Bytes) (j : Json) : Disk := fun p => if p = path then .value j else d p

/-- What a running program does not change: the environment, the default data directory (Config.cpp:102-105) and the path of the configuration
(Global.cpp:118-125). -/
structure Machine where
  env : Env
  defaultDir : Bytes
  cfgPath : Bytes

/-- What `Config::Load(path)` takes from the file (Config.cpp:60-75): the default if there is an exception or nothing in it. -/
def loadFile (env : Env) : Stored → Res (Live Addr)
  | .value j =>
    match loadJson W env j with
    | .ok l => if Json.isEmpty l.json then loadJson W env defaultJson else .ok l
    | .throw => loadJson W env defaultJson
    | .ub => .ub
  | _ => loadJson W env defaultJson

/-- `Config::Load(path)` (Config.cpp:56-89): the file is written again. -/
def start (M : Machine) (d : Disk) : Res (Live Addr × Disk) := do
  let l ← loadFile W M.env (d M.cfgPath)
  return (l, d.write M.cfgPath l.json)

/-! ## `update_config` -/

/-- Assigning a member of an object. -/
def put : List (String × Json) → String → Json → List (String × Json)
  | [], k, v => [(k, v)]
  | (k', v') :: fs, k, v => if k' = k then (k, v) :: fs else (k', v') :: put fs k v

/-- `json[key] = v`: null becomes an object, anything else fails an assertion of jsoncpp. -/
def assign (j : Json) (key : String) (v : Json) : Res Json :=
  match j with
  | .null => .ok (.obj [(key, v)])
  | .obj fs => .ok (.obj (put fs key v))
  | _ => .throw

/-- `config_json[section][key] = v`, the section made if it is missing (UpdateConfigHandler.h:35-40, 47-52, 59-64, 71-76, 95-105). -/
def setIn (j : Json) (s key : String) (v : Json) : Res Json := do
  let old ← sect j s
  let new ← assign old key v
  assign j s new

/-- What is answered. -/
inductive Reply
  | done
  | paramsMissing
  | invalid
  | failed
  | notSaved
deriving DecidableEq

/-- `JsonUtil::GetUInt32Opt` (JsonUtil.h:389-400): cut to 32 bits. -/
def uint32Opt (p : Json) (key : String) : Res (Option Nat) := do
  let v ← optionally jsonUInt64 p key
  return v.map (· % 2 ^ 32)

/-- `uint32_t` to `int`. -/
def toInt32 (n : Nat) : Int := if n < 2 ^ 31 then n else n - 2 ^ 32

/-- A step of the handler: the settings and the copy of the JSON go on, or it answers. -/
abbrev Step (Addr : Type) := Live Addr → Json → Except Reply (Live Addr × Json)

/-- The steps for numbers (UpdateConfigHandler.h:28-43, 45-55, 57-67, 69-79): `ok` is the check made on `min_peers`. -/
def numStep (p : Json) (param : String) (ok : Nat → Bool) (s key : String) (set : Live Addr → Nat → Live Addr) : Step Addr := fun l j =>
  match uint32Opt p param with
  | .ok none => .ok (l, j)
  | .ok (some v) =>
    if ok v then
      match setIn j s key (.int v) with
      | .ok j' => .ok (set l v, j')
      | _ => .error .failed
    else .error .invalid
  | _ => .error .failed

/-- The addresses of a list of peers (UpdateConfigHandler.h:83-93): null has no value, `Parse` and the hash may throw. -/
def parsePeers : List Json → List Addr → Res (List Addr)
  | [], s => .ok s
  | p :: ps, s =>
    if p.isNull then .throw
    else do
      let t ← p.asString
      match W.parse t with
      | none => .throw
      | some a => do
        let s' ← insertAll W [a] s
        parsePeers ps s'

/-- The steps for peers (UpdateConfigHandler.h:81-108, 110-137, 139-166). -/
def peerStep (p : Json) (param : String) (key : String) (set : Live Addr → List Addr → Live Addr) : Step Addr := fun l j =>
  match getOptional p param with
  | .ok none => .ok (l, j)
  | .ok (some (.arr ps)) =>
    match parsePeers W ps [] with
    | .ok as =>
      match setIn j "P2P" key (Json.elements ps) with
      | .ok j' => .ok (set l as, j')
      | _ => .error .failed
    | _ => .error .failed
  | _ => .error .failed

/-- `SetMinPeers` (Config.cpp:139). -/
def Live.setMin (l : Live Addr) (v : Nat) : Live Addr := { l with p2p := { l.p2p with minPeers := toInt32 v } }
/-- `SetMaxPeers` (Config.cpp:142). -/
def Live.setMax (l : Live Addr) (v : Nat) : Live Addr := { l with p2p := { l.p2p with maxPeers := toInt32 v } }
/-- `SetMinConfirmations` (Config.cpp:192). -/
def Live.setConf (l : Live Addr) (v : Nat) : Live Addr := { l with wallet := { l.wallet with minConf := v } }
/-- `ShouldReuseAddresses(v == 1)` (Config.cpp:194, UpdateConfigHandler.h:78). -/
def Live.setReuse (l : Live Addr) (v : Nat) : Live Addr := { l with wallet := { l.wallet with reuse := if v = 1 then 1 else 0 } }
/-- `UpdatePreferredPeers` (Config.cpp:171). -/
def Live.setPreferred (l : Live Addr) (as : List Addr) : Live Addr := { l with p2p := { l.p2p with preferred := as } }
/-- `UpdateAllowedPeers` (Config.cpp:172). -/
def Live.setAllowed (l : Live Addr) (as : List Addr) : Live Addr := { l with p2p := { l.p2p with allowed := as } }
/-- `UpdateBlockedPeers` (Config.cpp:173). -/
def Live.setBlocked (l : Live Addr) (as : List Addr) : Live Addr := { l with p2p := { l.p2p with blocked := as } }

/-- The steps of the handler in order (UpdateConfigHandler.h:28-166). -/
def steps (env : Env) (p : Json) : List (Step Addr) :=
  [numStep p "min_peers" (fun v => decide (minSync env ≤ v)) "P2P" "MIN_PEERS" Live.setMin,
   numStep p "max_peers" (fun _ => true) "P2P" "MAX_PEERS" Live.setMax,
   numStep p "min_confirmations" (fun _ => true) "WALLET" "MIN_CONFIRMATIONS" Live.setConf,
   numStep p "reuse_address" (fun _ => true) "WALLET" "REUSE_ADDRESS" Live.setReuse,
   peerStep W p "preferred_peers" "PREFERRED_PEERS" Live.setPreferred,
   peerStep W p "allowed_peers" "ALLOWED_PEERS" Live.setAllowed,
   peerStep W p "blocked_peers" "BLOCKED_PEERS" Live.setBlocked]

/-- The steps one after the other: what was set before one of them answers stays set. -/
def runSteps : List (Step Addr) → Live Addr → Json → Reply × Live Addr × Option Json
  | [], l, j => (.done, l, some j)
  | s :: ss, l, j =>
    match s l j with
    | .ok (l', j') => runSteps ss l' j'
    | .error r => (r, l, none)

/-- The file `update_config` writes (UpdateConfigHandler.h:168). -/
def savePath (M : Machine) (l : Live Addr) : Bytes := l.dataPath.getD M.defaultDir ++ str "/server_config.json"

/-- `UpdateConfigHandler::Handle` (UpdateConfigHandler.h:14-180).  The JSON is a copy of the one the settings were loaded from
(line 26), changed and written, but not kept.  `writable` is whether the file opens. -/
def update (M : Machine) (params : Option Json) (writable : Bool) (l : Live Addr) (d : Disk) : Reply × Live Addr × Disk :=
  match params with
  | none => (.paramsMissing, l, d)
  | some (.obj fs) =>
    match runSteps (steps W M.env (.obj fs)) l l.json with
    | (r, l', none) => (r, l', d)
    | (_, l', some j) => if writable then (.done, l', d.write (savePath M l') j) else (.notSaved, l', d)
  | some _ => (.invalid, l, d)

/-- Updates one after the other. -/
def updates (M : Machine) : List (Option Json × Bool) → Live Addr × Disk → Live Addr × Disk
  | [], x => x
  | (p, w) :: ps, x => updates M ps (update W M p w x.1 x.2).2

end

/-- What `get_config` shows (GetConfigHandler.h:11-43); the peers in no particular order. -/
structure ConfigView (Addr : Type) where
  minPeers : Int
  maxPeers : Int
  minConf : Nat
  reuse : Bool
  preferred : List Addr
  allowed : List Addr
  blocked : List Addr
deriving DecidableEq

/-- `GetConfigHandler::Handle` (GetConfigHandler.h:11-43) with `ShouldReuseAddresses` (Config.cpp:193). -/
def configView {Addr : Type} (l : Live Addr) : ConfigView Addr :=
  ⟨l.p2p.minPeers, l.p2p.maxPeers, l.wallet.minConf, l.wallet.reuse ≠ 0, l.p2p.preferred, l.p2p.allowed, l.p2p.blocked⟩

section
variable {Addr : Type} [DecidableEq Addr]

/-- `Config::IsPeerAllowed` (Config.cpp:153-157). -/
def isAllowed (l : Live Addr) (a : Addr) : Bool := if l.p2p.allowed.length > 0 then decide (a ∈ l.p2p.allowed) else true

/-- `Config::IsPeerBlocked` (Config.cpp:159-163). -/
def isBlocked (l : Live Addr) (a : Addr) : Bool := if l.p2p.blocked.length > 0 then decide (a ∈ l.p2p.blocked) else false

/-- `Config::IsPeerPreferred` (Config.cpp:165-169). -/
def isPreferred (l : Live Addr) (a : Addr) : Bool := if l.p2p.preferred.length > 0 then decide (a ∈ l.p2p.preferred) else true

/-- Whether `Accept` goes on with an incoming connection (Seeder.cpp:133-141). -/
def welcomes (l : Live Addr) (a : Addr) : Bool := !isBlocked l a && isAllowed l a

/-- Whether `SeedNewConnection` goes on to connect (Seeder.cpp:182-195). -/
def callsOn (l : Live Addr) (a : Addr) : Bool := !isBlocked l a && isAllowed l a && isPreferred l a

end
end Verif.Settings
