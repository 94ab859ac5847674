import Verif.Wallet.Session
import Verif.Wallet.Names
import Verif.Codec.Json
import Verif.Codec.Base64

/-!
# The owner interface of the wallet

Model of `src/API/Wallet/Owner/OwnerServer.cpp`, of the handlers in `src/API/Wallet/Owner/Handlers` and their criteria
(`include/API/Wallet/Owner/Models`), and of `src/Wallet/WalletManagerImpl.cpp`: which wallet a request opens, and by what right.  What a method does
inside the wallet it has opened is a parameter.  Wallets are a map by name: names that are paths to elsewhere are in `Verif.Wallet.Names`.  Requests
are handled one after the other.
-/
namespace Verif.Owner
open Verif Verif.Codec Verif.Wallet

/-- What is answered: a result, an error with its message, or undefined behaviour. -/
inductive Out where
  | answer (j : Json)
  | fail (why : Bytes)
  | ub

/-- The wallets: sessions, `seed.json` by name, the contents of `wallet.db` by name; and the rest: node, Tor, settings, random numbers. -/
structure World (W E : Type) where
  sm : SM
  seeds : List (Bytes × Bytes)
  wallets : Bytes → W
  env : E

/-- What is not modelled here. -/
structure Parts (W E : Type) where
  /-- SHA256 -/
  H : Bytes → Bytes
  /-- `SeedEncrypter::DecryptWalletSeed` -/
  decrypt : Bytes → Bytes → Option Bytes
  /-- `SeedEncrypter::EncryptWalletSeed` -/
  encrypt : Bytes → Bytes → E → Bytes × E
  /-- `CSPRNG::GenerateRandomBytes` -/
  random : Nat → E → Bytes × E
  /-- Whether `ForeignServer::Create` succeeds -/
  listens : E → Bool × E
  /-- `TorProcess::RetryInit` -/
  retry : E → Bool × E
  /-- An empty `wallet.db` -/
  fresh : W
  /-- What a method does with the wallet that was opened -/
  act : Bytes → Bytes → Bytes → Json → W → E → Out × W × E
  /-- `Mnemonic::CreateMnemonic` -/
  words : Bytes → Bytes
  /-- `Mnemonic::ToEntropy` -/
  entropy : Bytes → Option Bytes
  /-- Methods that open no wallet -/
  outside : Bytes → Option Json → E → Out × E
  /-- An exception by `FromJSON` of the method's criteria, besides those for the token, the name and the password -/
  bad : Bytes → Json → Option Bytes
  /-- The number of words, asked for or given, is none of 12, 15, 18, 21, 24 -/
  unfit : Bytes → Json → Bool

/-- A request to the owner interface. -/
structure Req where
  method : Bytes
  params : Option Json

/-- What a handler does to know the wallet. -/
inductive Kind where
  | create | restore | login | logout | token | retryTor | delete | seed | list | none
deriving DecidableEq

/-- `OwnerServer::Create` (OwnerServer.cpp:30-344): the methods by name, with what their handlers do to know the wallet. -/
def kindOf (name : Bytes) : Option Kind :=
  if name = str "create_wallet" then some .create
  else if name = str "restore_wallet" then some .restore
  else if name = str "login" then some .login
  else if name = str "logout" then some .logout
  else if name = str "send" then some .token
  else if name = str "receive" then some .token
  else if name = str "finalize" then some .token
  else if name = str "retry_tor" then some .retryTor
  else if name = str "delete_wallet" then some .delete
  else if name = str "get_wallet_seed" then some .seed
  else if name = str "cancel_tx" then some .token
  else if name = str "get_balance" then some .token
  else if name = str "list_txs" then some .token
  else if name = str "list_outputs" then some .token
  else if name = str "repost_tx" then some .token
  else if name = str "estimate_fee" then some .token
  else if name = str "scan_for_outputs" then some .token
  else if name = str "address_info" then some .none
  else if name = str "list_wallets" then some .list
  else if name = str "set_tor_config" then some .none
  else if name = str "get_tor_config" then some .none
  else if name = str "get_slatepack_address" then some .token
  else if name = str "get_new_slatepack_address" then some .token
  else none

/-- `SessionToken::FromBase64(JsonUtil::GetRequiredString(params, "session_token"))`, as in all handlers and criteria that take a token. -/
def tokenIn (j : Json) : Res Token := do
  let s ← required Json.asString j "session_token"
  let t ← tokenOfText s
  return ⟨t.id, t.key⟩

/-- `JsonUtil::GetStringOpt` (JsonUtil.h:333-341). -/
def stringOpt (j : Json) (key : String) : Res (Option Bytes) := do
  match ← getOptional j key with
  | none => .ok none
  | some v => do
    let s ← v.asString
    return some s

/-- Name and password (`FromJSON` of CreateWalletCriteria.h, RestoreWalletCriteria.h, LoginCriteria.h, DeleteWalletCriteria.h,
GetSeedPhraseCriteria.h), the name as given. -/
def credIn (j : Json) : Res (Bytes × Bytes) :=
  match j with
  | .obj _ => do
    let u ← stringOpt j "username"
    let p ← stringOpt j "password"
    match u, p with
    | some u, some p => .ok (u, p)
    | _, _ => .throw
  | _ => .throw

/-- The wallet's name in a request that makes one (CreateWalletCriteria.h:39, RestoreWalletCriteria.h:34). -/
def newName (u : Bytes) : Bytes := Names.toLower (Names.trim u)

/-- The number of words asked for (CreateWalletCriteria.h:35, 41), which the checks have found to be one of the five. -/
def wordsAsked (j : Json) : Nat := match required jsonUInt64 j "num_seed_words" with | .ok n => n | _ => 0

/-- The words given (RestoreWalletCriteria.h:30). -/
def wordsGiven (j : Json) : Bytes := match required Json.asString j "wallet_seed" with | .ok s => s | _ => []

/-- `what()` of a `SessionTokenException`. -/
def badToken : Bytes := str "Invalid Session Token."

section
variable {W E : Type} (P : Parts W E)

/-- `account.ToLower() == criteria.GetUsername()` for some account (CreateWalletHandler.h:43-54, RestoreWalletHandler.h:45-56,
LoginHandler.h:49-54).  The accounts are the directories; here those with a `seed.json`. -/
def taken (w : World W E) (name : Bytes) : Bool := w.seeds.any fun e => decide (Names.toLower e.1 = name)

/-- What a method does inside the wallet of a user. -/
def inside (m user seed : Bytes) (j : Json) (w : World W E) : Out × World W E :=
  let r := P.act m user seed j (w.wallets user) w.env
  (r.1, { w with wallets := fun u => if u = user then r.2.1 else w.wallets u, env := r.2.2 })

/-- A call with a token: `WalletManager::GetWallet` (WalletManagerImpl.cpp:43-49) and the functions that begin like it: `Send`, `Receive`,
`Finalize`, `CheckForOutputs`, `AddTorListener`, `RemoveCurrentTorListener` (126-172, 261-329).  Where the wallet is looked up before the seed the
exception is the same. -/
def withToken (m : Bytes) (t : Token) (j : Json) (w : World W E) : Out × World W E :=
  match openWith P.H t w.sm with
  | .ok (u, seed) => inside P m u seed j w
  | .throw => (.fail badToken, w)
  | .ub => (.ub, w)

/-- The token beside the rest of an answer (CreateWalletResponse.h, LoginResponse.h); the members are one object there. -/
def greet (t : Token) : Out → Out
  | .answer j => .answer (.obj [("session_token", .str (tokenText ⟨t.id, t.key⟩)), ("wallet", j)])
  | o => o

/-- `SessionManager::Login` (SessionManager.cpp:122-188) and what `WalletManager` answers after it (WalletManagerImpl.cpp:70-83, 100-108, 200-215).
Opening the database of a wallet that is there succeeds. -/
def enter (m user seed : Bytes) (j : Json) (w : World W E) : Out × World W E :=
  let k := P.random (seed.length + 4) w.env
  let c := P.listens k.2
  let r := Verif.Wallet.login P.H user seed k.1 c.1 w.sm
  let w := { w with sm := r.1, env := c.2 }
  match r.2 with
  | none => (.fail (str "listener"), w)
  | some t =>
    let x := inside P m user seed j w
    (greet t x.1, x.2)

/-- `SqliteStore::CreateWallet` (SqliteStore.cpp:81-104), the database left open. -/
def store (name enc : Bytes) (w : World W E) : World W E :=
  { w with
    seeds := w.seeds ++ [(name, enc)]
    wallets := fun u => if u = name then P.fresh else w.wallets u
    sm := { w.sm with opened := openWallet name w.sm.opened } }

/-- `WalletManager::InitializeNewWallet`, `RestoreFromSeed` (WalletManagerImpl.cpp:51-115) with the checks of the handlers
(CreateWalletHandler.h:22-73, RestoreWalletHandler.h:23-75); `seed` draws the seed, or gets it from the words. -/
def make (m name pass : Bytes) (seed : E → Option Bytes × E) (j : Json) (w : World W E) : Out × World W E :=
  match P.bad m j with
  | some why => (.fail why, w)
  | none =>
    if taken w name then (.fail (str "Username already exists"), w)
    else if pass = [] then (.fail (str "Password cannot be empty"), w)
    else if P.unfit m j then (.fail (str "Invalid num_seed_words"), w)
    else
      let s := seed w.env
      match s.1 with
      | none => (.fail (str "mnemonic"), { w with env := s.2 })
      | some d =>
        let e := P.encrypt d pass s.2
        let w := { w with env := e.2 }
        if (w.seeds.lookup name).isSome then (.fail (str "Wallet already exists."), w)
        else enter P m name d j (store P name e.1 w)

/-- `SessionManager::Authenticate`, `GetSeed`, and the start of `Login` (SessionManager.cpp:50-121): the seed, for the right password. -/
def seedWith (user pass : Bytes) (w : World W E) : Option Bytes :=
  match w.seeds.lookup user with
  | none => none
  | some enc => P.decrypt enc pass

/-- A handler, its parameters there. -/
def handleWith (k : Kind) (m : Bytes) (j : Json) (w : World W E) : Out × World W E :=
  match k with
  | .token =>
    -- e.g. CancelTxHandler.h:17-32, SendHandler.h:25-41, ReceiveHandler.h:19-51, FinalizeHandler.h:19-41, GetNewWalletAddressHandler.h:17-36
    match tokenIn j with
    | .ok t =>
      match P.bad m j with
      | some why => (.fail why, w)
      | none => withToken P m t j w
    | .throw => (.fail (str "session_token"), w)
    | .ub => (.ub, w)
  | .retryTor =>
    -- RetryTorHandler.h:43-71, WalletManagerImpl.cpp:142-158
    match tokenIn j with
    | .ok t =>
      let r := P.retry w.env
      if r.1 then withToken P m t j { w with env := r.2 } else (.answer (.obj [("status", .str (str "FAILED"))]), { w with env := r.2 })
    | .throw => (.fail (str "session_token"), w)
    | .ub => (.ub, w)
  | .logout =>
    -- LogoutHandler.h:17-30
    match tokenIn j with
    | .ok t => (.answer .null, { w with sm := Verif.Wallet.logout t w.sm })
    | .throw => (.fail (str "session_token"), w)
    | .ub => (.ub, w)
  | .create =>
    -- CreateWalletHandler.h:22-35
    match credIn j with
    | .ok (u, p) =>
      make P m (newName u) p (fun e => let s := P.random (4 * wordsAsked j / 3) e; (some s.1, s.2)) j w
    | .throw => (.fail (str "params"), w)
    | .ub => (.ub, w)
  | .restore =>
    -- RestoreWalletHandler.h:23-36
    match credIn j with
    | .ok (u, p) =>
      make P m (newName u) p (fun e => (P.entropy (wordsGiven j), e)) j w
    | .throw => (.fail (str "params"), w)
    | .ub => (.ub, w)
  | .login =>
    -- LoginHandler.h:22-42, WalletManagerImpl.cpp:192-222
    match credIn j with
    | .ok (u, p) =>
      if !taken w (Names.toLower u) then (.fail (str "Username not found"), w)
      else
        match seedWith P (Names.toLower u) p w with
        | none => (.fail (str "Password is invalid"), w)
        | some seed => enter P m (Names.toLower u) seed j w
    | .throw => (.fail (str "params"), w)
    | .ub => (.ub, w)
  | .delete =>
    -- DeleteWalletHandler.h:18-32, WalletManagerImpl.cpp:229-245, SqliteStore.cpp:106-123
    match credIn j with
    | .ok (u, p) =>
      match seedWith P (Names.toLower u) p w with
      | none => (.fail (str "Wallet not found or password invalid"), w)
      | some _ =>
        if deletable (Names.toLower u) w.sm then
          (.answer (.obj [("status", .str (str "SUCCESS"))]),
            { w with seeds := w.seeds.filter fun e => e.1 ≠ Names.toLower u
                     wallets := fun x => if x = Names.toLower u then P.fresh else w.wallets x })
        else (.fail (str "User still logged in."), w)
    | .throw => (.fail (str "params"), w)
    | .ub => (.ub, w)
  | .seed =>
    -- GetWalletSeedHandler.h:18-32, WalletManagerImpl.cpp:117-124
    match credIn j with
    | .ok (u, p) =>
      match seedWith P (Names.toLower u) p w with
      | none => (.fail (str "Wallet not found or password invalid"), w)
      | some seed => (.answer (.obj [("wallet_seed", .str (P.words seed))]), w)
    | .throw => (.fail (str "params"), w)
    | .ub => (.ub, w)
  | .list => (.answer (.obj [("wallets", .arr (w.seeds.map fun e => .str e.1))]), w)
  | .none =>
    let r := P.outside m (some j) w.env
    (r.1, { w with env := r.2 })

/-- `RPCServer::Handle` and the handlers: a request without parameters is refused, but by `list_wallets` (ListWalletsHandler.h:13-24) and
`get_tor_config`. -/
def handle (r : Req) (w : World W E) : Out × World W E :=
  match kindOf r.method, r.params with
  | none, _ => (.fail (str "Method not supported"), w)
  | some k, some j => handleWith P k r.method j w
  | some .list, none => handleWith P .list r.method .null w
  | some .none, none =>
    let x := P.outside r.method none w.env
    (x.1, { w with env := x.2 })
  | some _, none => (.fail (str "'params' missing"), w)

/-- Requests one after the other: what was answered, and what is left. -/
def handleAll : List Req → World W E → List Out × World W E
  | [], w => ([], w)
  | r :: rs, w =>
    let x := handle P r w
    let y := handleAll rs x.2
    (x.1 :: y.1, y.2)

end
end Verif.Owner
