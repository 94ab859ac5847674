import Verif.Net.Rpc
import Verif.Codec.KeyPath
import Verif.Wallet.Exchange
import Verif.Wallet.Owner

/-!
# What wallets say to each other over Tor

Model of the methods of the foreign interface (`src/API/Wallet/Foreign/Handlers`), of the JSON they read and write
(`include/API/Wallet/Foreign/Models`) and of the calls of the other side (`include/API/Wallet/Foreign/Clients`).  What the wallet itself does is
a parameter here; it is modelled elsewhere (`Wallet.DB`, `Wallet.Exchange`, `Wallet.Payment`).
-/
namespace Verif.Foreign
open Verif Verif.Codec Verif.Rpc Verif.Wallet

/-- `INTERNAL_ERROR` (RPC.h:20). -/
def INTERNAL_ERROR : Int := -32603

/-- The elements a range-based `for` over a `Json::Value` visits: those of an array, the values of an object, none of anything else. -/
def elementsOf : Json → List Json
  | .arr l => l
  | .obj fs => fs.map (·.2)
  | _ => []

/-- `CheckVersionResponse::ToJSON` (CheckVersionResponse.h:55-72). -/
def versionJson (api : Nat) (versions : List Nat) : Json :=
  .obj [("Ok", .obj [("foreign_api_version", .int api),
    ("supported_slate_versions", Json.elements (versions.map fun v => .str (str "V" ++ decStr v)))])]

/-- `CheckVersionClient::Call` (CheckVersionClient.h:27-52), what it reads from the result: the API's version and the texts of the slate versions;
reading goes on only for version 2. -/
def readVersion (result : Json) : Res (Nat × List Bytes) := do
  let ok ← getRequired result "Ok"
  let api ← required jsonUInt64 ok "foreign_api_version"
  if api ≠ 2 then return (api, [])
  else do
    let vs ← getRequired ok "supported_slate_versions"
    let texts ← readAll Json.asString (elementsOf vs)
    return (api, texts)

/-- `CheckVersionClient::Call` (CheckVersionClient.h:19-59) on what came back: no answer, or one read by `Response::Parse`; the highest version,
nothing if there is an error. -/
def askedVersion (answer : Option Response) : Option Nat :=
  match answer with
  | none => none
  | some r =>
    if r.error.isSome then none
    else
      match r.result with
      | none => none
      | some v =>
        match readVersion v with
        | .ok a => checkVersion (some a)
        | _ => none

/-- The parameters of `receive_tx` as `ReceiveTxClient::Call` writes them (ReceiveTxClient.h:17-21). -/
def receiveParams (s : Slate) : Res Json := do
  let j ← slateToJson s
  return .arr [j, .null, .null]

/-- A name or a message, if it is there (ReceiveTxRequest.h:28-39). -/
def textOrNull (j : Json) : Res (Option Bytes) :=
  if j.isNull then .ok none
  else do
    let s ← j.asString
    return some s

/-- `ReceiveTxRequest::FromJSON` (ReceiveTxRequest.h:23-47): the slate, the account and the message. -/
def readReceive : Json → Res (Slate × Option Bytes × Option Bytes)
  | .arr [a, b, c] => do
    let s ← slateFromJson a
    let account ← textOrNull b
    let message ← textOrNull c
    return (s, account, message)
  | _ => .throw

/-- `FinalizeTxRequest::FromJSON` (FinalizeTxRequest.h:19-32). -/
def readFinalize : Json → Res Slate
  | .arr (a :: _) => slateFromJson a
  | _ => .throw

/-- `FinalizeTxRequest::ToJSON` (FinalizeTxRequest.h:34-39). -/
def finalizeParams (s : Slate) : Res Json := do
  let j ← slateToJson s
  return .arr [j]

/-- `ReceiveTxResponse::ToJSON` (ReceiveTxResponse.h:24-29), `FinalizeTxResponse::ToJSON` (FinalizeTxResponse.h:23-28). -/
def slateAnswer (s : Slate) : Res Json := do
  let j ← slateToJson s
  return .obj [("Ok", j)]

/-- What `ReceiveTxClient::Call` makes of the answer (ReceiveTxClient.h:28-36), and `FinalizeTxResponse::FromJSON` (FinalizeTxResponse.h:17-21). -/
def readSlateAnswer (r : Response) : Res Slate :=
  if r.error.isSome then .throw
  else
    match r.result with
    | none => .throw
    | some v => do
      let ok ← getRequired v "Ok"
      slateFromJson ok

/-- `BuildCoinbaseCriteria` (BuildCoinbaseCriteria.h:8-38). -/
structure CoinbaseAsk where
  token : Token
  fees : Nat
  path : Option (List Nat)

/-- `BuildCoinbaseCriteria::FromJSON` (BuildCoinbaseCriteria.h:17-30); the height of the request is not read. -/
def readCoinbase (j : Json) : Res CoinbaseAsk := do
  let token ← Owner.tokenIn j
  let fees ← required jsonUInt64 j "fees"
  let key ← Owner.stringOpt j "key_id"
  match key with
  | none => return ⟨token, fees, none⟩
  | some s => do
    let p ← pathFromHex s
    return ⟨token, fees, some p⟩

/-- The wallet behind the interface: what it does with a slate to receive, to finalize, with a change of address after a payment, and with a
request for a coinbase.  An exception leaves it in the state given with it. -/
structure Behind (σ : Type) where
  receive : Slate → σ → Except Fail Slate × σ
  finalize : Slate → σ → Except Fail Slate × σ
  renew : σ → Except Fail Unit × σ
  coinbase : CoinbaseAsk → σ → Except Fail Json × σ
  reuse : Bool

/-- The `catch` clauses of `ReceiveTxHandler` and `FinalizeTxHandler` (ReceiveTxHandler.h:49-63, FinalizeTxHandler.h:39-53). -/
def caught : Fail → Error
  | .deser m => ⟨INVALID_PARAMS, str "Failed to deserialize slate: " ++ m, none⟩
  | .api c m => ⟨c, m, none⟩
  | .rpc m _ => ⟨INTERNAL_ERROR, m, none⟩
  | .other m => ⟨INTERNAL_ERROR, m, none⟩

variable {σ : Type}

/-- `ReceiveTxHandler::Handle` (ReceiveTxHandler.h:17-64).  `bad` is the exception for parameters that cannot be read, `unwritable` the one for a
slate that cannot be written. -/
def receiveTx (bad : Json → Fail) (unwritable : Fail) (B : Behind σ) (params : Option Json) (s : σ) : (Json ⊕ Error) × σ :=
  match readReceive (params.getD .null) with
  | .ok (slate, _, _) =>
    match B.receive slate s with
    | (.error f, s) => (.inr (caught f), s)
    | (.ok out, s) =>
      let (renewed, s) := if B.reuse then (.ok (), s) else B.renew s
      match renewed with
      | .error f => (.inr (caught f), s)
      | .ok () =>
        match slateAnswer out with
        | .ok j => (.inl j, s)
        | _ => (.inr (caught unwritable), s)
  | _ => (.inr (caught (bad (params.getD .null))), s)

/-- `FinalizeTxHandler::Handle` (FinalizeTxHandler.h:17-54). -/
def finalizeTx (bad : Json → Fail) (unwritable : Fail) (B : Behind σ) (params : Option Json) (s : σ) : (Json ⊕ Error) × σ :=
  match readFinalize (params.getD .null) with
  | .ok slate =>
    match B.finalize slate s with
    | (.error f, s) => (.inr (caught f), s)
    | (.ok out, s) =>
      match slateAnswer out with
      | .ok j => (.inl j, s)
      | _ => (.inr (caught unwritable), s)
  | _ => (.inr (caught (bad (params.getD .null))), s)

/-- `BuildCoinbaseHandler::Handle` (BuildCoinbaseHandler.h:14-25): exceptions go to `RPCServer::Handle`. -/
def buildCoinbaseTx (bad : Json → Fail) (B : Behind σ) (params : Option Json) (s : σ) : Except Fail (Json ⊕ Error) × σ :=
  match readCoinbase (params.getD .null) with
  | .ok ask =>
    match B.coinbase ask s with
    | (.ok j, s) => (.ok (.inl j), s)
    | (.error f, s) => (.error f, s)
  | _ => (.error (bad (params.getD .null)), s)

/-- The methods (ForeignServer.cpp:174, 176, 201, 241) in state `s`. -/
def methods (bad : Json → Fail) (unwritable : Fail) (B : Behind σ) (s : σ) (name : Bytes) : Option Method :=
  if name = str "receive_tx" then some ⟨false, fun r => .ok (receiveTx bad unwritable B r.params s).1⟩
  else if name = str "finalize_tx" then some ⟨false, fun r => .ok (finalizeTx bad unwritable B r.params s).1⟩
  else if name = str "check_version" then some ⟨false, fun _ => .ok (.inl (versionJson 2 [4]))⟩
  else if name = str "build_coinbase" then some ⟨false, fun r => (buildCoinbaseTx bad B r.params s).1⟩
  else none

/-- The state after a request: the handler's, if there is one for the method asked for. -/
def after (bad : Json → Fail) (unwritable : Fail) (B : Behind σ) (body : ReqBody) (s : σ) : σ :=
  match parseRequest body with
  | .error _ => s
  | .ok r =>
    if r.method = str "receive_tx" then (receiveTx bad unwritable B r.params s).2
    else if r.method = str "finalize_tx" then (finalizeTx bad unwritable B r.params s).2
    else if r.method = str "build_coinbase" then (buildCoinbaseTx bad B r.params s).2
    else s

end Verif.Foreign
