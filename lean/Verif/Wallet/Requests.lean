import Verif.Wallet.Owner
import Verif.Wallet.Estimate
import Verif.Wallet.Exchange
import Verif.Net.Settings
import Verif.Codec.Onion

/-!
# How requests of the owner are read

Model of `SendCriteria.h`, `EstimateFeeCriteria.h`, `SelectionStrategyDTO.h`, `SelectionStrategy.h`, `PostMethodDTO.h`, `PostMethod.h`,
`CancelTxCriteria.h`, `RepostTxCriteria.h` and of the handlers of `cancel_tx` and `repost_tx`.  The wallet behind the token is given.
-/
namespace Verif.Wallet
open Verif.Codec

/-- `SendCriteria` (SendCriteria.h:101-109); the set of inputs is a list without repetitions, its order is not modelled. -/
structure SendAsk where
  token : Token
  amount : Option Nat
  base : Nat
  outputs : Nat
  strategy : Strategy
  inputs : List Bytes
  address : Option Bytes
  post : Option (PostMethod × Option TorAddr)

/-- `SelectionStrategy::FromString` (SelectionStrategy.h:16-36). -/
def strategyOf (s : Bytes) : Res Strategy :=
  if s = str "SMALLEST" then .ok .smallest
  else if s = str "FEWEST_INPUTS" then .ok .fewest
  else if s = str "CUSTOM" then .ok .custom
  else if s = str "ALL" then .ok .all
  else .throw

/-- `SelectionStrategy::ToString` (SelectionStrategy.h:38-58). -/
def strategyText : Strategy → Bytes
  | .smallest => str "SMALLEST"
  | .fewest => str "FEWEST_INPUTS"
  | .custom => str "CUSTOM"
  | .all => str "ALL"

/-- `PostMethod::FromString` (PostMethod.h:32-48). -/
def methodOf (s : Bytes) : Res PostMethod :=
  if s = str "FLUFF" then .ok .fluff
  else if s = str "STEM" then .ok .stem
  else if s = str "JOIN" then .ok .join
  else .throw

/-- `PostMethod::ToString` (PostMethod.h:15-30). -/
def methodText : PostMethod → Bytes
  | .fluff => str "FLUFF"
  | .stem => str "STEM"
  | .join => str "JOIN"

/-- What the iterators of a `Json::Value` go through: the elements of an array, the values of an object, otherwise nothing. -/
def jsonValues : Json → List Json
  | .arr l => l
  | .obj fs => fs.map (·.2)
  | _ => []

/-- `std::set::insert`. -/
def insertOnce (l : List Bytes) (c : Bytes) : List Bytes := if c ∈ l then l else l ++ [c]

/-- The loop over the inputs (SelectionStrategyDTO.h:40-43). -/
def readInputs : List Json → List Bytes → Res (List Bytes)
  | [], acc => .ok acc
  | j :: js, acc => do
    let c ← jsonBytes 33 j
    readInputs js (insertOnce acc c)

/-- `SelectionStrategyDTO::FromJSON` (SelectionStrategyDTO.h:32-47). -/
def readStrategy (j : Json) : Res (Strategy × List Bytes) := do
  let s ← required Json.asString j "strategy"
  let given ← getOptional j "inputs"
  let inputs ← readInputs (given.elim [] jsonValues) []
  let st ← strategyOf s
  return (st, inputs)

/-- `SelectionStrategyDTO::ToJSON` (SelectionStrategyDTO.h:14-30). -/
def writeStrategy (st : Strategy) (inputs : List Bytes) : Json :=
  .obj ([("strategy", .str (strategyText st))] ++
    (if inputs = [] then [] else [("inputs", .arr (inputs.map fun c => .str (toHex c)))]))

/-- The method and the address in `PostMethodDTO::FromJSON` (PostMethodDTO.h:26-34) and `RepostTxCriteria::FromJSON`
(RepostTxCriteria.h:37-42): an address that is none is dropped. -/
def readPost (l : OnionLib) (j : Json) : Res (PostMethod × Option TorAddr) := do
  let m ← required Json.asString j "method"
  let a ← Verif.Owner.stringOpt j "grinjoin_address"
  let m ← methodOf m
  return (m, a.bind (onionParse l))

/-- `PostMethodDTO::ToJSON` (PostMethodDTO.h:14-24). -/
def writePost (p : PostMethod × Option TorAddr) : Json :=
  .obj ([("method", .str (methodText p.1))] ++ p.2.elim [] fun a => [("grinjoin_address", .str a.text)])

/-- `(uint8_t)json.get("change_outputs", Json::Value(1)).asUInt()` (SendCriteria.h:60, EstimateFeeCriteria.h:30). -/
def changeOutputs : Json → Res Nat
  | .null => .ok 1
  | .obj fs => do
    let n ← Settings.asUInt ((fs.lookup "change_outputs").getD (.int 1))
    return n % 256
  | _ => .throw

/-- The part of a request to send and to estimate that is read the same way. -/
def readCoins (j : Json) : Res (Strategy × List Bytes) := do
  let s ← getRequired j "selection_strategy"
  readStrategy s

/-- `SendCriteria::FromJSON` (SendCriteria.h:55-83). -/
def readSend (l : OnionLib) (j : Json) : Res SendAsk := do
  let t ← Verif.Owner.tokenIn j
  let amount ← optionally jsonUInt64 j "amount"
  let base ← required jsonUInt64 j "fee_base"
  let n ← changeOutputs j
  let s ← readCoins j
  let address ← Verif.Owner.stringOpt j "address"
  let post ← optionally (readPost l) j "post_tx"
  return ⟨t, amount, base, n, s.1, s.2, address, post⟩

/-- `SendCriteria::ToJSON` (SendCriteria.h:31-53). -/
def writeSend (r : SendAsk) : Json :=
  .obj ([("session_token", .str (tokenText ⟨r.token.id, r.token.key⟩))] ++ r.amount.elim [] (fun n => [("amount", .int n)]) ++
    [("fee_base", .int r.base), ("change_outputs", .int r.outputs), ("selection_strategy", writeStrategy r.strategy r.inputs)] ++
    r.address.elim [] (fun a => [("address", .str a)]) ++ r.post.elim [] (fun p => [("post_tx", writePost p)]))

/-- `EstimateFeeCriteria::FromJSON` (EstimateFeeCriteria.h:23-44): the token and the request, its change outputs already cut to a byte. -/
def readEstimate (j : Json) : Res (Token × Request) := do
  let t ← Verif.Owner.tokenIn j
  let amount ← optionally jsonUInt64 j "amount"
  let base ← required jsonUInt64 j "fee_base"
  let s ← readCoins j
  let n ← changeOutputs j
  return (t, ⟨amount, base, if amount.isNone then 0 else n, s.1, s.2⟩)

/-- `tx_id` in `CancelTxCriteria::FromJSON` (CancelTxCriteria.h:28-37) and `RepostTxCriteria::FromJSON` (RepostTxCriteria.h:26-35). -/
def txIdIn (fs : List (String × Json)) : Res Nat :=
  let v := (fs.lookup "tx_id").getD .null
  if v.isNull then .throw
  else do
    let n ← jsonUInt64 v
    return n % 2 ^ 32

/-- `CancelTxCriteria::FromJSON` (CancelTxCriteria.h:20-46). -/
def readCancel : Json → Res (Token × Nat)
  | .obj fs => do
    let t ← Verif.Owner.tokenIn (.obj fs)
    let n ← txIdIn fs
    return (t, n)
  | _ => .throw

/-- `RepostTxCriteria::FromJSON` (RepostTxCriteria.h:18-50). -/
def readRepost (l : OnionLib) : Json → Res (Token × Nat × PostMethod × Option TorAddr)
  | .obj fs => do
    let t ← Verif.Owner.tokenIn (.obj fs)
    let n ← txIdIn fs
    let p ← readPost l (.obj fs)
    return (t, n, p.1, p.2)
  | _ => .throw

/-- `CancelTxHandler::Handle` (CancelTxHandler.h:19-33) with the wallet of the token: its answer, if any, is SUCCESS. -/
def cancelCall (j : Json) (db : WDB) : Res WDB := do
  let r ← readCancel j
  cancel r.2 db

/-- `RepostTxHandler::Handle` (RepostTxHandler.h:20-34) with the wallet of the token: whether the answer is SUCCESS. -/
def repostCall (l : OnionLib) (W : World) (j : Json) (p : Purse) : Res Bool × Purse :=
  match readRepost l j with
  | .ok r => repost W r.2.2.1 r.2.1 p
  | .throw => (.throw, p)
  | .ub => (.ub, p)

end Verif.Wallet
