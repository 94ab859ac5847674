import Verif.Wallet.Owner
import Verif.Wallet.DB
import Verif.Net.Settings
import Verif.Codec.KeyPath

/-!
# list_outputs and the balance as JSON

Model of `Wallet::GetOutputs`, `WalletOutputDTO.h`, `OutputStatus.h`, `ListOutputsHandler.h`, `GetBalanceHandler.h` and the numbers of
`WalletBalanceDTO::ToJSON`.  The wallet behind the token is given.
-/
namespace Verif.Wallet
open Verif.Codec Verif.PoW

/-- `WalletOutputDTO` (WalletOutputDTO.h:9-37). -/
structure OutputLine where
  path : List Nat
  commit : Bytes
  amount : Nat
  status : Nat
  mmrIndex : Option Nat
  height : Option Nat
  txId : Option Nat
  label : Option Bytes
deriving DecidableEq

/-- `OutputStatus::ToString` (OutputStatus.h:50-82). -/
def outStatusText (s : Nat) : Bytes :=
  if s = SPENDABLE then str "Spendable"
  else if s = 1 then str "Immature"
  else if s = NO_CONFIRMATIONS then str "No Confirmations"
  else if s = SPENT then str "Spent"
  else if s = LOCKED then str "Locked"
  else if s = CANCELED then str "Canceled"
  else []

/-- `OutputStatus::FromString` (OutputStatus.h:17-48). -/
def outStatusOf (t : Bytes) : Res Nat :=
  if t = str "Spendable" then .ok SPENDABLE
  else if t = str "Immature" then .ok 1
  else if t = str "No Confirmations" then .ok NO_CONFIRMATIONS
  else if t = str "Spent" then .ok SPENT
  else if t = str "Locked" then .ok LOCKED
  else if t = str "Canceled" then .ok CANCELED
  else .throw

/-- `WalletOutputDTO::FromOutputData` (WalletOutputDTO.h:39-61): only the first label is kept. -/
def outputLine (o : OutputRecord) : OutputLine :=
  ⟨o.path, o.output.commit, o.amount, o.status, o.mmrIndex, o.height, o.txId, o.labels.head?⟩

/-- `Wallet::GetOutputs` (Wallet.cpp:110-128). -/
def getOutputs (spent canceled : Bool) (db : WDB) : List OutputLine :=
  (db.outputs.filter fun o => !(o.status = SPENT && !spent) && !(o.status = CANCELED && !canceled)).map outputLine

/-- `JsonUtil::AddOptionalField` (JsonUtil.h:498-505) for a number. -/
def optNumber (key : String) : Option Nat → List (String × Json)
  | some n => [(key, .int n)]
  | none => []

/-- `WalletOutputDTO::ToJSON` (WalletOutputDTO.h:88-104). -/
def writeOutputLine (o : OutputLine) : Json :=
  .obj ([("keychain_path", .str (formatPath o.path)), ("commitment", .str (toHex o.commit)), ("amount", .int o.amount),
    ("status", .str (outStatusText o.status))] ++ optNumber "mmr_index" o.mmrIndex ++ optNumber "block_height" o.height ++
    optNumber "transaction_id" o.txId ++ o.label.elim [] fun l => [("label", .str l)])

/-- `WalletOutputDTO::FromJSON` (WalletOutputDTO.h:63-86). -/
def readOutputLine (j : Json) : Res OutputLine := do
  let p ← required Json.asString j "keychain_path"
  let path ← pathFromString p
  let commit ← required (jsonBytes 33) j "commitment"
  let amount ← required jsonUInt64 j "amount"
  let s ← required Json.asString j "status"
  let status ← outStatusOf s
  let mmr ← optionally jsonUInt64 j "mmr_index"
  let height ← optionally jsonUInt64 j "block_height"
  let txId ← Settings.uint32Opt j "transaction_id"
  let label ← Verif.Owner.stringOpt j "label"
  return ⟨path, commit, amount, status, mmr, height, txId, label⟩

/-- `ListOutputsHandler::Handle` (ListOutputsHandler.h:16-41). -/
def listOutputs (db : WDB) : Json := .obj [("outputs", .arr ((getOutputs false false db).map writeOutputLine))]

/-- The numbers of `WalletBalanceDTO::ToJSON` (WalletBalanceDTO.h:28-35), the answer of `get_balance`; the texts after them are in
`Wallet.Amount`. -/
def balanceJson (b : Balance) : Json :=
  .obj [("total", .int b.total), ("unconfirmed", .int b.unconfirmed), ("immature", .int b.immature), ("locked", .int b.locked),
    ("spendable", .int b.spendable)]

end Verif.Wallet
