import Verif.Codec.WalletRecord
import Verif.Codec.Json
import Verif.Wallet.Schema
import Verif.Ser.Pow

/-!
# The transactions a wallet remembers, and their list

Model of `WalletTx` (include/Wallet/WalletTx.h), `WalletTxLoader` (src/Wallet/WalletTxLoader.cpp), `ListTxsCriteria`
(include/API/Wallet/Owner/Models/ListTxsCriteria.h), `ListTxsHandler` and the `ToJSON` of `WalletTxDTO` and `WalletOutputDTO`.  A point in time
is the number of nanoseconds since 1970, as libstdc++ has it.
-/
namespace Verif.Wallet
open Verif.Codec Verif.Wallet.Schema

/-- `WalletTx` (WalletTx.h:208-221). -/
structure TxRecord where
  id : Nat
  type : Nat
  slateId : Option Bytes
  address : Option Bytes
  message : Option Bytes
  creation : Int
  confirmation : Option Int
  height : Option Nat
  credited : Nat
  debited : Nat
  fee : Option Fee
  proof : Option PayProof
  tx : Option Tx
deriving DecidableEq

/-- `TimeUtil::ToInt64` (TimeUtil.h:47-50): milliseconds. -/
def toMillis (t : Int) : Int := t.tdiv 1000000

/-- `TimeUtil::ToSeconds` (TimeUtil.h:52-55). -/
def toSeconds (t : Int) : Int := t.tdiv 1000000000

/-- `TimeUtil::ToTimePoint` (TimeUtil.h:57-60): the product is one of 64-bit signed numbers. -/
def toTimePoint (ms : Int) : Res Int :=
  if -2 ^ 63 ≤ ms * 1000000 ∧ ms * 1000000 < 2 ^ 63 then .ok (ms * 1000000) else .ub

/-- A flag and the value (WalletTx.h:81-100). -/
def flagSer {α : Type} (f : α → Bytes) : Option α → Bytes
  | some a => beBytes 1 1 ++ f a
  | none => beBytes 1 0

/-- `WalletTx::Serialize` (WalletTx.h:67-106).  Serializers of the wallet write protocol version 1. -/
def txRecordSer (t : TxRecord) : Bytes :=
  beBytes 1 3 ++ (beBytes 4 t.id ++ (beBytes 1 t.type ++ (serVarStr ((t.slateId.map uuidText).getD []) ++
    (serVarStr (t.address.getD []) ++ (serVarStr (t.message.getD []) ++ (serI64 (toMillis t.creation) ++
      (serI64 ((t.confirmation.map toMillis).getD 0) ++ (beBytes 8 (t.height.getD 0) ++ (beBytes 8 t.credited ++
        (beBytes 8 t.debited ++ (flagSer feeSer t.fee ++ (flagSer payProofSer t.proof ++
          (t.tx.map (txSer 1)).getD []))))))))))))

/-- An empty text stands for none (WalletTx.h:125-128, 134-137, 144-147). -/
def textOpt (s : Bytes) : Option Bytes := if s = [] then none else some s

/-- A text that is there from a format on (WalletTx.h:130-148). -/
def readTextFrom (since format : Nat) : Parser (Option Bytes) :=
  if format ≥ since then do
    let s ← readVarStr
    return textOpt s
  else return none

/-- A flag and the value (WalletTx.h:170-173, 179-182). -/
def readFlag {α : Type} (p : Parser α) : Parser (Option α) := do
  let b ← readBE 1
  if b = 1 then do
    let a ← p
    return some a
  else return none

/-- The time of confirmation, zero for none (WalletTx.h:152-157). -/
def readConfirmation : Parser (Option Int) := do
  let ms ← readI64
  if ms ≠ 0 then do
    let t ← Parser.lift (toTimePoint ms)
    return some t
  else return none

/-- The payment proof, from format 3 on (WalletTx.h:175-183). -/
def readTxProof (format : Nat) : Parser (Option PayProof) :=
  if format ≥ 3 then readFlag payProofDeser else return none

/-- The transaction, if anything is left (WalletTx.h:185-189). -/
def readTxEnd (H : DigestNum) (coin : Bytes → Nat) : Parser (Option Tx) := do
  let r ← remaining
  if r > 0 then do
    let t ← txDeser H coin 1
    return some t
  else return none

/-- `WalletTx::Deserialize` (WalletTx.h:108-206); a slate id that does not parse is none. -/
def txRecordDeser (H : DigestNum) (coin : Bytes → Nat) : Parser TxRecord := do
  let format ← readBE 1
  if format > 3 then Parser.fail
  else do
    let id ← readBE 4
    let type ← readBE 1
    let slate ← readVarStr
    let address ← readTextFrom 2 format
    let message ← readTextFrom 1 format
    let ms ← readI64
    let creation ← Parser.lift (toTimePoint ms)
    let confirmation ← readConfirmation
    let height ← readBE 8
    let credited ← readBE 8
    let debited ← readBE 8
    let fee ← readFlag feeDeser
    let proof ← readTxProof format
    let tx ← readTxEnd H coin
    return ⟨id, type, if slate = [] then none else uuidParse slate, address, message, creation, confirmation, zeroIsNone height,
      credited, debited, fee, proof, tx⟩

/-! ## The list -/

/-- `ListTxsCriteria` (ListTxsCriteria.h:93-97). -/
structure Criteria where
  ids : List Nat
  start : Option Int
  stop : Option Int
  types : List Nat

/-- The ids (ListTxsCriteria.h:31-37): cut to 32 bits. -/
def idsOf : List Json → Res (List Nat)
  | [] => .ok []
  | j :: js => do
    let n ← jsonUInt64 j
    let ns ← idsOf js
    return n % 2 ^ 32 :: ns

/-- `uint64_t` to `int64_t`. -/
def toInt64 (n : Nat) : Int := if n < 2 ^ 63 then n else (n : Int) - 2 ^ 64

/-- `json.isMember(key)` and `json[key]` of an object. -/
def memberOf (j : Json) (key : String) : Option Json :=
  match j with
  | .obj fs => fs.lookup key
  | _ => none

/-- A bound on the time (ListTxsCriteria.h:39-51). -/
def boundOf (j : Json) (key : String) : Res (Option Int) :=
  match memberOf j key with
  | none => .ok none
  | some v => do
    let ms ← jsonUInt64 v
    let t ← toTimePoint (toInt64 ms)
    return some t

/-- `WalletTxType::ToKey` (WalletTxType.h:58-97). -/
def typeKey (t : Nat) : Bytes :=
  if t = 0 then str "COINBASE"
  else if t = 1 then str "SENT"
  else if t = 2 then str "RECEIVED"
  else if t = 3 then str "SENT_CANCELED"
  else if t = 4 then str "RECEIVED_CANCELED"
  else if t = 5 then str "SENDING_NOT_FINALIZED"
  else if t = 6 then str "RECEIVING_IN_PROGRESS"
  else if t = 7 then str "SENDING_FINALIZED"
  else []

/-- `WalletTxType::FromKey` (WalletTxType.h:99-136). -/
def typeOfKey (s : Bytes) : Res Nat :=
  if toUpper s = str "COINBASE" then .ok 0
  else if toUpper s = str "SENT" then .ok 1
  else if toUpper s = str "RECEIVED" then .ok 2
  else if toUpper s = str "SENT_CANCELED" then .ok 3
  else if toUpper s = str "RECEIVED_CANCELED" then .ok 4
  else if toUpper s = str "SENDING_NOT_FINALIZED" then .ok 5
  else if toUpper s = str "RECEIVING_IN_PROGRESS" then .ok 6
  else if toUpper s = str "SENDING_FINALIZED" then .ok 7
  else .throw

/-- `WalletTxType::ToString` (WalletTxType.h:20-56). -/
def typeText (t : Nat) : Bytes :=
  if t = 0 then str "Coinbase"
  else if t = 1 then str "Sent"
  else if t = 2 then str "Received"
  else if t = 3 ∨ t = 4 then str "Canceled"
  else if t = 5 then str "Sending (Not Finalized)"
  else if t = 6 then str "Receiving (Unconfirmed)"
  else if t = 7 then str "Sending (Finalized)"
  else []

/-- The loop over the statuses (ListTxsCriteria.h:65-80). -/
def typesOf : List Json → Res (List Nat)
  | [] => .ok []
  | j :: js => do
    let s ← j.asString
    let t ← typeOfKey s
    let ts ← typesOf js
    return t :: ts

/-- The statuses (ListTxsCriteria.h:53-81). -/
def statusesOf (j : Json) : Res (List Nat) :=
  match memberOf j "statuses" with
  | none => .ok []
  | some (.arr l) => typesOf l
  | some _ => .throw

/-- `ListTxsCriteria::FromJSON` (ListTxsCriteria.h:24-84): what the session token says is `Session.lean`'s. -/
def criteriaFromJson (j : Json) : Res Criteria := do
  let tok ← getRequired j "session_token"
  let _ ← tok.asString
  let l ← getArray j "ids"
  let ids ← idsOf l
  let start ← boundOf j "start_range_ms"
  let stop ← boundOf j "end_range_ms"
  let types ← statusesOf j
  return ⟨ids, start, stop, types⟩

/-- The time of a transaction (WalletTxLoader.cpp:89-92). -/
def txTime (t : TxRecord) : Int :=
  match t.confirmation with
  | some c => if c < t.creation then c else t.creation
  | none => t.creation

/-- `MeetsCriteria` (WalletTxLoader.cpp:87-108). -/
def meets (c : Criteria) (t : TxRecord) : Bool :=
  if (match c.start with | some s => decide (s > txTime t) | none => false) then false
  else if (match c.stop with | some e => decide (e < txTime t) | none => false) then false
  else if !c.ids.isEmpty && !c.ids.contains t.id then false
  else c.types.isEmpty || c.types.contains t.type

/-- `WalletOutputDTO` (WalletOutputDTO.h:103-111). -/
structure OutputView where
  path : List Nat
  commit : Bytes
  amount : Nat
  status : Nat
  mmrIndex : Option Nat
  height : Option Nat
  txId : Option Nat
  label : Option Bytes
deriving DecidableEq

/-- `WalletOutputDTO::FromOutputData` (WalletOutputDTO.h:37-59). -/
def outputView (o : OutputRecord) : OutputView :=
  ⟨o.path, o.output.commit, o.amount, o.status, o.mmrIndex, o.height, o.txId, o.labels.head?⟩

/-- `WalletTxDTO` (WalletTxDTO.h:85-89) with the texts its `ToJSON` shows (WalletTxDTO.h:32-82). -/
structure TxView (S : Type) where
  id : Nat
  type : Bytes
  credited : Nat
  debited : Nat
  created : Int
  address : Option Bytes
  message : Option Bytes
  height : Option Nat
  fee : Option Nat
  slateId : Option Bytes
  confirmed : Option Int
  kernels : List Bytes
  outputs : List OutputView
  slate : Option S
  armored : Bytes

/-- The kernels with an excess (WalletTxLoader.cpp:32-43). -/
def kernelsOf (t : TxRecord) : List Bytes :=
  match t.tx with
  | some x => (x.body.kernels.map (·.excess)).filter (· ≠ List.replicate 33 0)
  | none => []

section
variable {S : Type} (dec : Bytes → Bytes → Option S) (s : Schema.Store)

/-- The slate and the slatepack (WalletTxLoader.cpp:55-65). -/
def latestOf (t : TxRecord) : Res (Option S × Bytes) :=
  match t.slateId with
  | some id => loadLatest dec (uuidText id) s
  | none => .ok (none, [])

/-- `ToDTO` (WalletTxLoader.cpp:26-68). -/
def toView (outputs : List OutputRecord) (t : TxRecord) : Res (TxView S) := do
  let latest ← latestOf dec s t
  return ⟨t.id, typeText t.type, t.credited, t.debited, toSeconds t.creation, t.address, t.message, t.height, t.fee.map feeToJSON,
    t.slateId.map uuidText, t.confirmation.map toSeconds, kernelsOf t,
    (outputs.filter fun o => decide (o.txId = some t.id)).map outputView, latest.1, latest.2⟩

/-- The loop of `LoadTransactions` (WalletTxLoader.cpp:15-21). -/
def toViews (outputs : List OutputRecord) : List TxRecord → Res (List (TxView S))
  | [] => .ok []
  | t :: ts => do
    let v ← toView dec s outputs t
    let vs ← toViews outputs ts
    return v :: vs

/-- `LoadTransactions` (WalletTxLoader.cpp:6-24), `LoadWalletTxs` (70-85): `outputs` and `txs` are what the tables hold. -/
def listTxs (outputs : List OutputRecord) (txs : List TxRecord) (c : Criteria) : Res (List (TxView S)) :=
  toViews dec s outputs (txs.filter (meets c))

/-- `ListTxsHandler::Handle` (ListTxsHandler.h:20-41), the wallet found: the entries, and `txs` of the answer, with `render` for the `ToJSON` of
an entry.  It is made by appending, so it is null if there are none. -/
def listTxsCall (render : TxView S → Json) (outputs : List OutputRecord) (txs : List TxRecord) (params : Option Json) :
    Res (List (TxView S) × Json) :=
  match params with
  | none => .throw
  | some j => do
    let c ← criteriaFromJson j
    let vs ← listTxs dec s outputs txs c
    return (vs, Json.elements (vs.map render))

end
end Verif.Wallet
