import Verif.Wallet.Select
import Verif.PoW.Consensus

/-!
# The wallet database and the operations on it

Model of `WalletSqlite.cpp` and its tables, `WalletImpl.cpp`, `WalletRefresher.cpp`, `CancelTx.cpp` and the
database side of the three slate builders.  A table is the list of its rows in the order of a full scan (by
row id).  Each operation runs in one batch (`BatchWrite`) that is committed at its end; if it throws, the batch
is rolled back and the tables are unchanged (`WalletSqlite::Rollback`, `SqliteTransaction.h:46-56`), so an
operation is a function to `Res WDB`.  Encryption of the stored blobs, time stamps, addresses, payment proofs and
armored slatepacks are not modelled.
-/
namespace Verif.Wallet
open Verif.Codec Verif.PoW

/-- `WalletTx` (include/Wallet/WalletTx.h:15-47) without times, addresses and proofs; of the stored transaction only
the commitments of its inputs and outputs. -/
structure WTx where
  id : Nat
  type : Nat
  slateId : Option Bytes
  height : Option Nat
  credited : Nat
  debited : Nat
  fee : Option Nat
  tx : Option (List Bytes × List Bytes)
deriving DecidableEq, Repr

/-! Values of `EWalletTxType` (include/Wallet/WalletTxType.h:6-16). -/
/-- `SENT`. -/
def SENT : Nat := 1
/-- `RECEIVED`. -/
def RECEIVED : Nat := 2
/-- `SENT_CANCELED`. -/
def SENT_CANCELED : Nat := 3
/-- `RECEIVED_CANCELED`. -/
def RECEIVED_CANCELED : Nat := 4
/-- `SENDING_STARTED`. -/
def SENDING_STARTED : Nat := 5
/-- `RECEIVING_IN_PROGRESS`. -/
def RECEIVING_IN_PROGRESS : Nat := 6
/-- `SENDING_FINALIZED`. -/
def SENDING_FINALIZED : Nat := 7

/-- `SlateContextEntity` (include/Wallet/WalletDB/Models/SlateContextEntity.h) as stored by a send: the secret key
and nonce are numbers, the inputs and change outputs are records. -/
structure Ctx where
  key : Nat
  nonce : Nat
  inputs : List OutputRecord
  outputs : List OutputRecord
deriving DecidableEq, Repr

/-- The tables: `outputs` (OutputsTable.cpp:14-18), `transactions` (TransactionsTable.cpp:13-17), `slate_contexts`
(SlateContextTable.cpp:9-14), the row of `metadata` (MetadataTable.cpp:13-19) and `next_child_index` of the one
account (AccountsTable.cpp:15-19, SqliteStore.cpp:157-158). -/
structure WDB where
  outputs : List OutputRecord
  txs : List WTx
  contexts : List (Bytes × Ctx)
  nextChild : Nat
  nextTxId : Nat
  refreshHeight : Nat
deriving DecidableEq, Repr

/-- One row of `OutputsTable::AddOutputs` (OutputsTable.cpp:50-77): insert, or replace the row with that
commitment. -/
def putOutput : List OutputRecord → OutputRecord → List OutputRecord
  | [], o => [o]
  | r :: rs, o => if r.output.commit = o.output.commit then o :: rs else r :: putOutput rs o

/-- `OutputsTable::AddOutputs` (OutputsTable.cpp:50-77). -/
def addOutputs (rows os : List OutputRecord) : List OutputRecord := os.foldl putOutput rows

/-- `TransactionsTable::AddTransactions` (TransactionsTable.cpp:24-48): insert, or replace the row with that id.  The
id is the row id, so a scan sees rows in the order of ids (below `2^31`, where the cast to `int` keeps order). -/
def putTx : List WTx → WTx → List WTx
  | [], t => [t]
  | r :: rs, t => if r.id = t.id then t :: rs else if t.id < r.id then t :: r :: rs else r :: putTx rs t

/-- `WalletSqlite::GetNextChildPath` (WalletSqlite.cpp:45-53) for the account `m/0/0`: the column is written and read
as a 32-bit integer. -/
def nextChildPath (db : WDB) : List Nat × WDB :=
  ([0, 0, db.nextChild], { db with nextChild := (db.nextChild + 1) % 2 ^ 32 })

/-- `WalletSqlite::GetNextTransactionId` (WalletSqlite.cpp:122-131). -/
def nextTxId (db : WDB) : Nat × WDB := (db.nextTxId, { db with nextTxId := (db.nextTxId + 1) % 2 ^ 32 })

/-- `GetTxBySlateId` (WalletImpl.cpp:242-255), `GetTransactionBySlateId` (Wallet.cpp:77-89): the first match. -/
def txBySlate (txs : List WTx) (id : Bytes) : Option WTx := txs.find? (fun t => t.slateId = some id)

/-! ## Coins and balance -/

/-- `WalletUtil::IsOutputImmature` (include/Wallet/WalletUtil.h:12-23); `conf` is the configured number of
confirmations. -/
def immature (env : Env) (conf : Nat) (features height current : Nat) : Bool :=
  if features = 1 then decide (maxCoinbaseHeight env current ≤ height) else decide (current < (height + conf) % U64)

/-- `WalletImpl::GetAllAvailableCoins` (WalletImpl.cpp:104-128), after the refresh; `tip` is the height of the node's
tip. -/
def availableCoins (env : Env) (conf tip : Nat) (outs : List OutputRecord) : List OutputRecord :=
  outs.filter (fun o => o.status = SPENDABLE && !immature env conf o.output.features (o.height.getD 0) tip)

/-- `WalletBalanceDTO` (include/Wallet/Models/DTOs/WalletBalanceDTO.h:9-26). -/
structure Balance where
  unconfirmed : Nat
  immature : Nat
  locked : Nat
  spendable : Nat
deriving DecidableEq, Repr

/-- `GetTotal` (WalletBalanceDTO.h:22). -/
def Balance.total (b : Balance) : Nat := (b.unconfirmed + b.immature + b.spendable) % U64

/-- One step of the loop of `GetBalance` (Wallet.cpp:44-61, WalletImpl.cpp:71-88). -/
def addBalance (env : Env) (conf current : Nat) (b : Balance) (o : OutputRecord) : Balance :=
  if o.status = LOCKED then { b with locked := (b.locked + o.amount) % U64 }
  else if o.status = SPENDABLE then
    if Wallet.immature env conf o.output.features (o.height.getD 0) current then
      { b with immature := (b.immature + o.amount) % U64 }
    else { b with spendable := (b.spendable + o.amount) % U64 }
  else if o.status = NO_CONFIRMATIONS then { b with unconfirmed := (b.unconfirmed + o.amount) % U64 }
  else b

/-- `Wallet::GetBalance` (Wallet.cpp:35-70): from the stored outputs and the height of the last refresh. -/
def getBalance (env : Env) (conf : Nat) (db : WDB) : Balance :=
  db.outputs.foldl (addBalance env conf db.refreshHeight) ⟨0, 0, 0, 0⟩

/-! ## Creating outputs -/

/-- `WalletImpl::CreateBlindedOutput` (WalletImpl.cpp:130-161): `commit` gives the commitment for a key path and an
amount (key derivation and curve arithmetic are not modelled; blinding factor and range proof are left empty). -/
def newOutput (commit : List Nat → Nat → Bytes) (path : List Nat) (amount txId : Nat) : OutputRecord :=
  ⟨path, [], ⟨0, commit path amount, []⟩, amount, NO_CONFIRMATIONS, none, none, some txId, []⟩

/-- `OutputBuilder::CreateOutputs` (OutputBuilder.h:20-34) for the given amounts. -/
def createOutputs (commit : List Nat → Nat → Bytes) (txId : Nat) : WDB → List Nat → List OutputRecord × WDB
  | db, [] => ([], db)
  | db, v :: vs =>
    let p := nextChildPath db
    let r := createOutputs commit txId p.2 vs
    (newOutput commit p.1 v txId :: r.1, r.2)

/-! ## Operations -/

/-- What a caller of send supplies. -/
structure SendArgs where
  amount : Nat
  base : Nat
  maxChange : Nat
  entire : Bool
  strategy : Strategy
  wanted : List Bytes
  slateId : Bytes
  key : Nat
  nonce : Nat
deriving DecidableEq, Repr

/-- `LOCKED` copy of a coin (SendSlateBuilder.cpp:272-275). -/
def lockCoin (o : OutputRecord) : OutputRecord := { o with status := LOCKED }

/-- The rest of `SendSlateBuilder::Build` (SendSlateBuilder.cpp:100-124, 176-199, 202-279) for a plan.  The primary key of
`slate_contexts` refuses a slate id used before (SlateContextTable.cpp:11, SqliteDB.cpp:114-116). -/
def buildSend (commit : List Nat → Nat → Bytes) (a : SendArgs) (p : Plan) (db : WDB) : Res WDB :=
  let i := nextTxId db
  let c := createOutputs commit i.1 i.2 p.change
  if db.contexts.any (fun e => e.1 = a.slateId) then .throw
  else .ok { c.2 with
    contexts := db.contexts ++ [(a.slateId, ⟨a.key, a.nonce, p.inputs, c.1⟩)]
    outputs := addOutputs (addOutputs c.2.outputs c.1) (p.inputs.map lockCoin)
    txs := putTx c.2.txs ⟨i.1, SENDING_STARTED, some a.slateId, none, sum64 c.1, sum64 p.inputs, some p.fee,
      some (p.inputs.map (·.output.commit), c.1.map (·.output.commit))⟩ }

/-- `SendSlateBuilder::BuildSendSlate` (SendSlateBuilder.cpp:22-87) after the refresh in `GetAllAvailableCoins`. -/
def send (env : Env) (conf tip : Nat) (up down : List OutputRecord → List OutputRecord)
    (commit : List Nat → Nat → Bytes) (a : SendArgs) (db : WDB) : Res WDB := do
  let p ← sendPlan up down (availableCoins env conf tip db.outputs) a.amount a.base a.maxChange a.entire a.strategy a.wanted
  buildSend commit a p db

/-- `ReceiveSlateBuilder::VerifySlateStatus` (ReceiveSlateBuilder.cpp:89-105). -/
def mayReceive (txs : List WTx) (slateId : Bytes) : Bool :=
  match txBySlate txs slateId with
  | none => true
  | some t => t.type = RECEIVED_CANCELED || t.type = SENDING_STARTED

/-- `ReceiveSlateBuilder::AddReceiverData` (ReceiveSlateBuilder.cpp:10-87, 175-209): the database side.  Signing, and the
exceptions it can raise, are not modelled here. -/
def receive (commit : List Nat → Nat → Bytes) (slateId : Bytes) (amount fee : Nat) (db : WDB) : Res WDB :=
  if mayReceive db.txs slateId then
    let p := nextChildPath db
    let i := nextTxId p.2
    .ok { i.2 with
      outputs := addOutputs i.2.outputs [newOutput commit p.1 amount i.1]
      txs := putTx i.2.txs ⟨i.1, RECEIVING_IN_PROGRESS, some slateId, none, amount, 0, some fee, none⟩ }
  else .throw

/-- `FinalizeSlateBuilder::Finalize` (FinalizeSlateBuilder.cpp:15-97, 250-259): the database side.  `ins`, `outs` are the
commitments of the finished transaction, `valid` says whether all signatures and checks pass.  The `slate` table has
no unique key (SlateTable.cpp:14), so saving the finalized slate never fails. -/
def finalize (slateId : Bytes) (valid : Bool) (ins outs : List Bytes) (db : WDB) : Res WDB :=
  match db.contexts.find? (fun e => e.1 = slateId), txBySlate db.txs slateId with
  | some _, some t =>
    if valid then .ok { db with txs := putTx db.txs { t with type := SENDING_FINALIZED, tx := some (ins, outs) } }
    else .throw
  | _, _ => .throw

/-- `CancelTx::GetOutputsToUpdate` (CancelTx.cpp:34-71) for one output: `none` leaves it alone. -/
def cancelOutput (ins : List Bytes) (t : WTx) (o : OutputRecord) : Res (Option OutputRecord) :=
  if ins.contains o.output.commit then
    if o.status = NO_CONFIRMATIONS ∨ o.status = SPENT then .ok (some { o with status := CANCELED })
    else if o.status = LOCKED then .ok (some { o with status := SPENDABLE })
    else if t.type ≠ SENT_CANCELED then .throw
    else .ok none
  else if o.txId = some t.id then
    if o.status = NO_CONFIRMATIONS ∨ o.status = SPENT then .ok (some { o with status := CANCELED })
    else if o.status ≠ CANCELED then .throw
    else .ok none
  else .ok none

/-- The loop of `GetOutputsToUpdate` (CancelTx.cpp:39-70). -/
def cancelOutputs (ins : List Bytes) (t : WTx) : List OutputRecord → Res (List OutputRecord)
  | [] => .ok []
  | o :: os => do
    let x ← cancelOutput ins t o
    let r ← cancelOutputs ins t os
    return x.toList ++ r

/-- `CancelTx::CancelWalletTx` (CancelTx.cpp:6-32): the new type of the transaction. -/
def cancelType (t : WTx) : Res WTx :=
  if t.type = RECEIVING_IN_PROGRESS then .ok { t with type := RECEIVED_CANCELED }
  else if t.type = SENDING_STARTED ∨ t.type = SENDING_FINALIZED then .ok { t with type := SENT_CANCELED }
  else .throw

/-- The inputs of a canceled send (CancelTx.cpp:19-25). -/
def cancelInputs (t : WTx) : List Bytes :=
  match t.tx with
  | some x => if t.type = SENT_CANCELED then x.1 else []
  | none => []

/-- `CancelTx::CancelWalletTx` (CancelTx.cpp:6-32). -/
def cancelTx (t : WTx) (db : WDB) : Res WDB := do
  let t' ← cancelType t
  let upd ← cancelOutputs (cancelInputs t') t' db.outputs
  return { db with outputs := addOutputs db.outputs upd, txs := putTx db.txs t' }

/-- `Wallet::CancelTx` (Wallet.cpp:252-260): an unknown id is ignored. -/
def cancel (id : Nat) (db : WDB) : Res WDB :=
  match db.txs.find? (fun t => t.id = id) with
  | none => .ok db
  | some t => cancelTx t db

/-! ## Refresh -/

/-- What the node tells a refreshing wallet: its height, the height of each output it knows, and the outputs found by
rewinding range proofs (`OutputRestorer`, here as given). -/
structure NodeView where
  height : Nat
  loc : Bytes → Option Nat
  restored : List OutputRecord

/-- `WalletRefresher::RefreshOutputs` for one output (WalletRefresher.cpp:116-153). -/
def refreshOutput (loc : Bytes → Option Nat) (o : OutputRecord) : OutputRecord :=
  match loc o.output.commit with
  | some h =>
    if o.status = LOCKED ∨ o.status = SPENDABLE then o
    else { o with height := some h, status := SPENDABLE }
  | none =>
    if o.status = NO_CONFIRMATIONS ∨ o.status = SPENT ∨ o.status = CANCELED then o
    else { o with status := SPENT }

/-- `FindNewOutputs` (WalletRefresher.cpp:76-102): restored outputs that are unspent and unknown. -/
def newOutputs (known restored : List OutputRecord) : List OutputRecord :=
  restored.filter (fun r => r.status ≠ SPENT && !known.any (fun o => o.output.commit = r.output.commit))

/-- Recording one new output (WalletRefresher.cpp:35-64). -/
def addRestored (db : WDB) (o : OutputRecord) : WDB :=
  let i := nextTxId db
  { i.2 with
    outputs := putOutput i.2.outputs { o with txId := some i.1 }
    txs := putTx i.2.txs ⟨i.1, RECEIVED, none, o.height, o.amount, 0, none, none⟩ }

/-- The first loop of `RefreshTransactions` (WalletRefresher.cpp:169-192): `old` are the transactions as read at the
start. -/
def confirmTx (old : List WTx) (txs : List WTx) (o : OutputRecord) : List WTx :=
  match o.txId.bind (fun i => old.find? (fun t => t.id = i)), o.height with
  | some t, some h =>
    if t.type = RECEIVING_IN_PROGRESS then putTx txs { t with height := some h, type := RECEIVED }
    else if t.type = SENDING_FINALIZED then putTx txs { t with height := some h, type := SENT }
    else txs
  | _, _ => txs

/-- The second loop of `RefreshTransactions` (WalletRefresher.cpp:194-211). -/
def confirmSpent (outs : List OutputRecord) (txs : List WTx) (t : WTx) : List WTx :=
  match t.tx with
  | some x =>
    if t.type = SENDING_FINALIZED then
      match x.2.findSome? (fun c => outs.find? (fun o => c = o.output.commit)) with
      | some o => if o.status = SPENT then putTx txs { t with type := SENT } else txs
      | none => txs
    else txs
  | none => txs

/-- `RefreshTransactions` (WalletRefresher.cpp:158-212). -/
def refreshTxs (outs : List OutputRecord) (old : List WTx) (txs : List WTx) : List WTx :=
  old.foldl (confirmSpent outs) (outs.foldl (confirmTx old) txs)

/-- `WalletRefresher::Refresh` (WalletRefresher.cpp:19-74): the list returned and the database.  If the node is behind
the last refresh, nothing is done and the list returned is empty. -/
def refresh (v : NodeView) (db : WDB) : List OutputRecord × WDB :=
  if v.height < db.refreshHeight then ([], db)
  else
    let db1 := (newOutputs db.outputs v.restored).foldl addRestored db
    let outs := db1.outputs.map (refreshOutput v.loc)
    (outs, { db1 with outputs := outs, txs := refreshTxs outs db1.txs db1.txs, refreshHeight := v.height })

/-- `BuildCoinbase` (Wallet.cpp:262-321): a child index is consumed whether or not a path was supplied (the argument of
`value_or` is always evaluated); no output is stored. -/
def coinbase (db : WDB) : WDB := (nextChildPath db).2

end Verif.Wallet
