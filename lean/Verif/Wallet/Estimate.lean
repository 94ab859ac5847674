import Verif.Wallet.DB

/-!
# Fee estimates

Model of `Wallet::EstimateFee` (src/Wallet/Wallet.cpp) and of the way requests to estimate and to send are read.
-/
namespace Verif.Wallet
open Verif.Codec Verif.Tx Verif.PoW

/-- The part of a request shared by `EstimateFeeCriteria::FromJSON` (EstimateFeeCriteria.h:23-44) and `SendCriteria::FromJSON`
(SendCriteria.h:60-88): no amount means the entire balance; `change` is the number given, before the cast to a byte. -/
structure Request where
  amount : Option Nat
  base : Nat
  change : Nat
  strategy : Strategy
  wanted : List Bytes

/-- `FeeEstimateDTO` (FeeEstimateDTO.h:6-12). -/
structure Estimate where
  amount : Nat
  fee : Nat
  inputs : List OutputRecord
deriving DecidableEq, Repr

/-- `Wallet::EstimateFee` (Wallet.cpp:169-225), with the change outputs set to none for the entire balance
(EstimateFeeCriteria.h:32-35).  The coins are those with status SPENDABLE in the database, without a refresh. -/
def estimateFee (up down : List OutputRecord → List OutputRecord) (outs : List OutputRecord) (r : Request) : Res Estimate :=
  let change := if r.amount.isNone then 0 else r.change % 256
  let n := (change + 1) % 256
  let coins := outs.filter (fun o => o.status = SPENDABLE)
  match r.amount with
  | none =>
    let fee := calcFee r.base coins.length n 1
    if sum64 coins < fee then .throw else .ok ⟨sum64 coins - fee, fee, coins⟩
  | some a => do
    let inputs ← selectCoins up down coins a r.base r.strategy r.wanted n 1
    return ⟨a, calcFee r.base inputs.length n 1, inputs⟩

/-- `WalletManager::Send` (WalletManagerImpl.cpp:261-288) up to the plan of the transaction. -/
def sendRequest (env : Env) (conf tip : Nat) (up down : List OutputRecord → List OutputRecord) (outs : List OutputRecord) (r : Request) :
    Res Plan :=
  sendPlan up down (availableCoins env conf tip outs) (r.amount.getD 0) r.base (r.change % 256) r.amount.isNone r.strategy r.wanted

end Verif.Wallet
