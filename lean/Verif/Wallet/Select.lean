import Verif.Codec.WalletRecord
import Verif.Tx.Body

/-!
# Choosing coins and splitting the change

Model of `src/Wallet/SlateBuilder/CoinSelection.cpp`, `OutputBuilder.h` and the arithmetic of
`SendSlateBuilder.cpp`.  `uint64_t` sums wrap around.  `std::sort` by amount may put coins of equal amount in
any order: the two sorted lists are given by functions `up`, `down` of which only the order is known.
-/
namespace Verif.Wallet
open Verif.Codec Verif.Tx

/-- Values of `EOutputStatus` (include/Wallet/Enums/OutputStatus.h): the byte stored in a record. -/
def SPENDABLE : Nat := 0
/-- `EOutputStatus::NO_CONFIRMATIONS`. -/
def NO_CONFIRMATIONS : Nat := 2
/-- `EOutputStatus::SPENT`. -/
def SPENT : Nat := 3
/-- `EOutputStatus::LOCKED`. -/
def LOCKED : Nat := 4
/-- `EOutputStatus::CANCELED`. -/
def CANCELED : Nat := 5

/-- `FeeUtil::CalculateFee` (include/Core/Util/FeeUtil.h:8-11). -/
def calcFee (base ins outs kers : Nat) : Nat := (base * weightV5 ins outs kers) % U64

/-- `ESelectionStrategy` (include/Wallet/Enums/SelectionStrategy.h). -/
inductive Strategy
  | smallest | fewest | all | custom
deriving DecidableEq, Repr

/-- Sum of amounts in a `uint64_t` (the accumulations at CoinSelection.cpp:101-105, SendSlateBuilder.cpp:57-60,
109-112, 211-221). -/
def sum64 (l : List OutputRecord) : Nat := l.foldl (fun s o => (s + o.amount) % U64) 0

/-- The loop over sorted coins (CoinSelection.cpp:48-64, 77-91): take coins until amount and fee are met. -/
def pick (amount base outs kers : Nat) : List OutputRecord → Nat → List OutputRecord → Res (List OutputRecord)
  | [], _, _ => .throw
  | c :: cs, found, sel =>
    if (amount + calcFee base (sel ++ [c]).length outs kers) % U64 ≤ (found + c.amount) % U64 then .ok (sel ++ [c])
    else pick amount base outs kers cs ((found + c.amount) % U64) (sel ++ [c])

/-- `SelectUsingAllInputs` (CoinSelection.cpp:94-115): the sum of the coins is computed but not compared. -/
def selectAll (coins : List OutputRecord) (amount base outs kers : Nat) : Res (List OutputRecord) :=
  if amount < (amount + calcFee base coins.length outs kers) % U64 then .ok coins else .throw

/-- `SelectUsingCustomInputs` (CoinSelection.cpp:117-145). -/
def selectCustom (coins : List OutputRecord) (amount base : Nat) (wanted : List Bytes) (outs kers : Nat) :
    Res (List OutputRecord) :=
  let sel := coins.filter (fun c => wanted.contains c.output.commit)
  if (amount + calcFee base sel.length outs kers) % U64 ≤ sum64 sel then .ok sel else .throw

/-- `CoinSelection::SelectCoinsToSpend` (CoinSelection.cpp:8-36). -/
def selectCoins (up down : List OutputRecord → List OutputRecord) (coins : List OutputRecord) (amount base : Nat)
    (s : Strategy) (wanted : List Bytes) (outs kers : Nat) : Res (List OutputRecord) :=
  match s with
  | .custom => selectCustom coins amount base wanted outs kers
  | .smallest => pick amount base outs kers (up coins) 0 []
  | .fewest => pick amount base outs kers (down coins) 0 []
  | .all => selectAll coins amount base outs kers

/-- Amounts of the outputs made by `OutputBuilder::CreateOutputs` (OutputBuilder.h:20-32). -/
def splitAmount (total n : Nat) : List Nat :=
  (List.range n).map (fun i => if i = 0 then (total / n + total % n) % U64 else total / n)

/-- What a send amounts to: the coins spent, the amount sent, the fee and the change outputs. -/
structure Plan where
  inputs : List OutputRecord
  amount : Nat
  fee : Nat
  change : List Nat
deriving DecidableEq, Repr

/-- The arithmetic of `BuildSendSlate` and `Build` (SendSlateBuilder.cpp:34-74, 105-124).  The assertion at
line 72 is compiled out (CMakeLists.txt:6 builds `Release`). -/
def sendPlan (up down : List OutputRecord → List OutputRecord) (coins : List OutputRecord) (amount base : Nat)
    (maxChange : Nat) (entire : Bool) (s : Strategy) (wanted : List Bytes) : Res Plan := do
  let numChange := if entire then 0 else maxChange
  let outs := (1 + numChange) % 256
  let inputs ← if entire then Res.ok coins else selectCoins up down coins amount base s wanted outs 1
  let total := sum64 inputs
  let fee := calcFee base inputs.length outs 1
  let amt := if entire then (total + U64 - fee) % U64 else amount
  let fee' := if numChange = 0 then (total + U64 - amt) % U64 else fee
  let change := if 0 < numChange then splitAmount ((total + U64 - (amt + fee') % U64) % U64) numChange else []
  return ⟨inputs, amt, fee', change⟩

end Verif.Wallet
