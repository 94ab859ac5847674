import Verif.Tx.Listing

/-!
# Searching the chain for own outputs

Model of `src/Wallet/OutputRestorer.cpp`.
-/
namespace Verif.Wallet
open Verif.Tx

/-- `OutputRestorer::FindAndRewindOutputs` (OutputRestorer.cpp:11-46), the loop.  Each call to the node may be answered
from another state of the chain: `ask` gives the answer to the `k`-th call, `none` for a null pointer.  `mine` is
`GetWalletOutput` (OutputRestorer.cpp:48-67): rewinding the range proof with the keys of the wallet.  The result is what was found and
the new value of the restore index, `none` if it is left alone. -/
def restoreLoop {W : Type} (ask : Nat → Nat → Res (Option OutputRange)) (mine : Listed → Option W) :
    Nat → Nat → Nat → Nat → List W → Res (List W × Option Nat)
  | 0, _, _, _, _ => .ub
  | f + 1, k, next, highest, found => do
    let a ← ask k next
    match a with
    | none => .ok ([], none)
    | some r =>
      if r.last = 0 then .ok ([], none)
      else
        let found := found ++ r.outputs.filterMap mine
        let highest := if highest = 0 then r.highest else highest
        if r.last + 1 > highest then .ok (found, some r.last)
        else restoreLoop ask mine f (k + 1) (r.last + 1) highest found

/-- `FindAndRewindOutputs` (OutputRestorer.cpp:11-46): `saved` is the restore index of the wallet database. -/
def findAndRewind {W : Type} (ask : Nat → Nat → Res (Option OutputRange)) (mine : Listed → Option W) (fuel : Nat)
    (saved : Nat) (fromGenesis : Bool) : Res (List W × Option Nat) :=
  restoreLoop ask mine fuel 0 (if fromGenesis then 0 else saved + 1) 0 []

/-- What a node with its own chain answers (DefaultNodeClient.h:110-121), 1000 outputs at a time (OutputRestorer.cpp:9). -/
def askNode (states : Nat → DB × THS) (k start : Nat) : Res (Option OutputRange) := do
  let r ← outputsByLeafIndex (states k).1 (states k).2 start 1000
  return some r

end Verif.Wallet
