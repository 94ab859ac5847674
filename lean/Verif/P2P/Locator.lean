import Verif.Chain.Process

/-!
# Block locators

Model of `src/P2P/BlockLocator.cpp`, over the chain state of `Verif.Chain.Process`.
-/
namespace Verif.P2P
open Verif.BC

/-- `P2P::MAX_LOCATORS` (include/P2P/Common.h:36). -/
def maxLocators : Nat := 20

/-- `P2P::MAX_BLOCK_HEADERS` (include/P2P/Common.h:27). -/
def maxBlockHeaders : Nat := 512

/-- The loop of `GetLocatorHeights` (BlockLocator.cpp:30-47) with the heights pushed so far.  `std::pow(2, n)` of a `double`
is exact for the exponents that occur (at most 19). -/
def locatorLoop : Nat → Nat → List Nat → Res (List Nat)
  | 0, _, _ => .ub
  | fuel + 1, current, heights =>
    if current > 0 then
      let heights := heights ++ [current]
      if heights.length ≥ maxLocators - 1 then .ok heights
      else
        let next := 2 ^ heights.length
        if current > next then locatorLoop fuel (current - next) heights else .ok heights
    else .ok heights

/-- `GetLocatorHeights` (BlockLocator.cpp:25-52) for the header height of the sync status. -/
def locatorHeights (height : Nat) : Res (List Nat) := do
  let heights ← locatorLoop maxLocators height []
  .ok (heights ++ [0])

variable {S : Type}

/-- `GetBlockHeaderByHeight` on the candidate chain (ChainState.cpp:120-129). -/
def candidateHeader (w : World S) (height : Nat) : Option Header :=
  match w.candidate[height]? with
  | some hash => w.headers hash
  | none => none

/-- `GetLocators` (BlockLocator.cpp:6-22). -/
def getLocators (w : World S) (height : Nat) : Res (List Bytes) := do
  let heights ← locatorHeights height
  .ok (heights.filterMap fun h => (candidateHeader w h).map hashOf)

/-- `FindCommonHeader` (BlockLocator.cpp:80-92): any header in the database will do. -/
def findCommon (w : World S) : List Bytes → Option Header
  | [] => none
  | hash :: rest =>
    match w.headers hash with
    | some h => some h
    | none => findCommon w rest

/-- The loop of `LocateHeaders` (BlockLocator.cpp:65-74), `n` rounds from height `height`. -/
def collectHeaders (w : World S) : Nat → Nat → List Header
  | 0, _ => []
  | n + 1, height =>
    match candidateHeader w height with
    | none => []
    | some h => h :: collectHeaders w n (height + 1)

/-- `LocateHeaders` (BlockLocator.cpp:54-78).  The difference of heights is one of 64-bit numbers. -/
def locateHeaders (w : World S) (hashes : List Bytes) : List Header :=
  match findCommon w hashes with
  | none => []
  | some common =>
    let total := w.candidate.length - 1
    let n := min ((total + 2 ^ 64 - common.height) % 2 ^ 64) maxBlockHeaders
    collectHeaders w n (common.height + 1)

end Verif.P2P
