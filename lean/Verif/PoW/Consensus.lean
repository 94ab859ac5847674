import Verif.Base.Outcome
import Verif.Base.Bytes

/-!
# Consensus constants and functions

Model of `include/Consensus.h`.  Unsigned 64-bit values are naturals below `U64`; where an operation of the
C++ can wrap, the model takes the remainder.
-/
namespace Verif.PoW

open Verif

/-- `Environment` (include/Core/Enums/Environment.h:7-12). -/
inductive Env
  | mainnet | floonet | testing
deriving DecidableEq, Repr

/-- `BLOCK_TIME_SEC` (Consensus.h:112). -/
def BLOCK_TIME_SEC : Nat := 60
/-- `DIFFICULTY_ADJUST_WINDOW` (Consensus.h:175, 115): `3600 / 60`. -/
def WINDOW : Nat := 60
/-- `BLOCK_TIME_WINDOW` (Consensus.h:178). -/
def BLOCK_TIME_WINDOW : Nat := 3600
/-- `YEAR_HEIGHT` (Consensus.h:115-127). -/
def YEAR_HEIGHT : Nat := 524160
/-- `WTEMA_HALF_LIFE` (Consensus.h:197). -/
def WTEMA_HALF_LIFE : Nat := 14400
/-- `INITIAL_GRAPH_WEIGHT` (Consensus.h:252): `GraphWeight(0, 29) = (2 << 5) * 29` (239-249). -/
def INITIAL_GRAPH_WEIGHT : Nat := 1856

/-- `Damp` (Consensus.h:255-258). -/
def damp (actual goal factor : Nat) : Nat := (actual + (factor - 1) * goal) % U64 / factor

/-- `Clamp` (Consensus.h:261-264). -/
def clamp (actual goal factor : Nat) : Nat := max (goal / factor) (min actual (goal * factor))

/-- `SecondaryPOWRatio` (Consensus.h:268-271). -/
def secondaryRatio (height : Nat) : Nat := 90 - min 90 (height / (2 * YEAR_HEIGHT / 90))

/-- `ScalingDifficulty` (Consensus.h:273-276): below 24 edge bits the 64-bit shift count wraps to at least
`2^64 - 24`, which is undefined behaviour, as is any count of 64 or more. -/
def scalingDifficulty (edgeBits : Nat) : Res Nat :=
  if edgeBits < 24 ∨ edgeBits - 24 ≥ 64 then .ub
  else .ok ((2 <<< (edgeBits - 24)) % U64 * edgeBits % U64)

/-- `min_wtema_graph_weight` (Consensus.h:279-289). -/
def minWtema : Env → Nat
  | .mainnet => 16384
  | _ => INITIAL_GRAPH_WEIGHT

/-- `HARD_FORK_INTERVAL` (Consensus.h:299). -/
def HARD_FORK_INTERVAL : Nat := YEAR_HEIGHT / 2

/-- `GetHeaderVersion` (Consensus.h:302-332). -/
def headerVersion (env : Env) (height : Nat) : Nat :=
  if env = .floonet then
    if height < 185040 then 1
    else if height < 298080 then 2
    else if height < 552960 then 3
    else if height < 642240 then 4
    else 5
  else
    if height < HARD_FORK_INTERVAL then 1
    else if height < 2 * HARD_FORK_INTERVAL then 2
    else if height < 3 * HARD_FORK_INTERVAL then 3
    else if height < 4 * HARD_FORK_INTERVAL then 4
    else 5

/-- `GetMaxBlockTime` (Consensus.h:187-194): the clock is given in ticks since the epoch; `ticks` is the number
of ticks of `std::chrono::system_clock` in a second (`10^9` with libstdc++, `10^6` with libc++, `10^7` on
Windows).  The result is the count of ticks. -/
def maxBlockTime (ticks : Nat) (now : Int) : Int := now + 300 * ticks

/-- `GetMaxCoinbaseHeight` (Consensus.h:132-146). -/
def maxCoinbaseHeight (env : Env) (height : Nat) : Nat :=
  if env = .testing then max height 25 - 25 else max height 1440 - 1440

end Verif.PoW
