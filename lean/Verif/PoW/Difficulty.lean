import Verif.PoW.Consensus
import Verif.PoW.Cuckoo
import Verif.Ser.Core

/-!
# Difficulty adjustment, proof-of-work and header validation

Model of `src/PoW/DifficultyLoader.cpp`, `src/PoW/DifficultyCalculator.cpp`, `src/PoW/PoWValidator.cpp` and
`src/BlockChain/Validators/BlockHeaderValidator.cpp`.  The block database is a function from hashes to headers.
-/
namespace Verif.PoW

open Verif

/-- `HeaderInfo` (src/PoW/HeaderInfo.h:6-44). -/
structure Info where
  timestamp : Nat
  difficulty : Nat
  scaling : Nat
  secondary : Bool
deriving DecidableEq, Repr

/-- Conversion of a signed 64-bit integer to `uint64_t`. -/
def toU64 (i : Int) : Nat := (i % (U64 : Int)).toNat

/-- Subtraction of `uint64_t`. -/
def subU64 (a b : Nat) : Nat := toU64 ((a : Int) - (b : Int))

/-- The loop of `LoadDifficultyData` (DifficultyLoader.cpp:17-36) with room for `n` entries; newest first.
`IsSecondary` is edge bits 29 (ProofOfWork.h:37). -/
def collect (db : Bytes → Option Header) : Nat → Option Header → List Info
  | 0, _ => []
  | _ + 1, none => []
  | n + 1, some h =>
    match db h.prevHash with
    | some p => ⟨toU64 h.timestamp, subU64 h.totalDifficulty p.totalDifficulty, h.scaling, h.pow.edgeBits == 29⟩ ::
        collect db n (some p)
    | none => [⟨toU64 h.timestamp, h.totalDifficulty, h.scaling, h.pow.edgeBits == 29⟩]

/-- The padding loop (DifficultyLoader.cpp:63-67) with `FromTimeAndDiff` (HeaderInfo.h:16-19). -/
def padding (delta diff : Nat) : Nat → Nat → List Info
  | 0, _ => []
  | n + 1, ts => ⟨ts - min ts delta, diff, INITIAL_GRAPH_WEIGHT, true⟩ :: padding delta diff n (ts - min ts delta)

/-- `PadDifficultyData` (DifficultyLoader.cpp:44-73): oldest first.  Without any entry `difficultyData[0]` and
`back()` are undefined behaviour. -/
def padData (data : List Info) : Res (List Info) :=
  if WINDOW + 1 > data.length then
    match data with
    | [] => .ub
    | first :: rest =>
      let delta := match rest with
        | [] => BLOCK_TIME_SEC
        | second :: _ => subU64 first.timestamp second.timestamp
      let last := ((first :: rest).getLast (by simp)).timestamp
      .ok ((data ++ padding delta first.difficulty (WINDOW + 1 - data.length) last).reverse)
  else .ok data.reverse

/-- `LoadDifficultyData` (DifficultyLoader.cpp:11-39). -/
def loadData (db : Bytes → Option Header) (h : Header) : Res (List Info) :=
  padData (collect db (WINDOW + 1) (db h.prevHash))

/-- `ScalingFactorSum` (DifficultyCalculator.cpp:104-113). -/
def scalingSum (data : List Info) : Nat := data.foldl (fun s i => (s + i.scaling) % U64) 0

/-- `ARCount` (DifficultyCalculator.cpp:90-102). -/
def arCount (data : List Info) : Nat := (data.filter (·.secondary)).length * 100

/-- `SecondaryPOWScaling` (DifficultyCalculator.cpp:116-134). -/
def secondaryScaling (height : Nat) (data : List Info) : Nat :=
  let pct := secondaryRatio height
  let goal := WINDOW * pct
  let adj := clamp (damp (arCount data) goal 13) goal 2
  max 13 (scalingSum data * pct % U64 / max 1 adj) % 2 ^ 32

/-- The sum of difficulties (DifficultyCalculator.cpp:73-76). -/
def difficultySum (data : List Info) : Nat := data.foldl (fun s i => (s + i.difficulty) % U64) 0

/-- `NextDMA` (DifficultyCalculator.cpp:57-87) with `FromDiffAndScaling` (HeaderInfo.h:22-25). -/
def nextDMA (db : Bytes → Option Header) (h : Header) : Res Info := do
  let data ← loadData db h
  let scaling := secondaryScaling h.height (data.drop 1)
  let delta := subU64 (data.getD WINDOW ⟨0, 0, 0, false⟩).timestamp (data.getD 0 ⟨0, 0, 0, false⟩).timestamp
  let adj := clamp (damp delta BLOCK_TIME_WINDOW 3) BLOCK_TIME_WINDOW 2
  return ⟨1, max 3 (difficultySum (data.drop 1) * BLOCK_TIME_SEC % U64 / adj), scaling, true⟩

/-- `NextWTEMA` (DifficultyCalculator.cpp:31-55).  A difference of timestamps outside `int64_t` and a division by
zero are undefined behaviour. -/
def nextWTEMA (env : Env) (db : Bytes → Option Header) (h : Header) : Res Info :=
  match db h.prevHash with
  | none => .throw
  | some last =>
    match db last.prevHash with
    | none => .throw
    | some prev =>
      let dt := last.timestamp - prev.timestamp
      if dt < -(2 ^ 63) ∨ dt ≥ 2 ^ 63 then .ub
      else
        let diff := subU64 last.totalDifficulty prev.totalDifficulty
        let den := (WTEMA_HALF_LIFE - BLOCK_TIME_SEC + toU64 dt) % U64
        if den = 0 then .ub
        else .ok ⟨1, max (minWtema env) (diff * WTEMA_HALF_LIFE % U64 / den), 0, true⟩

/-- `CalculateNextDifficulty` (DifficultyCalculator.cpp:22-29). -/
def nextDifficulty (env : Env) (db : Bytes → Option Header) (h : Header) : Res Info :=
  if h.version < 5 then nextDMA db h else nextWTEMA env db h

/-- The first eight bytes of the proof's hash as a big-endian number (PoWValidator.cpp:70-79, on a little-endian
machine). -/
def hash64 (p : Pow) : Nat := beVal (p.hash.take 8)

/-- The scaling of the proof (PoWValidator.cpp:63-68). -/
def proofScaling (h : Header) : Res Nat :=
  if h.pow.edgeBits = 29 then .ok h.scaling else scalingDifficulty h.pow.edgeBits

/-- `GetMaximumDifficulty` (PoWValidator.cpp:57-90); `scaling << 64` fits 128 bits. -/
def maximumDifficulty (h : Header) : Res Nat := do
  let s ← proofScaling h
  let d := s * 2 ^ 64 / max 1 (hash64 h.pow)
  return if d < U64 - 1 then d else U64 - 1

/-- The five graph families. -/
inductive Family
  | cuckaroo | cuckarood | cuckaroom | cuckarooz | cuckatoo
deriving DecidableEq, Repr

/-- The family by edge bits and header version (PoWValidator.cpp:40-53). -/
def familyOf (h : Header) : Family :=
  if h.pow.edgeBits = 29 then
    if h.version = 1 then .cuckaroo
    else if h.version = 2 then .cuckarood
    else if h.version = 3 then .cuckaroom
    else .cuckarooz
  else .cuckatoo

/-- `Cuckaroo::Validate` and the others (Cuckaroo.cpp:66-82, Cuckarood.cpp:58-, Cuckaroom.cpp:82-, Cuckarooz.cpp:90-,
Cuckatoo.cpp:74-90): `ends` gives the endpoints of an edge of the family in the graph of the header, i.e. stands for
the hash of the header and siphash. -/
def validateCycle (ends : Family → Header → Nat → Nat × Nat) (h : Header) : Res Bool :=
  let e := ends (familyOf h) h
  match familyOf h with
  | .cuckaroo => verifyProof (fun len => verifyCuckarooLen len e h.pow.edgeBits) h.pow.nonces
  | .cuckarood => verifyProof (fun len => verifyCuckaroodLen len e) h.pow.nonces
  | .cuckaroom => verifyProof (fun len => verifyCuckaroomLen len e) h.pow.nonces
  | .cuckarooz => verifyProof (fun len => verifyCuckaroozLen len e) h.pow.nonces
  | .cuckatoo => verifyProof (fun len => verifyCuckatooLen len e h.pow.edgeBits) h.pow.nonces

/-- `PoWValidator::IsPoWValid` (PoWValidator.cpp:12-54). -/
def isPoWValid (env : Env) (ends : Family → Header → Nat → Nat × Nat) (db : Bytes → Option Header)
    (h prev : Header) : Res Bool :=
  if h.totalDifficulty ≤ prev.totalDifficulty then .ok false
  else do
    let maxD ← maximumDifficulty h
    let target := h.totalDifficulty - prev.totalDifficulty
    if maxD < target then return false
    else do
      let next ← nextDifficulty env db h
      if target ≠ next.difficulty then return false
      else if h.scaling ≠ next.scaling then return false
      else validateCycle ends h

/-- `BlockHeaderValidator::IsPoWValid` (BlockHeaderValidator.cpp:48-55). -/
def headerPoWValid (env : Env) (ends : Family → Header → Nat → Nat × Nat) (db : Bytes → Option Header)
    (h prev : Header) : Res Bool :=
  if env = .testing then .ok true else isPoWValid env ends db h prev

/-- `BlockHeaderValidator::Validate` (BlockHeaderValidator.cpp:11-46).  `now` is the clock
in ticks, `root` gives the root of the header MMR at a height. -/
def validateHeader (env : Env) (ticks : Nat) (now : Int) (ends : Family → Header → Nat → Nat × Nat)
    (db : Bytes → Option Header) (root : Nat → Bytes) (h prev : Header) : Res Unit :=
  if h.height ≠ (prev.height + 1) % U64 then .throw
  else if h.timestamp > maxBlockTime ticks now then .throw
  else if h.version ≠ headerVersion env h.height then .throw
  else if h.timestamp ≤ prev.timestamp then .throw
  else do
    let valid ← headerPoWValid env ends db h prev
    if valid = false then .throw
    else if root (subU64 h.height 1) ≠ h.prevRoot then .throw
    else return ()

end Verif.PoW
