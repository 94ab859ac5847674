import Verif.Api.Query
import Verif.Tx.Listing

/-!
# The chain state over REST

Model of src/Server/Node/API/TxHashSetAPI.cpp, of `ChainAPI::GetChainOutputsByIds_Handler`
(src/Server/Node/API/ChainAPI.cpp) and of `MMRHashUtil::GetLastLeafHashes` (src/PMMR/Common/MMRHashUtil.cpp) they read
the chain state with.  The HTTP server, the rendering as JSON and the locks are left out; the chain state is taken to
be there (`GetTxHashSet` not null).
-/
namespace Verif.MMR

/-- The loop of `GetLastLeafHashes` (MMRHashUtil.cpp:97-104): the first argument is `leaf_idx`, the second how many
hashes are still wanted; the list is returned instead of extended. -/
def lastLoop (has : Nat → Bool) (hash : Nat → Res Bytes) : Nat → Nat → Res (List Bytes)
  | 0, _ => .ok []
  | leaf + 1, k =>
    if k = 0 then .ok []
    else if has leaf then do
      let h ← hash leaf
      let r ← lastLoop has hash leaf (k - 1)
      return h :: r
    else lastLoop has hash leaf k

/-- `PruneableMMR::GetLastLeafHashes` (PruneableMMR.h:102-105, MMRHashUtil.cpp:84-107). -/
def PMMR.lastHashes (m : PMMR) (k : Nat) : Res (List Bytes) :=
  lastLoop (fun n => n ∈ m.leafSet) (fun n => getHashAt m.hashes (leafPos n) (some m.pl.view))
    (leafIndexAt (m.hashes.length + m.pl.totalShift)) k

/-- `KernelMMR::GetLastLeafHashes` (KernelMMR.cpp:47-50): no leaf set and no prune list. -/
def KMMR.lastHashes (m : KMMR) (k : Nat) : Res (List Bytes) :=
  lastLoop (fun _ => true) (fun n => getHashAt m.hashes (leafPos n) none) (leafIndexAt m.hashes.length) k

end Verif.MMR

namespace Verif.Api
open Verif Verif.Codec Verif.Tx Verif.MMR

/-- Responses of the handlers: 200 with a value, 400, 500. -/
inductive Response (α : Type) where
  | found (a : α)
  | badRequest
  | failed
deriving DecidableEq, Repr

/-- A handler inside `try`/`catch (std::exception)`, after which the answer is 500. -/
def orFailed {α : Type} (r : Res (Response α)) : Res (Response α) :=
  match r with
  | .throw => .ok .failed
  | r => r

/-- The three handlers for the last hashes (TxHashSetAPI.cpp:46-85, 87-129, 131-173), which differ in the range they
read. -/
def restLast (last : Nat → Res (List Bytes)) (query : Bytes) : Res (Response (List Bytes)) :=
  orFailed (
    if query = [] then do
      let l ← last 10
      return .found l
    else if !startsWith query (str "n=") then .ok .badRequest
    else do
      let n ← stoull (query.drop 2)
      let l ← last n
      return .found l)

/-- `GetLastKernels_Handler` (TxHashSetAPI.cpp:46-85). -/
def restLastKernels (t : THS) : Bytes → Res (Response (List Bytes)) := restLast t.kernels.lastHashes

/-- `GetLastOutputs_Handler` (TxHashSetAPI.cpp:87-129). -/
def restLastOutputs (t : THS) : Bytes → Res (Response (List Bytes)) := restLast t.outputs.lastHashes

/-- `GetLastRangeproofs_Handler` (TxHashSetAPI.cpp:131-173). -/
def restLastProofs (t : THS) : Bytes → Res (Response (List Bytes)) := restLast t.proofs.lastHashes

/-- One parameter of the listing (TxHashSetAPI.cpp:206-229): `none` is the response 400. -/
def listingArg (start max : Nat) (token : Bytes) : Res (Option (Nat × Nat)) :=
  if startsWith token (str "start_index=") then
    match split 61 token with
    | [_, v] => do
      let x ← stoull v
      return some (x, max)
    | _ => .ok none
  else if startsWith token (str "max=") then
    match split 61 token with
    | [_, v] => do
      let x ← stoull v
      return some (start, x)
    | _ => .ok none
  else .ok (some (start, max))

/-- The loop over the parameters (TxHashSetAPI.cpp:205-229). -/
def listingArgs : Nat → Nat → List Bytes → Res (Option (Nat × Nat))
  | start, max, [] => .ok (some (start, max))
  | start, max, t :: ts => do
    let r ← listingArg start max t
    match r with
    | some (a, b) => listingArgs a b ts
    | none => return none

/-- `GetOutputs_Handler` (TxHashSetAPI.cpp:193-272). -/
def restListing (db : DB) (t : THS) (query : Bytes) : Res (Response OutputRange) :=
  orFailed (do
    let r ← listingArgs 1 100 (split 38 query)
    match r with
    | some (start, max) => do
      let o ← outputsByLeafIndex db t start (if max > 1000 then 1000 else max)
      return .found o
    | none => return .badRequest)

/-- One parameter of the look-up by commitments (ChainAPI.cpp:138-152): `none` is the response 400. -/
def idArgs : List Bytes → List Bytes → Option (List Bytes)
  | ids, [] => some ids
  | ids, t :: ts =>
    if startsWith t (str "id=") then
      match split 61 t with
      | [_, v] => idArgs (ids ++ split 44 v) ts
      | _ => none
    else idArgs ids ts

/-- The loop over the commitments (ChainAPI.cpp:157-171). -/
def lookIds (db : DB) : List Bytes → Res (List (Bytes × Loc))
  | [] => .ok []
  | id :: ids => do
    let c ← bigFromHex 33 id
    let r ← lookIds db ids
    return match db.pos c with
      | some l => (c, l) :: r
      | none => r

/-- `GetChainOutputsByIds_Handler` (ChainAPI.cpp:127-182); an exception is answered with 400. -/
def restByIds (db : DB) (query : Bytes) : Res (Response (List (Bytes × Loc))) :=
  match idArgs [] (split 38 query) with
  | none => .ok .badRequest
  | some ids =>
    match lookIds db ids with
    | .ok l => .ok (.found l)
    | .throw => .ok .badRequest
    | .ub => .ub

end Verif.Api
