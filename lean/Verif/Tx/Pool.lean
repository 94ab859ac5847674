import Verif.Tx.Sums

/-!
# The transaction pools

Model of `src/TxPool/Pool.cpp`, `src/TxPool/TransactionPoolImpl.cpp` and
`src/TxPool/ValidTransactionFinder.cpp`.  Every public function of `TransactionPool` holds the one
mutex of the object for its whole length, so each is one step here.
-/
namespace Verif.Tx
open Verif.PoW

/-- `EDandelionStatus` (DandelionStatus.h:3-16). -/
inductive Dandelion where
  | toStem | stemmed | toFluff | fluffed
deriving DecidableEq, Repr

/-- `TxPoolEntry` (TxPoolEntry.h:50-53). -/
structure Entry where
  tx : Tx
  status : Dandelion
  time : Int
deriving DecidableEq

/-- `TransactionPool` (TransactionPoolImpl.h): the public pool and the stem pool. -/
structure Pools where
  mem : List Entry
  stem : List Entry

/-- What the pools use of the rest: the hash of a transaction, aggregation, the validator of
transactions for a block height, the check against the unspent outputs of state `s`, the height of
the last block written out in that state, the fee rule and the kernel hash. -/
structure PoolRules (S : Type) where
  hash : Tx → Nat
  kernelHash : Kernel → Nat
  agg : List Tx → Res Tx
  check : Nat → Tx → Res Unit
  utxo : S → Tx → Res Bool
  flushed : S → Nat
  feeOk : Nat → Tx → Bool

/-- `EAddTransactionStatus` (PoolType.h / TransactionPool.h). -/
inductive AddStatus where
  | added | dupl | lowFee | invalid | notAdded
deriving DecidableEq, Repr

variable {S : Type} (R : PoolRules S)

/-- `Pool::AddTransaction` (Pool.cpp:32-37): the time stored is `std::time_t()`, which is zero. -/
def poolAdd (l : List Entry) (tx : Tx) (st : Dandelion) : List Entry := l ++ [⟨tx, st, 0⟩]

/-- `Pool::ContainsTransaction` (Pool.cpp:39-50); transactions are compared by hash
(Transaction.h:45). -/
def poolContains (l : List Entry) (tx : Tx) : Bool := l.any (fun e => R.hash e.tx = R.hash tx)

/-- `Pool::RemoveTransaction` (Pool.cpp:118-131): the first entry with that hash. -/
def poolRemove (l : List Entry) (tx : Tx) : List Entry :=
  l.eraseP (fun e => R.hash tx = R.hash e.tx)

/-- `TransactionPool::AddTransaction` (TransactionPoolImpl.cpp:20-91).  `s` is the txhashset, `tip`
the height of the last confirmed block, `stemIt` the outcome of the random choice (77-78). -/
def addTx (p : Pools) (s : Option S) (tip : Nat) (tx : Tx) (toMem : Bool) (stemIt : Bool) :
    Res (Pools × AddStatus) :=
  let next := tip + 1
  if toMem && poolContains R p.mem tx then .ok (p, .dupl)
  else if !R.feeOk next tx then .ok (p, .lowFee)
  else if tx.body.kernels.any (fun k => k.lockHeight > next) then .ok (p, .notAdded)
  else match R.check next tx with
    | .throw => .ok (p, .invalid)
    | .ub => .ub
    | .ok _ =>
      match s with
      | none => .ok (p, .notAdded)
      | some s => do
        let v ← R.utxo s tx
        if !v then return (p, .notAdded)
        else if toMem then
          return (⟨poolAdd p.mem tx .fluffed, poolRemove R p.stem tx⟩, .added)
        else return (⟨p.mem, poolAdd p.stem tx (if stemIt then .toStem else .toFluff)⟩, .added)

/-- `IsValidTransaction` (ValidTransactionFinder.cpp:40-64). -/
def isValidTx (s : S) (tx : Tx) : Res Bool :=
  match R.check (R.flushed s + 1) tx with
  | .throw => .ok false
  | .ub => .ub
  | .ok _ =>
    match R.utxo s tx with
    | .throw => .ok false
    | .ub => .ub
    | .ok v => .ok v

/-- The loop of `FindValidTransactions` (ValidTransactionFinder.cpp:16-37); `valid` is what it has
collected. -/
def findValidLoop (s : S) (extra : Option Tx) : List Tx → List Tx → Res (List Tx)
  | [], valid => .ok valid
  | t :: ts, valid => do
    let a ← R.agg (valid ++ extra.toList ++ [t])
    let v ← isValidTx R s a
    findValidLoop s extra ts (if v then valid ++ [t] else valid)

/-- `FindValidTransactions` (ValidTransactionFinder.cpp:10-38). -/
def findValid (s : S) (txs : List Tx) (extra : Option Tx) : Res (List Tx) :=
  findValidLoop R s extra txs []

/-- `Pool::ShouldEvict` (Pool.cpp:183-204); kernels are compared by hash (TransactionKernel.h:45),
inputs by features and commitment (TransactionInput.h:43). -/
def shouldEvict (tx : Tx) (b : Block) : Bool :=
  tx.body.inputs.any (fun i => b.body.inputs.contains i) ||
  tx.body.kernels.any (fun k => b.body.kernels.any (fun x => R.kernelHash x = R.kernelHash k))

/-- `Pool::ReconcileBlock` (Pool.cpp:135-166).  The entries are looked up again by hash in a map
into which the first entry of each hash was inserted; they are all there, so `at` does not throw. -/
def poolReconcile (l : List Entry) (s : S) (b : Block) (extra : Option Tx) : Res (List Entry) := do
  let kept := l.filter (fun e => !shouldEvict R e.tx b)
  let valid ← findValid R s (kept.map (·.tx)) extra
  return valid.filterMap (fun t => kept.find? (fun e => R.hash e.tx = R.hash t))

/-- `Pool::Aggregate` (Pool.cpp:206-222). -/
def poolAggregate (l : List Entry) : Res (Option Tx) :=
  if l = [] then .ok none
  else do
    let t ← R.agg (l.map (·.tx))
    return some t

/-- `TransactionPool::ReconcileBlock` (TransactionPoolImpl.cpp:113-123). -/
def reconcile (p : Pools) (s : S) (b : Block) : Res Pools := do
  let mem ← poolReconcile R p.mem s b none
  let extra ← poolAggregate R mem
  let stem ← poolReconcile R p.stem s b extra
  return ⟨mem, stem⟩

/-- `Pool::FindTransactionsByStatus` (Pool.cpp:88-100). -/
def byStatus (l : List Entry) (st : Dandelion) : List Tx :=
  (l.filter (fun e => e.status = st)).map (·.tx)

/-- `Pool::ChangeStatus` (Pool.cpp:168-181).  The code compares pointers; here contents are
compared, which also changes the status of a second copy of the same transaction. -/
def changeStatus (l : List Entry) (txs : List Tx) (st : Dandelion) : List Entry :=
  l.map (fun e => if e.tx ∈ txs then { e with status := st } else e)

/-- `GetTransactionToStem` (TransactionPoolImpl.cpp:125-153). -/
def toStem (p : Pools) (s : S) : Res (Pools × Option Tx) :=
  let txs := byStatus p.stem .toStem
  if txs = [] then .ok (p, none)
  else do
    let extra ← poolAggregate R p.mem
    let valid ← findValid R s txs extra
    if valid = [] then return (p, none)
    else do
      let t ← R.agg valid
      return (⟨p.mem, changeStatus p.stem valid .stemmed⟩, some t)

/-- `GetTransactionToFluff` (TransactionPoolImpl.cpp:155-187). -/
def toFluff (p : Pools) (s : S) : Res (Pools × Option Tx) :=
  let txs := byStatus p.stem .toFluff
  if txs = [] then .ok (p, none)
  else do
    let extra ← poolAggregate R p.mem
    let valid ← findValid R s txs extra
    if valid = [] then return (p, none)
    else do
      let t ← R.agg valid
      return (⟨poolAdd p.mem t .fluffed, valid.foldl (poolRemove R) p.stem⟩, some t)

/-- `Pool::GetExpiredTransactions` (Pool.cpp:102-116) on the stem pool
(TransactionPoolImpl.cpp:189-195).  `now` is the system clock in seconds since 1970, `embargo` the
configured seconds plus the random 0 to 30 (193), taken modulo 2^16 there. -/
def expired (p : Pools) (now : Int) (embargo : Nat) : List Tx :=
  let cutoff := now - (embargo % 2 ^ 16 : Nat)
  (p.stem.filter (fun e => e.time < cutoff)).map (·.tx)

/-! ## The rules the node uses -/

/-- `TransactionBody::GetFeeShift` (TransactionBody.h:80-90). -/
def feeShift (b : Body) : Nat := b.kernels.foldl (fun m k => if k.fee.shift > m then k.fee.shift else m) 0

/-- `Transaction::FeeMeetsMinimum` (Transaction.cpp:80-86), in `uint64_t`; `base` is the configured
fee base. -/
def feeMeetsMinimum (env : Env) (base : Nat) (height : Nat) (tx : Tx) : Bool :=
  let minFee := base * calcWeight env height tx.body % 2 ^ 64
  let fee := (tx.body.kernels.map (·.fee.fee)).sum % 2 ^ 64
  fee ≥ minFee * 2 ^ feeShift tx.body % 2 ^ 64

section
variable {G : Type} [AddCommGroup G] [DecidableEq G]

/-- `TransactionValidator::Validate` (TransactionValidator.cpp:12-25). -/
def validateTx (env : Env) (C : Curve G) (H : DigestNum) (proofs : List (Bytes × Bytes) → Bool)
    (sigs : List Kernel → Bool) (height : Nat) (tx : Tx) : Res Unit := do
  validateTxWeight env height tx.body
  validateBody H proofs sigs tx.body
  validateFeatures tx.body
  let _ ← txSums C tx
  return ()

/-- The rules of the node: state is the block database and the txhashset.  `flushed` is the height
of the header last written out, which is the txhashset's own header outside a write batch. -/
def nodeRules (env : Env) (C : Curve G) (H : DigestNum) (proofs : List (Bytes × Bytes) → Bool)
    (sigs : List Kernel → Bool) (sum : List Bytes → Res Bytes) (txHash : Tx → Nat) (base : Nat) :
    PoolRules (DB × THS) where
  hash := txHash
  kernelHash := kernelHash H
  agg := aggregate H sum
  check := validateTx env C H proofs sigs
  utxo := fun s tx => isValid env s.1 s.2 tx.body
  flushed := fun s => s.2.header.height
  feeOk := feeMeetsMinimum env base

end
end Verif.Tx
