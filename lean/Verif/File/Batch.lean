import Verif.Base.Outcome

/-!
# Batch writers

Model of `include/Core/Traits/Lockable.h` (`Writer::InnerWriter`), `include/Core/Traits/Batchable.h` and
of the way the batchable classes treat their dirty flag.  The mutex itself is not modelled: a session
runs alone.  The content of an object is a value of an arbitrary type `σ`; what the individual classes do
with their content is modelled elsewhere.
-/
namespace Verif.File

/-- How a batchable class treats its flag and its transaction. -/
structure Kind where
  /-- `OnInitWrite` calls `SetDirty` with this value. -/
  initDirty : Option Bool
  /-- Mutators call `SetDirty(true)`. -/
  mutDirty : Bool
  /-- `Commit` and `Rollback` do nothing unless the object is dirty. -/
  guarded : Bool
  /-- `Commit` and `Rollback` call `SetDirty(false)`. -/
  clears : Bool
  /-- Outside a transaction changes are durable at once. -/
  direct : Bool
  /-- A transaction is begun by unbatched writers too. -/
  beginUnbatched : Bool
  /-- `Commit` and `Rollback` close the transaction. -/
  closes : Bool
deriving DecidableEq, Repr

/-- `DataFile` and `HashFile` (DataFile.h:27-85). -/
def kDataFile : Kind := ⟨none, true, true, true, false, true, false⟩
/-- `BitmapFile` (BitmapFile.h:52-125). -/
def kBitmap : Kind := ⟨none, true, false, true, false, true, false⟩
/-- `HeaderMMR` (HeaderMMRImpl.cpp:22-72, HeaderMMRImpl.h:27-39). -/
def kHeaderMMR : Kind := ⟨some false, true, true, true, false, true, false⟩
/-- `Chain` (Chain.cpp:57-132). -/
def kChain : Kind := ⟨some false, true, true, true, false, true, false⟩
/-- `PruneableMMR` (PruneableMMR.h:38-75, 138-160). -/
def kPruneable : Kind := ⟨none, true, true, true, false, true, false⟩
/-- `ChainStore` (ChainStore.cpp:42-68), `TxHashSetManager` (TxHashSetManager.h:31-45). -/
def kPlain : Kind := ⟨none, false, false, false, false, true, false⟩
/-- `BlockDB` over `RocksDB` (BlockDBImpl.cpp:47-63, 306-314; RocksDB.h:98-310). -/
def kBlockDB : Kind := ⟨none, false, false, false, true, false, false⟩
/-- `WalletSqlite` (WalletSqlite.cpp:21-43, SqliteTransaction.h:9-61). -/
def kWallet : Kind := ⟨some true, false, false, true, true, true, true⟩

/-- An object: durable content, content seen by the writer, dirty flag, open transaction. -/
structure Obj (σ : Type) where
  committed : σ
  working : σ
  dirty : Bool
  txOpen : Bool
deriving DecidableEq, Repr

variable {σ : Type}

/-- `InnerWriter` constructor (Lockable.h:103-112, 163-171). -/
def Obj.init (k : Kind) (batched : Bool) (o : Obj σ) : Obj σ :=
  { o with
    dirty := match k.initDirty with
      | some b => b
      | none => true
    txOpen := batched || k.beginUnbatched }

/-- A mutator called through the writer. -/
def Obj.modify (k : Kind) (o : Obj σ) (g : σ → σ) : Obj σ :=
  { o with
    working := g o.working
    committed := if k.direct && !o.txOpen then g o.working else o.committed
    dirty := o.dirty || k.mutDirty }

/-- The object's own `Commit`.  With the wallet database, committing a closed transaction throws
(SqliteTransaction.h:36-39). -/
def Obj.commit (k : Kind) (o : Obj σ) : Res (Obj σ) :=
  if k.guarded && !o.dirty then .ok { o with dirty := if k.clears then false else o.dirty }
  else if k.closes && !o.txOpen then .throw
  else .ok
    { committed := o.working
      working := o.working
      dirty := if k.clears then false else o.dirty
      txOpen := if k.closes then false else o.txOpen }

/-- The object's own `Rollback`.  Without a transaction the block database dereferences a null pointer
(RocksDB.h:291), and the wallet database does nothing (SqliteTransaction.h:48-51). -/
def Obj.rollback (k : Kind) (o : Obj σ) : Res (Obj σ) :=
  if k.guarded && !o.dirty then .ok { o with dirty := if k.clears then false else o.dirty }
  else if k.direct && !o.txOpen then
    if k.closes then .ok { o with dirty := if k.clears then false else o.dirty } else .ub
  else .ok
    { committed := o.committed
      working := o.committed
      dirty := if k.clears then false else o.dirty
      txOpen := if k.closes then false else o.txOpen }

/-- `OnEndWrite`: the transaction object is destroyed, which rolls an open one back
(RocksDB.h:307-310, SqliteTransaction.h:15-20). -/
def Obj.endWrite (k : Kind) (o : Obj σ) : Obj σ :=
  if k.direct && o.txOpen then { o with working := o.committed, txOpen := false }
  else { o with txOpen := false }

/-- `InnerWriter` destructor (Lockable.h:114-161).  An exception of `Commit` would be swallowed there,
together with the call of `OnEndWrite`; here it is an outcome of its own. -/
def Obj.release (k : Kind) (batched : Bool) (o : Obj σ) : Res (Obj σ) := do
  let o ← if o.dirty then
      (do let o ← if batched then o.rollback k else o.commit k
          pure { o with dirty := false })
    else pure o
  pure (o.endWrite k)

/-- What can be done through a writer. -/
inductive WOp (σ : Type)
  | modify (g : σ → σ)
  | commit
  | rollback

/-- One call through a writer. -/
def WOp.run (k : Kind) (o : Obj σ) : WOp σ → Res (Obj σ)
  | .modify g => .ok (o.modify k g)
  | .commit => o.commit k
  | .rollback => o.rollback k

/-- A writer's life: construction, calls, destruction (Lockable.h:281-311). -/
def session (k : Kind) (batched : Bool) (ops : List (WOp σ)) (o : Obj σ) : Res (Obj σ) := do
  let o ← ops.foldlM (WOp.run k) (o.init k batched)
  o.release k batched

/-! ## Composite objects

`ChainState` holds batch writers of the chain store, the block database, the header MMR and the output
set; calls to it are calls to one of these. -/

/-- The parts of `ChainState` (ChainState.h:150-170), each with its class's treatment of the flag; their
contents have a common type for simplicity. -/
abbrev Parts (σ : Type) := List (Kind × Obj σ)

/-- What can be done with a composite: change one part, commit, roll back. -/
inductive COp (σ : Type)
  | modify (i : Nat) (g : σ → σ)
  | commit
  | rollback

/-- What a call to the composite does to its `i`-th part. -/
def COp.part (i : Nat) : COp σ → List (WOp σ)
  | .modify j g => if i = j then [.modify g] else []
  | .commit => [.commit]
  | .rollback => [.rollback]

/-- A session on one part: `ChainState::OnInitWrite` begins a batch on it (ChainState.cpp:268-280), calls
are forwarded, the destructor of the writer of the composite calls `ChainState::Rollback` or `Commit`
(which call the part's own, ChainState.cpp:222-266; the composite is always dirty), and `OnEndWrite` drops
the part's batch writer (282-288). -/
def partSession (k : Kind) (batched : Bool) (ops : List (WOp σ)) (o : Obj σ) : Res (Obj σ) :=
  session k true (ops ++ [if batched then .rollback else .commit]) o

/-- A session on the composite. -/
def compositeSession (batched : Bool) (ops : List (COp σ)) (ps : Parts σ) : Res (Parts σ) :=
  (ps.zipIdx).mapM fun p => do
    let o ← partSession p.1.1 batched (ops.flatMap (COp.part p.2)) p.1.2
    pure (p.1.1, o)

end Verif.File
