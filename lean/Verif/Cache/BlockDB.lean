import Verif.Cache.Cache

/-!
# Headers in the block database

Model of the header part of `src/Database/BlockDBImpl.cpp` over `src/Database/RocksDB/RocksDB.h`, written through
the lock objects of `include/Core/Traits/Lockable.h`.  RocksDB is taken to do what it says: a transaction reads its own
writes over the database, a commit stores all of them or throws and stores none.
-/
namespace Verif.Cache

variable {K H : Type} [DecidableEq K]

/-- `BlockDB` with its `RocksDB` (BlockDBImpl.h:48-58, RocksDB.h:312-330).  `disk` is the "HEADER" table, later writes first; `tx` the
writes of `m_pTransaction`, later first; `uncommitted` is `m_uncommitted`; `dirty` the flag of `IBatchable`. -/
structure HeaderDB (K H : Type) where
  disk : List (K × H)
  tx : Option (List (K × H))
  uncommitted : List (K × H)
  cache : Cache K H
  dirty : Bool

/-- A database just opened, with what is on disk (BlockDBImpl.cpp:19-24). -/
def HeaderDB.open (disk : List (K × H)) : HeaderDB K H := ⟨disk, none, [], create .fifo 128, false⟩

/-- The table as the holder of the transaction sees it: the transaction's writes first. -/
def HeaderDB.view (d : HeaderDB K H) : List (K × H) :=
  match d.tx with
  | some t => t ++ d.disk
  | none => d.disk

/-- `RocksDB::Get` (RocksDB.h:53-87). -/
def HeaderDB.read (d : HeaderDB K H) (k : K) : Option H := lookup d.view k

/-- `GetBlockHeader` (BlockDBImpl.cpp:148-163). -/
def HeaderDB.getHeader (d : HeaderDB K H) (k : K) : Res (HeaderDB K H × Option H) :=
  if cached d.cache k then do
    let (c, h) ← fetch d.cache k
    .ok ({ d with cache := c }, some h)
  else .ok (d, d.read k)

/-- `RocksDB::Put` (RocksDB.h:98-125). -/
def HeaderDB.write (d : HeaderDB K H) (k : K) (h : H) : HeaderDB K H :=
  match d.tx with
  | some t => { d with tx := some ((k, h) :: t) }
  | none => { d with disk := (k, h) :: d.disk }

/-- `AddBlockHeader` (BlockDBImpl.cpp:165-181). -/
def HeaderDB.add (d : HeaderDB K H) (k : K) (h : H) : Res (HeaderDB K H) :=
  let d := d.write k h
  if d.tx.isSome then .ok { d with uncommitted := d.uncommitted ++ [(k, h)] }
  else do
    let c ← put d.cache k h
    .ok { d with cache := c }

/-- `AddBlockHeaders` (BlockDBImpl.cpp:183-200) with `Put` of a list (RocksDB.h:134-170): neither `m_uncommitted` nor the
cache is touched.  Without a transaction one is made for the call; the status of its commit is not looked at, here it is taken to
succeed. -/
def HeaderDB.addMany : HeaderDB K H → List (K × H) → HeaderDB K H
  | d, [] => d
  | d, (k, h) :: l => (d.write k h).addMany l

/-- Putting the uncommitted headers into the cache (BlockDBImpl.cpp:51-54). -/
def cacheAll : Cache K H → List (K × H) → Res (Cache K H)
  | c, [] => .ok c
  | c, (k, h) :: l => do
    let c ← put c k h
    cacheAll c l

/-- `BlockDB::Commit` (BlockDBImpl.cpp:47-57) over `RocksDB::Commit` (RocksDB.h:275-285); `works` is whether RocksDB commits.  The
transaction object stays, empty. -/
def HeaderDB.commit (d : HeaderDB K H) (works : Bool) : Res (HeaderDB K H) :=
  if d.tx.isSome && !works then .throw
  else do
    let c ← cacheAll d.cache d.uncommitted
    .ok { d with disk := d.view, tx := d.tx.map (fun _ => []), uncommitted := [], cache := c }

/-- `BlockDB::Rollback` (BlockDBImpl.cpp:59-63) over `RocksDB::Rollback` (RocksDB.h:287-296). -/
def HeaderDB.rollback (d : HeaderDB K H) : Res (HeaderDB K H) :=
  match d.tx with
  | none => .ub
  | some _ => .ok { d with tx := some [], uncommitted := [] }

/-- What can be done with the database: taking a writer, batched or not; adding headers; committing explicitly, with the answer of
RocksDB; rolling back explicitly; letting go of the writer; reading. -/
inductive DBCall (K H : Type)
  | take (batched : Bool)
  | add (k : K) (h : H)
  | addMany (l : List (K × H))
  | commit (works : Bool)
  | rollback
  | release (batched : Bool)
  | get (k : K)

/-- `InnerWriter::Commit` (Lockable.h:133-144). -/
def HeaderDB.writerCommit (d : HeaderDB K H) (works : Bool) : Res (HeaderDB K H) :=
  if d.dirty then do
    let d ← d.commit works
    .ok { d with dirty := false }
  else .ok d

/-- `InnerWriter::Rollback` (Lockable.h:146-157). -/
def HeaderDB.writerRollback (d : HeaderDB K H) : Res (HeaderDB K H) :=
  if d.dirty then do
    let d ← d.rollback
    .ok { d with dirty := false }
  else .ok d

/-- One call.  A call that throws leaves the state. `take` and `release` are the constructor and destructor of `InnerWriter`
(Lockable.h:97-131) with `RocksDB::OnInitWrite` and `OnEndWrite` (RocksDB.h:298-310). -/
def DBCall.step (d : HeaderDB K H) : DBCall K H → Res (HeaderDB K H)
  | .take b => .ok { d with dirty := true, tx := if b then some [] else d.tx }
  | .add k h => d.add k h
  | .addMany l => .ok (d.addMany l)
  | .commit works =>
    match d.writerCommit works with
    | .throw => .ok d
    | r => r
  | .rollback => d.writerRollback
  | .release b => do
    let d ← if b then d.writerRollback else d.writerCommit true
    .ok { d with tx := none }
  | .get k => do
    let (d, _) ← d.getHeader k
    .ok d

/-- A sequence of calls. -/
def runCalls (d : HeaderDB K H) : List (DBCall K H) → Res (HeaderDB K H)
  | [] => .ok d
  | o :: l => do
    let d ← DBCall.step d o
    runCalls d l

end Verif.Cache
