import Verif.Base.Outcome

/-!
# Opening the block database

Model of `RocksDBFactory.h`, of the choice of a table in `RocksDB.h` and of `BlockDB::OpenDB`.  RocksDB is modelled by its column families in the
order of their creation, each with its content; a handle is the place of a family in that order.
-/
namespace Verif.Chain

/-- A database on disk: the column families by name, oldest first. -/
abbrev Families (α : Type) := List (String × α)

/-- `OptimisticTransactionDB::Open` of RocksDB, `create_if_missing` set and `create_missing_column_families` not: all families there are have to
be named, and all named ones have to be there, except that a new database gets its default one. -/
def rocksOpen {α : Type} (empty : α) (disk : Option (Families α)) (names : List String) : Res (List Nat × Families α) :=
  match disk with
  | none => if names = ["default"] then .ok ([0], [("default", empty)]) else .throw
  | some fs =>
    if (∀ f ∈ fs, f.1 ∈ names) ∧ ∀ n ∈ names, n ∈ fs.map (·.1) then .ok (names.map fun n => (fs.map (·.1)).idxOf n, fs) else .throw

/-- The loop over the families found (RocksDBFactory.h:60-69), from the second on. -/
def matchNames : List String → List String → Res (List String)
  | _, [] => .ok []
  | [], _ :: _ => .throw
  | n :: ns, f :: fs => do
    if n ≠ f then .throw
    else do
      let r ← matchNames ns fs
      return n :: r

/-- `CreateDescriptors` (RocksDBFactory.h:43-77).  The name of the first family found is not looked at.  The loop never comes to an index past the
names, because of the check before it. -/
def createDescriptors {α : Type} (names : List String) (disk : Option (Families α)) : Res (List String) :=
  match disk with
  | none => .ok (names.take 1)
  | some fs =>
    if fs.length > names.length then .throw
    else do
      let r ← matchNames (names.drop 1) ((fs.map (·.1)).drop 1)
      return names.take 1 ++ r

/-- `CreateTables` (RocksDBFactory.h:79-110): the tables there are get the handles in turn, for the others families are created, which RocksDB refuses
if there is one of that name. -/
def createTables {α : Type} (empty : α) : List String → List Nat → Families α → Res (List (String × Nat) × Families α)
  | [], _, fs => .ok ([], fs)
  | n :: ns, h :: hs, fs => do
    let r ← createTables empty ns hs fs
    return ((n, h) :: r.1, r.2)
  | n :: ns, [], fs =>
    if n ∈ fs.map (·.1) then .throw
    else do
      let r ← createTables empty ns [] (fs ++ [(n, empty)])
      return ((n, fs.length) :: r.1, r.2)

/-- `RocksDBFactory::Open` (RocksDBFactory.h:18-40). -/
def openTables {α : Type} (empty : α) (names : List String) (disk : Option (Families α)) : Res (List (String × Nat) × Families α) := do
  let desc ← createDescriptors names disk
  let o ← rocksOpen empty disk desc
  createTables empty names o.1 o.2

/-- The families on disk if the program ends after `k` of the families were created (RocksDBFactory.h:88-105). -/
def createSome {α : Type} (empty : α) : Nat → List String → List Nat → Families α → Families α
  | _, [], _, fs => fs
  | k, _ :: ns, _ :: hs, fs => createSome empty k ns hs fs
  | 0, _ :: _, [], fs => fs
  | k + 1, n :: ns, [], fs => if n ∈ fs.map (·.1) then fs else createSome empty k ns [] (fs ++ [(n, empty)])

/-- What `RocksDBFactory::Open` leaves on disk if the program ends after `k` of the families were created. -/
def openCutShort {α : Type} (empty : α) (k : Nat) (names : List String) (disk : Option (Families α)) : Option (Families α) :=
  match createDescriptors names disk with
  | .ok desc =>
    match rocksOpen empty disk desc with
    | .ok o => some (createSome empty k names o.1 o.2)
    | _ => disk
  | _ => disk

/-- `RocksDB::GetTable` (RocksDB.h:313-325): the handle. -/
def getTable (tables : List (String × Nat)) (name : String) : Res Nat :=
  match tables.find? (·.1 = name) with
  | some t => .ok t.2
  | none => .throw

/-- What is read through a table. -/
def readTable {α : Type} (tables : List (String × Nat)) (fs : Families α) (name : String) : Res α := do
  let h ← getTable tables name
  match fs[h]? with
  | some f => .ok f.2
  | none => .ub

/-- A change made through a table. -/
def writeTable {α : Type} (g : α → α) (tables : List (String × Nat)) (fs : Families α) (name : String) : Res (Families α) := do
  let h ← getTable tables name
  return fs.modify h fun f => (f.1, g f.2)

/-- The tables of the block database (BlockDBImpl.cpp:33-40). -/
def blockTables : List String := ["default", "BLOCK", "HEADER", "BLOCK_SUMS", "OUTPUT_POS", "INPUT_BITMAP", "SPENT_OUTPUTS"]

/-- `BlockDB::OpenDB` (BlockDBImpl.cpp:29-45). -/
def openBlockDB {α : Type} (empty : α) (disk : Option (Families α)) : Res (List (String × Nat) × Families α) := do
  let r ← openTables empty blockTables disk
  let fs ← writeTable (fun _ => empty) r.1 r.2 "INPUT_BITMAP"
  return (r.1, fs)

end Verif.Chain
