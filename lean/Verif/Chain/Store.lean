import Verif.Base.Outcome
import Verif.File.AppendOnly

/-!
# The chain index

Model of `src/BlockChain/Chain.cpp`, `include/BlockChain/Chain.h`,
`include/BlockChain/BlockIndexAllocator.h` and `src/BlockChain/ChainStore.cpp`.  The file of hashes is
the record file of `Verif.File`; heights are natural numbers (a chain of 2^59 blocks does not fit in a
64-bit address space).
-/
namespace Verif.BC
open Verif.File

/-- `BlockIndex` (BlockIndex.h); the objects are immutable and shared by pointer, modelled by value. -/
structure Index where
  hash : Bytes
  height : Nat
deriving DecidableEq, Repr

/-- `Chain` (Chain.h:62-67) with the dirty flag of `IBatchable`. -/
structure Chain where
  indices : List Index
  height : Nat
  file : DFile
  dirty : Bool
deriving DecidableEq, Repr

/-- `GetByHeight` (Chain.cpp:47-55). -/
def Chain.getByHeight (c : Chain) (h : Nat) : Option Index :=
  if h ≤ c.height ∧ h < c.indices.length then c.indices[h]? else none

/-- `GetHash(height)` (Chain.h:30): an index beyond the end is undefined behaviour. -/
def Chain.getHash (c : Chain) (h : Nat) : Res Bytes :=
  match c.indices[h]? with
  | some i => .ok i.hash
  | none => .ub

/-- `GetTip` (Chain.h:31). -/
def Chain.tip (c : Chain) : Res Index :=
  match c.indices[c.height]? with
  | some i => .ok i
  | none => .ub

/-- `IsOnChain` (Chain.h:35-38). -/
def Chain.isOnChain (c : Chain) (h : Nat) (hash : Bytes) : Res Bool :=
  if h ≤ c.height then
    match c.indices[h]? with
    | some i => .ok (i.hash = hash)
    | none => .ub
  else .ok false

/-- `GetOrCreateIndex` (BlockIndexAllocator.h:19-36). -/
def getOrCreate (chains : List Chain) (hash : Bytes) (height : Nat) : Index :=
  match chains.findSome? (fun c => (c.getByHeight height).filter (fun i => i.hash = hash)) with
  | some i => i
  | none => ⟨hash, height⟩

/-- The loops of `Load` (Chain.cpp:38-42) and `Rollback` (Chain.cpp:111-115): `n` more records are read.
`known` is the list of chains the allocator knows, which may contain the chain being filled. -/
def Chain.fill (known : Chain → List Chain) : Nat → Chain → Res Chain
  | 0, c => .ok c
  | n + 1, c => do
    let hash ← c.file.get 32 c.indices.length
    Chain.fill known n
      { c with indices := c.indices ++ [getOrCreate (known c) hash c.indices.length] }

/-- `Load` (Chain.cpp:20-45); `m_height` is set by the constructor (Chain.cpp:15). -/
def Chain.load (known : List Chain) (genesis : Index) (disk : Bytes) : Res Chain := do
  let d := DFile.load disk
  let d ← if d.size 32 = 0 then (d.add genesis.hash).commit else .ok d
  let c ← Chain.fill (fun _ => known) (d.size 32 - 1) ⟨[genesis], 0, d, false⟩
  return { c with height := c.indices.length - 1 }

/-- `AddBlock` (Chain.cpp:57-75). -/
def Chain.addBlock (known : Chain → List Chain) (c : Chain) (hash : Bytes) (height : Nat) : Res Chain :=
  if height ≠ c.height + 1 then .throw
  else
    let i := getOrCreate (known c) hash height
    .ok ⟨c.indices ++ [i], c.height + 1, c.file.add i.hash, true⟩

/-- `Rewind` (Chain.cpp:77-92). -/
def Chain.rewind (c : Chain) (last : Nat) : Res Chain :=
  if c.height < last then .throw
  else if c.height > last then
    match c.file.rewind 32 (last + 1) with
    | (true, d) => .ok ⟨c.indices.take (last + 1), last, d, true⟩
    | (false, _) => .throw
  else .ok c

/-- `Commit` (Chain.cpp:94-102). -/
def Chain.commit (c : Chain) : Res Chain := do
  let d ← if c.dirty then c.file.commit else .ok c.file
  return { c with file := d, dirty := false }

/-- `Rollback` (Chain.cpp:104-121). -/
def Chain.rollback (known : Chain → List Chain) (c : Chain) : Res Chain :=
  if c.dirty then do
    let d := c.file.rollback
    let c ← Chain.fill known (d.size 32) { c with file := d, indices := [] }
    return { c with height := c.indices.length - 1, dirty := false }
  else .ok { c with dirty := false }

/-- `EChainType` (ChainType.h). -/
inductive Which | confirmed | candidate
deriving DecidableEq, Repr

/-- `ChainStore` (ChainStore.h:47-48). -/
structure Store where
  confirmed : Chain
  candidate : Chain
deriving DecidableEq, Repr

/-- `GetChain` (ChainStore.cpp:135-159). -/
def Store.chain (s : Store) : Which → Chain
  | .confirmed => s.confirmed
  | .candidate => s.candidate

def Store.set (s : Store) : Which → Chain → Store
  | .confirmed, c => { s with confirmed := c }
  | .candidate, c => { s with candidate := c }

/-- The chains known to the allocator after `Load` (ChainStore.cpp:28-36), as seen while chain `w` is
being changed. -/
def Store.known (s : Store) : Which → Chain → List Chain
  | .confirmed => fun c => [c, s.candidate]
  | .candidate => fun c => [s.confirmed, c]

/-- `Load` (ChainStore.cpp:14-40). -/
def Store.load (genesis : Index) (confirmed candidate : Bytes) : Res Store := do
  let a ← Chain.load [] genesis confirmed
  let b ← Chain.load [a] genesis candidate
  return ⟨a, b⟩

/-- The loop of `FindCommonIndex` (ChainStore.cpp:79-84), from `height` downwards; below height 0 the
height wraps and a null pointer is dereferenced. -/
def commonFrom (a b : Chain) : Nat → Res Index
  | 0 =>
    match a.getByHeight 0, b.getByHeight 0 with
    | some i, some j => if i.hash = j.hash then .ok i else .ub
    | _, _ => .ub
  | h + 1 =>
    match a.getByHeight (h + 1), b.getByHeight (h + 1) with
    | some i, some j => if i.hash = j.hash then .ok i else commonFrom a b h
    | _, _ => .ub

/-- `FindCommonIndex` (ChainStore.cpp:70-87). -/
def Store.findCommon (s : Store) (w1 w2 : Which) : Res Index :=
  commonFrom (s.chain w1) (s.chain w2) (min (s.chain w1).height (s.chain w2).height)

/-- The loop of `ReorgChain` (ChainStore.cpp:112-115): heights `i`, …, `i + n - 1`. -/
def copyBlocks (s : Store) (source destination : Which) : Nat → Nat → Res Store
  | _, 0 => .ok s
  | i, n + 1 => do
    let hash ← (s.chain source).getHash i
    let d ← (s.chain destination).addBlock (s.known destination) hash i
    copyBlocks (s.set destination d) source destination (i + 1) n

/-- `ReorgChain` (ChainStore.cpp:94-116). -/
def Store.reorg (s : Store) (source destination : Which) (height : Nat) : Res Store := do
  if (s.chain source).height < height then .throw
  else do
    let i ← s.findCommon source destination
    let common := min i.height height
    let d ← (s.chain destination).rewind common
    copyBlocks (s.set destination d) source destination (common + 1) (height - common)

/-- `AddBlock` (ChainStore.cpp:118-133). -/
def Store.addFrom (s : Store) (source destination : Which) (height : Nat) : Res Store := do
  let t ← (s.chain destination).tip
  if t.height + 1 = height then do
    let t' ← (s.chain source).tip
    if t'.height ≥ height then do
      let hash ← (s.chain source).getHash height
      let d ← (s.chain destination).addBlock (s.known destination) hash height
      return s.set destination d
    else .throw
  else .throw

/-- Calls on the store. -/
inductive Op
  | add (w : Which) (hash : Bytes) (height : Nat)
  | rewind (w : Which) (height : Nat)
  | reorg (source destination : Which) (height : Nat)
  | addFrom (source destination : Which) (height : Nat)
  | commit
  | rollback
  | rollbackOne (w : Which)
  | restart
deriving DecidableEq, Repr

/-- One call; `commit` and `rollback` are `ChainStore::Commit` and `Rollback` (ChainStore.cpp:42-54),
candidate first; `rollbackOne` is `Chain::Rollback` called by the header processor; `restart` loads the
store from disk.  A call that throws leaves the store as it is: `AddBlock`, `Rewind` and `ReorgChain`
throw before the first change. -/
def Op.run (genesis : Index) (s : Store) : Op → Res Store
  | .add w hash height => do
    let c ← (s.chain w).addBlock (s.known w) hash height
    return s.set w c
  | .rewind w height => do
    let c ← (s.chain w).rewind height
    return s.set w c
  | .reorg a b height => s.reorg a b height
  | .addFrom a b height => s.addFrom a b height
  | .commit => do
    let b ← s.candidate.commit
    let a ← s.confirmed.commit
    return ⟨a, b⟩
  | .rollback => do
    let b ← s.candidate.rollback (s.known .candidate)
    let a ← s.confirmed.rollback ((s.set .candidate b).known .confirmed)
    return ⟨a, b⟩
  | .rollbackOne w => do
    let c ← (s.chain w).rollback (s.known w)
    return s.set w c
  | .restart => Store.load genesis s.confirmed.file.file.disk s.candidate.file.file.disk

end Verif.BC
