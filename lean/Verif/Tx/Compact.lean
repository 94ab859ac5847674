import Verif.Tx.Body
import Verif.Ser.ByteBuffer
import Mathlib.Data.List.Dedup

/-!
# Compact blocks: short ids, compaction, lookup in the pool, hydration

Model of `src/Core/Models/ShortId.cpp`, `src/BlockChain/CompactBlockFactory.cpp`,
`src/BlockChain/BlockHydrator.cpp` and `Pool::GetTransactionsByShortId`.  Blake2b and SipHash-2-4
are parameters; a pool is the list of its transactions in order of arrival.
-/
namespace Verif.Tx

/-- What the functions below take from outside: `H` the digest as a number, `B` the Blake2b digest
as bytes, `sip` SipHash-2-4 (Hasher.h), `blockHash` the hash of a header
(`FullBlock::GetHash`, `CompactBlock::GetHash`: both the header's). -/
structure Hashes where
  H : DigestNum
  B : Bytes → Bytes
  sip : Nat → Nat → Bytes → Nat
  blockHash : Header → Bytes

/-- `ShortId::Create` (ShortId.cpp:10-31): the two keys are the first two little-endian words of
the digest of block hash and nonce; the id is the first six little-endian bytes of the SipHash of
the kernel hash. -/
def shortIdCreate (E : Hashes) (hash blockHash : Bytes) (nonce : Nat) : Bytes :=
  let d := E.B (blockHash ++ beBytes 8 nonce)
  let k0 := beVal (d.take 8).reverse
  let k1 := beVal ((d.drop 8).take 8).reverse
  (leBytes 8 (E.sip k0 k1 hash)).take 6

/-- The short id of a kernel in the block with header `h`, for a nonce (the calls at
CompactBlockFactory.cpp:37 and Pool.cpp:16). -/
def kernelId (E : Hashes) (h : Header) (nonce : Nat) (k : Kernel) : Bytes :=
  shortIdCreate E (beBytes 32 (kernelHash E.H k)) (E.blockHash h) nonce

/-- `CompactBlockFactory::CreateCompactBlock` (CompactBlockFactory.cpp:6-46); the random nonce is
an argument. -/
def compact (E : Hashes) (nonce : Nat) (b : Block) : CompactBlk where
  header := b.header
  nonce := nonce
  outputs := sortByHash (outputHash E.H) (b.body.outputs.filter outIsCoinbase)
  kernels := sortByHash (kernelHash E.H) (b.body.kernels.filter kerIsCoinbase)
  shortIds := sortByHash E.H
    ((b.body.kernels.filter (fun k => !kerIsCoinbase k)).map (kernelId E b.header nonce))

/-- The nested loops of `Pool::GetTransactionsByShortId` (Pool.cpp:12-27) over the pairs of a pool
transaction and one of its kernels: `sought` is the membership test in the set of short ids, `n`
the size of that set, `found` the result so far. -/
def findLoop (sought : Kernel → Bool) (n : Nat) : List (Tx × Kernel) → List Tx → List Tx
  | [], found => found
  | (t, k) :: rest, found =>
    if sought k then
      let found := found ++ [t]
      if found.length = n then found else findLoop sought n rest found
    else findLoop sought n rest found

/-- `Pool::GetTransactionsByShortId` (Pool.cpp:9-30). -/
def findByShortId (E : Hashes) (pool : List Tx) (h : Header) (nonce : Nat) (ids : List Bytes) :
    List Tx :=
  findLoop (fun k => ids.contains (kernelId E h nonce k)) ids.dedup.length
    (pool.flatMap (fun t => t.body.kernels.map (fun k => (t, k)))) []

/-- Pushing an item unless its hash was seen (BlockHydrator.cpp:50-54, 59-63, 68-72, 79-83,
88-92).  The set of hashes seen holds exactly the hashes of the items pushed. -/
def addNew {α : Type} (h : α → Nat) (acc : List α) (a : α) : List α :=
  if (acc.map h).contains (h a) then acc else acc ++ [a]

/-- `BlockHydrator::Hydrate` with the transactions (BlockHydrator.cpp:35-109).  The three vectors
are independent of each other until cut-through, so each is folded on its own. -/
def hydrateWith (E : Hashes) (c : CompactBlk) (txs : List Tx) : Block :=
  let ins := (txs.flatMap (·.body.inputs)).foldl (addNew (inputHash E.H)) []
  let outs := (txs.flatMap (·.body.outputs) ++ c.outputs).foldl (addNew (outputHash E.H)) []
  let kers := (txs.flatMap (·.body.kernels) ++ c.kernels).foldl (addNew (kernelHash E.H)) []
  let io := cutThrough ins outs
  ⟨c.header, ⟨sortByHash (inputHash E.H) io.1, sortByHash (outputHash E.H) io.2,
    sortByHash (kernelHash E.H) kers⟩⟩

/-- `BlockHydrator::Hydrate` (BlockHydrator.cpp:12-33) over the transactions of the pool. -/
def hydrate (E : Hashes) (pool : List Tx) (c : CompactBlk) : Option Block :=
  if c.shortIds = [] then some (hydrateWith E c [])
  else
    let txs := findByShortId E pool c.header c.nonce c.shortIds
    if txs.length = c.shortIds.length then some (hydrateWith E c txs) else none

end Verif.Tx
