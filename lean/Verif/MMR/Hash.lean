import Verif.Base.Outcome
import Verif.Base.Bytes
import Verif.MMR.Index

/-!
# MMR hashing

Model of `src/PMMR/Common/MMRHashUtil.cpp`.  A hash file is a list of 32-byte hashes (its refinement
from bytes on disk is C23, `Verif/Props/File.lean`).  Blake2b is the parameter `H`.
-/
namespace Verif.MMR

/-- `ZERO_HASH` (Hash.h). -/
def zeroHash : Bytes := List.replicate 32 0

/-- The queries `MMRHashUtil` makes to a `PruneList`; `none` below is the null pointer. -/
structure PruneView where
  compacted : Nat → Bool
  shift : Nat → Nat
  total : Nat

/-- `MMRHashUtil::HashLeafWithIndex` (MMRHashUtil.cpp:110-116). -/
def hashLeaf (H : Bytes → Bytes) (leaf : Bytes) (idx : Nat) : Bytes := H (beBytes 8 idx ++ leaf)

/-- `MMRHashUtil::HashParentWithIndex` (MMRHashUtil.cpp:118-125). -/
def hashParent (H : Bytes → Bytes) (l r : Bytes) (idx : Nat) : Bytes :=
  H (beBytes 8 idx ++ (l ++ r))

/-- `HashFile::GetDataAt` on a list: reading past the end is undefined behaviour
(AppendOnlyFile.cpp:87-92). -/
def fileAt (file : List Bytes) (i : Nat) : Res Bytes :=
  match file[i]? with
  | some h => .ok h
  | none => .ub

/-- `MMRHashUtil::GetHashAt` (MMRHashUtil.cpp:59-73). -/
def getHashAt (file : List Bytes) (pos : Nat) (pl : Option PruneView) : Res Bytes :=
  match pl with
  | some pl => if pl.compacted pos then .throw else fileAt file (pos - pl.shift pos)
  | none => fileAt file pos

/-- `MMRHashUtil::GetShiftedIndex` (MMRHashUtil.cpp:75-82). -/
def shiftedIndex (pos : Nat) (pl : Option PruneView) : Nat :=
  match pl with
  | some pl => pos - pl.shift pos
  | none => pos

/-- The parent loop of `AddHashes` (MMRHashUtil.cpp:24-30).  `fuel` bounds the number of
iterations; running out of it is reported as undefined behaviour, which the theorems exclude. -/
def addParents (H : Bytes → Bytes) (pl : Option PruneView) : Nat → List Bytes → Nat → Res (List Bytes)
  | 0, _, _ => .ub
  | fuel + 1, file, pos =>
    if (Index.at pos).isLeaf then .ok file
    else do
      let l ← getHashAt file (Index.at pos).leftChild.pos pl
      let r ← getHashAt file (Index.at pos).rightChild.pos pl
      addParents H pl fuel (file ++ [hashParent H l r pos]) (pos + 1)

/-- `MMRHashUtil::AddHashes` (MMRHashUtil.cpp:8-31). -/
def addHashes (H : Bytes → Bytes) (pl : Option PruneView) (file : List Bytes) (leaf : Bytes) :
    Res (List Bytes) :=
  let pos := file.length + (match pl with | some pl => pl.total | none => 0)
  addParents H pl (pos + 2) (file ++ [hashLeaf H leaf pos]) (pos + 1)

/-- The loop of `Root` (MMRHashUtil.cpp:44-54) over the reversed peaks. -/
def rootLoop (H : Bytes → Bytes) (pl : Option PruneView) (file : List Bytes) (size : Nat) :
    List Nat → Bytes → Res Bytes
  | [], hash => .ok hash
  | p :: ps, hash => do
    let peak ← fileAt file (shiftedIndex p pl)
    rootLoop H pl file size ps
      (if peak ≠ zeroHash then (if hash = zeroHash then peak else hashParent H peak hash size)
       else hash)

/-- `MMRHashUtil::Root` (MMRHashUtil.cpp:33-57). -/
def root (H : Bytes → Bytes) (pl : Option PruneView) (file : List Bytes) (size : Nat) : Res Bytes :=
  if size = 0 then .ok zeroHash
  else rootLoop H pl file size (peakIndices size).reverse zeroHash

/-- Appending leaves one after the other, as `KernelMMR::ApplyKernel` (KernelMMR.cpp:71-77) and
`HeaderMMR::AddHeader` (HeaderMMRImpl.cpp:54-72) do. -/
def appendAll (H : Bytes → Bytes) (file : List Bytes) : List Bytes → Res (List Bytes)
  | [] => .ok file
  | l :: ls => do
    let file' ← addHashes H none file l
    appendAll H file' ls

/-- `KernelMMR` (KernelMMR.h): hash file and data file. -/
structure KMMR where
  hashes : List Bytes
  data : List Bytes
deriving DecidableEq, Repr

/-- `KernelMMR::ApplyKernel` (KernelMMR.cpp:71-77). -/
def KMMR.apply (H : Bytes → Bytes) (m : KMMR) (k : Bytes) : Res KMMR := do
  let hs ← addHashes H none m.hashes k
  return ⟨hs, m.data ++ [k]⟩

/-- A data file rewind: `DataFile::Rewind` throws if the target lies past the end
(DataFile.h:50-57, AppendOnlyFile.cpp:49-52). -/
def fileRewind (file : List Bytes) (n : Nat) : Res (List Bytes) :=
  if n > file.length then .throw else .ok (file.take n)

/-- `KernelMMR::Rewind` (KernelMMR.cpp:52-57). -/
def KMMR.rewind (m : KMMR) (n : Nat) : Res KMMR := do
  let hs ← fileRewind m.hashes (leafPos n)
  let d ← fileRewind m.data n
  return ⟨hs, d⟩

/-- `KernelMMR::Root` (KernelMMR.cpp:31-34). -/
def KMMR.root (H : Bytes → Bytes) (m : KMMR) (size : Nat) : Res Bytes :=
  MMR.root H none m.hashes size

/-- `KernelMMR::GetKernelAt` before deserialization (KernelMMR.cpp:36-45). -/
def KMMR.at (m : KMMR) (n : Nat) : Res Bytes := fileAt m.data n

/-- Apply kernels one after the other (TxHashSetImpl.cpp:155-158). -/
def KMMR.applyAll (H : Bytes → Bytes) (m : KMMR) : List Bytes → Res KMMR
  | [] => .ok m
  | k :: ks => do
    let m' ← m.apply H k
    m'.applyAll H ks

/-- `HeaderMMR::AddHeader` on the hash file (HeaderMMRImpl.cpp:54-72): the leaf is the packed
cycle. -/
def headerAdd (H : Bytes → Bytes) (file : List Bytes) (cycle : Bytes) : Res (List Bytes) :=
  addHashes H none file cycle

/-- `HeaderMMR::Rewind` (HeaderMMRImpl.cpp:43-52). -/
def headerRewind (file : List Bytes) (n : Nat) : Res (List Bytes) :=
  if leafPos n ≠ file.length then fileRewind file (leafPos n) else .ok file

/-- `HeaderMMR::Root` (HeaderMMRImpl.cpp:74-82). -/
def headerRoot (H : Bytes → Bytes) (file : List Bytes) (lastHeight : Nat) : Res Bytes :=
  root H none file (leafPos (lastHeight + 1))

end Verif.MMR
