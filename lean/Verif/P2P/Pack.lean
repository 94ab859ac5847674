import Verif.P2P.Archive

/-!
# Serving chain snapshots

How a node makes the archive a peer asks for: `TxHashSetManager::SaveSnapshot` (src/PMMR/TxHashSetManager.cpp),
`src/PMMR/Zip/Zipper.cpp` and the files the node keeps below the directory of its chain state.
-/
namespace Verif.P2P
open Verif Verif.Codec

/-- The files below a directory with the three folders of a chain state, in the order the file system lists them.  The
folders themselves always exist (the constructors of the files create them). -/
abbrev Dir := List (Path × Bytes)

/-- The content of a file. -/
def Dir.get (d : Dir) (p : Path) : Option Bytes := (d.find? (fun e => decide (e.1 = p))).map (·.2)

/-- A file removed. -/
def Dir.del (d : Dir) (p : Path) : Dir := d.filter (fun e => decide (e.1 ≠ p))

/-- A file written. -/
def Dir.put (d : Dir) (p : Path) (bs : Bytes) : Dir := d.del p ++ [(p, bs)]

/-! ## The files of a running node -/

/-- What the parts of the chain state write when they are committed. -/
structure Flushed where
  kernelHash : Bytes
  kernelData : Bytes
  outputHash : Bytes
  outputData : Bytes
  outputLeaves : Bytes
  proofHash : Bytes
  proofData : Bytes
  proofLeaves : Bytes

/-- `TxHashSet::Commit` with `KernelMMR::Commit` and `PruneableMMR::Commit` (PruneableMMR.h:139-149): the hash file, the
data file and, for outputs and proofs, the bitmap `pmmr_leafset.bin`.  A part that is not dirty keeps its content.
`PruneList::Flush` and `LeafSet::Snapshot` are called nowhere. -/
def commitFiles (d : Dir) (c : Flushed) : Dir :=
  (((((((d.put (str "kernel", str "pmmr_hash.bin") c.kernelHash).put
    (str "kernel", str "pmmr_data.bin") c.kernelData).put
    (str "output", str "pmmr_hash.bin") c.outputHash).put
    (str "output", str "pmmr_data.bin") c.outputData).put
    (str "output", str "pmmr_leafset.bin") c.outputLeaves).put
    (str "rangeproof", str "pmmr_hash.bin") c.proofHash).put
    (str "rangeproof", str "pmmr_data.bin") c.proofData).put
    (str "rangeproof", str "pmmr_leafset.bin") c.proofLeaves

/-- `OutputPMMR::Load` and `RangeProofPMMR::Load` as far as they write files (OutputPMMR.h:20-29,
RangeProofPMMR.h:18-27): the bitmap is made from `pmmr_leaf.bin` if only that is there; `create` is
`BitmapFile::Create` of the set read. -/
def loadLeaves (create : Bytes → Bytes) (d : Dir) (folder : Bytes) : Dir :=
  match d.get (folder, str "pmmr_leafset.bin"), d.get (folder, str "pmmr_leaf.bin") with
  | none, some b => d.put (folder, str "pmmr_leafset.bin") (create b)
  | _, _ => d

/-- `TxHashSetManager::Open` (TxHashSetManager.cpp:21-49) as far as it writes files. -/
def openFiles (create : Bytes → Bytes) (d : Dir) : Dir :=
  loadLeaves create (loadLeaves create d (str "output")) (str "rangeproof")

/-- What happens to the files of a node: it is started, or commits blocks. -/
inductive FileEvent where
  | started
  | committed (c : Flushed)

/-- One event. -/
def fileEvent (create : Bytes → Bytes) (d : Dir) : FileEvent → Dir
  | .started => openFiles create d
  | .committed c => commitFiles d c

/-! ## The archive -/

/-- `FileUtil::CopyDirectory` (FileUtil.cpp:95-114): `fs::copy` without an option to overwrite fails at a file that is
already there. -/
def copyDirectory (source dest : Dir) : Res Dir :=
  if source.any (fun e => (dest.get e.1).isSome) then .throw else .ok (dest ++ source)

/-- `FileUtil::RenameFile` (FileUtil.cpp:38-54) within a folder. -/
def renameIn (d : Dir) (folder source target : Bytes) : Res Dir :=
  let d1 := d.del (folder, target)
  match d1.get (folder, source) with
  | none => .throw
  | some bs => .ok ((d1.del (folder, source)).put (folder, target) bs)

/-- An archive: names and contents. -/
abbrev Entries := List (Bytes × Bytes)

/-- `Zipper::AddFile` (Zipper.cpp:62-94): the size is cut to 32 bits.  No error of the file system or the library is
modelled. -/
def addFile (folder : Bytes) (e : Path × Bytes) : Bytes × Bytes :=
  (folder ++ str "/" ++ e.1.2, e.2.take (e.2.length % 2 ^ 32))

/-- `Zipper::AddDirectory` (Zipper.cpp:47-60) for a folder without folders in it. -/
def addDirectory (d : Dir) (folder : Bytes) : Entries :=
  (d.filter (fun e => decide (e.1.1 = folder))).map (addFile folder)

/-- `Zipper::CreateZipFile` (Zipper.cpp:10-45) for the three folders (TxHashSetManager.cpp:142-147). -/
def createZip (d : Dir) : Entries :=
  addDirectory d (str "kernel") ++ (addDirectory d (str "output") ++ addDirectory d (str "rangeproof"))

/-- What the library that reads archives finds under a name: the first entry (`unzLocateFile`). -/
def readZip (z : Entries) : Zip := fun name => (z.find? (fun e => decide (e.1 = name))).map (·.2)

/-- `SaveSnapshot` (TxHashSetManager.cpp:91-156).  `state` are the files of the node, whose chain state is open, `stale`
what is left in the temporary directory of this header; `rewound` is what the copy of the chain state commits after it
was loaded and rewound to the header.  The temporary directory is removed at the end, come what may. -/
def saveSnapshot (create : Bytes → Bytes) (rewound : Dir → Flushed) (short : Bytes) (state stale : Dir) :
    Res Entries := do
  let d ← copyDirectory state stale
  let d := openFiles create d
  let d := commitFiles d (rewound d)
  let leaf := str "pmmr_leaf.bin." ++ short
  let d ← renameIn d (str "output") (str "pmmr_leaf.bin") leaf
  let d ← renameIn d (str "rangeproof") (str "pmmr_leaf.bin") leaf
  return createZip d

end Verif.P2P
