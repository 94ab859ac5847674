import Verif.File.AppendOnlyLemmas
import Verif.File.BitmapLemmas

/-!
# Commits as sequences of writes

A process stop inside a commit leaves the disk as it is after some prefix of the elementary writes of
that commit.  Bytes reach the file one at a time and in order (a simplification: the C++ stream hands
them over in blocks, which gives a subset of these states; reordering by the operating system after a
power loss is not modelled).
-/
namespace Verif.File

/-- Names of the files concerned. -/
abbrev Path := String

/-- The files of a directory. -/
abbrev Disk := Path → Option Bytes

/-- Elementary writes. -/
inductive Effect
  /-- `truncate(2)` (FileUtil.cpp:183). -/
  | truncate (p : Path) (size : Nat)
  /-- One byte appended through a stream opened with `app` (MappedFile_Nix.cpp:50-59). -/
  | appendByte (p : Path) (b : UInt8)
  /-- One `seekp` and one-byte `write` (BitmapFile.h:62-63). -/
  | putByte (p : Path) (i : Nat) (b : UInt8)
  /-- Opening a stream that creates or empties the file (FileUtil.cpp:59). -/
  | create (p : Path)
  /-- `fs::remove` (FileUtil.cpp:41). -/
  | remove (p : Path)
  /-- `fs::rename` (FileUtil.cpp:48). -/
  | rename (src dst : Path)
  /-- An atomic commit of a database transaction (RocksDB.h:279), as a replacement of the content. -/
  | replace (p : Path) (content : Bytes)
deriving DecidableEq

/-- Set the content of one file. -/
def Disk.put (d : Disk) (p : Path) (c : Option Bytes) : Disk := fun q => if q = p then c else d q

/-- The effect of an elementary write. -/
def Effect.apply (d : Disk) : Effect → Disk
  | .truncate p n => d.put p ((d p).map fun c => c.take n ++ List.replicate (n - c.length) 0)
  | .appendByte p b => d.put p ((d p).map fun c => c ++ [b])
  | .putByte p i b => d.put p ((d p).map fun c => writeByte c i b)
  | .create p => d.put p (some [])
  | .remove p => d.put p none
  | .rename s t => (d.put t (d s)).put s none
  | .replace p c => d.put p (some c)

/-- Running a sequence of writes. -/
def applyAll (d : Disk) (es : List Effect) : Disk := es.foldl Effect.apply d

/-- The disks a process stop inside the sequence `es` can leave. -/
def CrashStates (d : Disk) (es : List Effect) (d' : Disk) : Prop :=
  ∃ n, d' = applyAll d (es.take n)

/-- The writes of `AppendOnlyFile::Flush` (AppendOnlyFile.cpp:12-34, MappedFile_Nix.cpp:40-63). -/
def flushEffects (p : Path) (f : AFile) : List Effect :=
  if f.fileSize = f.bufferIndex ∧ f.buffer = [] then []
  else if f.fileSize < f.bufferIndex then []
  else .truncate p f.bufferIndex :: f.buffer.map (.appendByte p)

/-- The writes of `DataFile::Commit` (DataFile.h:27-38). -/
def dataEffects (p : Path) (d : DFile) : List Effect := if d.dirty then flushEffects p d.file else []

/-- The writes of `BitmapFile::Commit` (BitmapFile.h:60-64). -/
def bitmapEffects (p : Path) (f : BFile) : List Effect := f.mods.map fun kv => .putByte p kv.1 kv.2

/-- The writes of `FileUtil::SafeWriteToFile` (FileUtil.cpp:37-70): a temporary file is written, the
destination removed, the temporary file renamed. -/
def safeWriteEffects (p : Path) (data : Bytes) : List Effect :=
  .create (p ++ ".tmp") :: data.map (.appendByte (p ++ ".tmp")) ++ [.remove p, .rename (p ++ ".tmp") p]

/-- A pruned mountain range: hash file, data file and leaf set (PruneableMMR.h:138-148). -/
structure PrunedFiles where
  hashes : DFile
  data : DFile
  leaves : BFile

/-- The files of the chain state (ChainStore.cpp:42-47, KernelMMR.cpp:59-63, TxHashSetImpl.cpp:370-379). -/
structure StateFiles where
  candidate : DFile
  confirmed : DFile
  /-- content of the database after the pending transaction -/
  database : Bytes
  headers : DFile
  kernelHashes : DFile
  kernels : DFile
  outputs : PrunedFiles
  proofs : PrunedFiles

/-- The writes of a pruned mountain range (PruneableMMR.h:138-148). -/
def prunedEffects (p : Path) (f : PrunedFiles) : List Effect :=
  dataEffects (p ++ "/pmmr_hash.bin") f.hashes ++ dataEffects (p ++ "/pmmr_data.bin") f.data ++
    bitmapEffects (p ++ "/pmmr_leafset.bin") f.leaves

/-- The writes of `ChainState::Commit` (ChainState.cpp:222-243), in order.  The three parts of the
output set are committed by three threads; the model runs them one after the other. -/
def stateEffects (s : StateFiles) : List Effect :=
  dataEffects "candidate.chain" s.candidate ++ dataEffects "confirmed.chain" s.confirmed ++
  [.replace "db" s.database] ++
  dataEffects "header_mmr.bin" s.headers ++
  (dataEffects "kernel/pmmr_hash.bin" s.kernelHashes ++ dataEffects "kernel/pmmr_data.bin" s.kernels) ++
  prunedEffects "output" s.outputs ++ prunedEffects "rangeproof" s.proofs

end Verif.File
