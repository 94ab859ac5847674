import Verif.Base.Outcome
import Verif.Base.Bytes

/-!
# Append-only files

Model of `src/Core/File/AppendOnlyFile.cpp`, `src/Core/File/MappedFile_Nix.cpp` and
`include/Core/File/DataFile.h`.  Failures of the operating system (a file that cannot be opened) are
not modelled; the mutex and the re-mapping of the file are not either.
-/
namespace Verif.File

/-- `AppendOnlyFile` (AppendOnlyFile.h) with the content of the file on disk. -/
structure AFile where
  disk : Bytes
  fileSize : Nat
  bufferIndex : Nat
  buffer : Bytes
deriving DecidableEq, Repr

/-- `Load` (AppendOnlyFile.cpp:5-10). -/
def AFile.load (disk : Bytes) : AFile := ⟨disk, disk.length, disk.length, []⟩

/-- `MappedFile::Write` (MappedFile_Nix.cpp:40-63): truncate, then append.  `TruncateFile` to a larger
size would extend with zeros; the flush never does that (`mappedWrite` is called with
`start ≤ length`). -/
def mappedWrite (disk : Bytes) (start : Nat) (data : Bytes) : Bytes :=
  (disk.take start ++ List.replicate (start - disk.length) 0) ++ data

/-- `MappedFile::Read` (MappedFile_Nix.cpp:65-78): iterators past the end are undefined behaviour. -/
def mappedRead (disk : Bytes) (pos n : Nat) : Res Bytes :=
  if pos + n ≤ disk.length then .ok ((disk.drop pos).take n) else .ub

/-- `Flush` (AppendOnlyFile.cpp:12-34). -/
def AFile.flush (f : AFile) : Bool × AFile :=
  if f.fileSize = f.bufferIndex ∧ f.buffer = [] then (true, f)
  else if f.fileSize < f.bufferIndex then (false, f)
  else
    let size := f.bufferIndex + f.buffer.length
    (true, ⟨mappedWrite f.disk f.bufferIndex f.buffer, size, size, []⟩)

/-- `Append` (AppendOnlyFile.cpp:36-39). -/
def AFile.append (f : AFile) (data : Bytes) : AFile := { f with buffer := f.buffer ++ data }

/-- `Rewind` (AppendOnlyFile.cpp:41-65). -/
def AFile.rewind (f : AFile) (next : Nat) : Bool × AFile :=
  if next > f.bufferIndex + f.buffer.length then (false, f)
  else if next ≤ f.bufferIndex then (true, { f with buffer := [], bufferIndex := next })
  else (true, { f with buffer := f.buffer.take (next - f.bufferIndex) })

/-- `Discard` (AppendOnlyFile.cpp:67-71). -/
def AFile.discard (f : AFile) : AFile := { f with bufferIndex := f.fileSize, buffer := [] }

/-- `GetSize` (AppendOnlyFile.cpp:73-76). -/
def AFile.size (f : AFile) : Nat := f.bufferIndex + f.buffer.length

/-- `Read` (AppendOnlyFile.cpp:78-96). -/
def AFile.read (f : AFile) (pos n : Nat) : Res Bytes :=
  if pos < f.bufferIndex then mappedRead f.disk pos n
  else
    let first := pos - f.bufferIndex
    if first + n ≤ f.buffer.length then .ok ((f.buffer.drop first).take n) else .ub

/-- `DataFile<NUM_BYTES>` (DataFile.h). -/
structure DFile where
  file : AFile
  dirty : Bool
deriving DecidableEq, Repr

/-- `Load` (DataFile.h:19-25). -/
def DFile.load (disk : Bytes) : DFile := ⟨AFile.load disk, false⟩

/-- `Commit` (DataFile.h:27-38). -/
def DFile.commit (d : DFile) : Res DFile :=
  if d.dirty then
    match d.file.flush with
    | (true, f) => .ok ⟨f, false⟩
    | (false, _) => .throw
  else .ok { d with dirty := false }

/-- `Rollback` (DataFile.h:40-48). -/
def DFile.rollback (d : DFile) : DFile :=
  if d.dirty then ⟨d.file.discard, false⟩ else { d with dirty := false }

/-- `Rewind` (DataFile.h:50-57): the exception, or nothing, together with the state after.  The
product is taken in 64 bits. -/
def DFile.rewind (N : Nat) (d : DFile) (n : Nat) : Bool × DFile :=
  match d.file.rewind (n * N % U64) with
  | (b, f) => (b, ⟨f, true⟩)

/-- `GetSize` (DataFile.h:59-62). -/
def DFile.size (N : Nat) (d : DFile) : Nat := d.file.size / N

/-- `GetDataAt` (DataFile.h:64-73). -/
def DFile.get (N : Nat) (d : DFile) (i : Nat) : Res Bytes := d.file.read (i * N % U64) N

/-- `AddData` (DataFile.h:75-85). -/
def DFile.add (d : DFile) (x : Bytes) : DFile := ⟨d.file.append x, true⟩

end Verif.File
