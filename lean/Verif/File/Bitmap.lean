import Verif.Base.Outcome
import Verif.Base.Bytes
import Verif.MMR.Index

/-!
# Bitmap files

Model of `include/Core/File/BitmapFile.h`.  Operating system failures, the conversion of files of
older versions (`ConvertToLeaves`, 233-263) and the dirty flag (never read by the class itself) are not
modelled.  Bit and byte numbers are naturals; the C++ uses 64 bits.
-/
namespace Verif.File

/-- `m_modifiedBytes`, a `std::map<uint64_t, uint8_t>`, as a list in increasing order of keys. -/
abbrev ByteMap := List (Nat × UInt8)

/-- `std::map::operator[] =` on `m_modifiedBytes` (BitmapFile.h:96,114). -/
def ByteMap.put : ByteMap → Nat → UInt8 → ByteMap
  | [], k, v => [(k, v)]
  | (k', v') :: m, k, v =>
    if k < k' then (k, v) :: (k', v') :: m
    else if k = k' then (k, v) :: m
    else (k', v') :: ByteMap.put m k v

/-- `std::map::find` on `m_modifiedBytes` (BitmapFile.h:168). -/
def ByteMap.find : ByteMap → Nat → Option UInt8
  | [], _ => none
  | (k', v') :: m, k => if k' = k then some v' else ByteMap.find m k

/-- `BitmapFile` (BitmapFile.h:295-298): the file, as mapped into memory, and the modified bytes. -/
structure BFile where
  disk : Bytes
  mods : ByteMap
deriving DecidableEq, Repr

/-- `Load` (BitmapFile.h:184-231) of a file in the current format. -/
def BFile.load (disk : Bytes) : BFile := ⟨disk, []⟩

/-- `BitToByte` (BitmapFile.h:283-286). -/
def bitToByte (bit : Nat) : UInt8 := 1 <<< (7 - UInt8.ofNat bit)

/-- `GetByte` (BitmapFile.h:166-179). -/
def BFile.getByte (f : BFile) (i : Nat) : UInt8 :=
  match f.mods.find i with
  | some b => b
  | none => if h : i < f.disk.length then f.disk[i] else 0

/-- `IsSet` (BitmapFile.h:86-89). -/
def BFile.isSet (f : BFile) (n : Nat) : Bool := f.getByte (n / 8) &&& bitToByte (n % 8) != 0

/-- `Set` (BitmapFile.h:91-97). -/
def BFile.set (f : BFile) (n : Nat) : BFile :=
  { f with mods := f.mods.put (n / 8) (f.getByte (n / 8) ||| bitToByte (n % 8)) }

/-- `Unset` (BitmapFile.h:109-115). -/
def BFile.unset (f : BFile) (n : Nat) : BFile :=
  { f with mods := f.mods.put (n / 8) (f.getByte (n / 8) &&& (0xff ^^^ bitToByte (n % 8))) }

/-- The leaf of a 1-based position in a Roaring bitmap, if it is a leaf (BitmapFile.h:102-104,
120-122); the subtraction is in 32 bits. -/
def roaringLeaf (v : Nat) : Option Nat :=
  let p := (v + 2 ^ 32 - 1) % 2 ^ 32
  if (MMR.Index.at p).isLeaf then some (MMR.leafIndexAt p) else none

/-- `Set(const Roaring&)` (BitmapFile.h:99-107). -/
def BFile.setAll (f : BFile) (vs : List Nat) : BFile :=
  vs.foldl (fun f v => (roaringLeaf v).elim f f.set) f

/-- `Unset(const Roaring&)` (BitmapFile.h:117-125). -/
def BFile.unsetAll (f : BFile) (vs : List Nat) : BFile :=
  vs.foldl (fun f v => (roaringLeaf v).elim f f.unset) f

/-- `operator[]` (BitmapFile.h:127-130) with its constants `s_true{false}` and `s_false{false}`
(BitmapFile.h:300-301). -/
def BFile.index (f : BFile) (n : Nat) : Bool := if f.isSet n then false else false

/-- `GetNumBytes` (BitmapFile.h:265-279). -/
def BFile.numBytes (f : BFile) : Nat :=
  let size := match f.mods.getLast? with
    | some (k, _) => k + 1
    | none => 0
  if f.disk ≠ [] then max size (f.disk.length + 1) else size

/-- `Rewind` (BitmapFile.h:132-144). -/
def BFile.rewind (f : BFile) (numLeaves : Nat) (leavesToAdd : List Nat) : BFile :=
  let f := leavesToAdd.foldl BFile.set f
  let currentSize := f.numBytes * 8
  (List.range' numLeaves (currentSize - numLeaves)).foldl BFile.unset f

/-- One `seekp` and `write` of `Commit` (BitmapFile.h:62-63): bytes between the end of the file and the
position are filled with zero. -/
def writeByte (disk : Bytes) (i : Nat) (b : UInt8) : Bytes :=
  disk.take i ++ List.replicate (i - disk.length) 0 ++ b :: disk.drop (i + 1)

/-- `Commit` (BitmapFile.h:52-78). -/
def BFile.commit (f : BFile) : BFile :=
  ⟨f.mods.foldl (fun d kv => writeByte d kv.1 kv.2) f.disk, []⟩

/-- `Rollback` (BitmapFile.h:80-84). -/
def BFile.rollback (f : BFile) : BFile := { f with mods := [] }

/-- `ToRoaring` (BitmapFile.h:146-164): the values added, in order; the loop counter, `i * 8 + j` and
the value added are 32 bits wide. -/
def BFile.toRoaring (f : BFile) : List Nat :=
  (List.range (f.numBytes % 2 ^ 32)).flatMap fun i =>
    (List.range 8).filterMap fun j =>
      if f.getByte i &&& bitToByte j != 0 then
        some ((MMR.leafPos ((i * 8 % 2 ^ 32 + j) % 2 ^ 32) + 1) % 2 ^ 32)
      else none

end Verif.File
