import Verif.MMR.Prune

/-!
# Pruneable Merkle mountain range

Model of `src/PMMR/Common/PruneableMMR.h`, the common part of `OutputPMMR` and `RangeProofPMMR`.
The hash and data files are lists of records (C23 relates them to bytes), the leaf set a finite set of
leaf numbers (C24 relates it to the bitmap file).
-/
namespace Verif.MMR

/-- `PruneableMMR` (PruneableMMR.h:162-166). -/
structure PMMR where
  hashes : List Bytes
  data : List Bytes
  leafSet : Finset Nat
  pl : PruneList

/-- `GetSize` (PruneableMMR.h:87-90). -/
def PMMR.size (m : PMMR) : Nat := m.pl.totalShift + m.hashes.length

/-- `Append` (PruneableMMR.h:38-52). -/
def PMMR.append (H : Bytes → Bytes) (m : PMMR) (x : Bytes) : Res PMMR := do
  let hs ← addHashes H (some m.pl.view) m.hashes x
  return { m with
    hashes := hs
    data := m.data ++ [x]
    leafSet := insert (leafIndexAt (m.hashes.length + m.pl.totalShift)) m.leafSet }

/-- `Remove` (PruneableMMR.h:54-65). -/
def PMMR.remove (m : PMMR) (n : Nat) : Res PMMR :=
  if n ∈ m.leafSet then .ok { m with leafSet := m.leafSet.erase n } else .throw

/-- `Rewind` (PruneableMMR.h:67-75); `GetShift(index - 1)` is the lookup at `position`, which also
covers position 0, where `index - 1` wraps.  `LeafSet::Rewind` sets the bits of `leavesToAdd` and then
clears all bits from `n` on (BitmapFile.h:132-144). -/
def PMMR.rewind (m : PMMR) (n : Nat) (leavesToAdd : List Nat) : Res PMMR := do
  let hs ← fileRewind m.hashes
    (leafPos n - lookupShift m.pl.roots m.pl.shiftCache (leafPos n))
  let d ← fileRewind m.data (n - lookupShift m.pl.roots m.pl.leafShiftCache (leafPos n))
  return { m with
    hashes := hs
    data := d
    leafSet := (m.leafSet ∪ leavesToAdd.toFinset).filter (· < n) }

/-- `Root` (PruneableMMR.h:77-80). -/
def PMMR.root (H : Bytes → Bytes) (m : PMMR) (size : Nat) : Res Bytes :=
  MMR.root H (some m.pl.view) m.hashes size

/-- `GetHashAt` (PruneableMMR.h:92-100). -/
def PMMR.hashAt (m : PMMR) (p : Nat) : Res (Option Bytes) :=
  if m.pl.isCompacted p then .ok none
  else do
    let h ← getHashAt m.hashes p (some m.pl.view)
    return some h

/-- `IsUnpruned` (PruneableMMR.h:107-110). -/
def PMMR.isUnpruned (m : PMMR) (n : Nat) : Bool := leafPos n < m.size && n ∈ m.leafSet

/-- `GetAt` before deserialization (PruneableMMR.h:117-136). -/
def PMMR.getAt (m : PMMR) (n : Nat) : Res (Option Bytes) :=
  if m.isUnpruned n then do
    let d ← fileAt m.data (n - m.pl.leafShift (leafPos n))
    return some d
  else .ok none

end Verif.MMR
