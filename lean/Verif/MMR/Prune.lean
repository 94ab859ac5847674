import Verif.Base.Outcome
import Verif.MMR.Hash
import Mathlib.Data.Finset.Max
import Mathlib.Order.Interval.Finset.Nat
import Mathlib.Algebra.BigOperators.Group.Finset.Basic

/-!
# The prune list

Model of `src/PMMR/Common/PruneList.cpp`.  A `Roaring` bitmap of `position + 1` values is modelled as
the finite set of positions.  Reading and writing the bitmap file is not modelled.
-/
namespace Verif.MMR

/-- `PruneList` (PruneList.h:44-49). -/
structure PruneList where
  roots : Finset Nat
  cache : Finset Nat
  shiftCache : List Nat
  leafShiftCache : List Nat

/-- The empty list of `PruneList::Load` when there is no file (PruneList.cpp:24-26). -/
def PruneList.empty : PruneList := ⟨∅, ∅, [], []⟩

/-- `m_prunedRoots.maximum()`, the greatest `position + 1`, or 0. -/
def maximumOf (roots : Finset Nat) : Nat := roots.sup (· + 1)

/-- `m_prunedRoots.rank(q)`: how many roots have `position + 1 ≤ q`. -/
def rankOf (roots : Finset Nat) (q : Nat) : Nat := (roots.filter (· < q)).card

/-- `GetShift` / `GetLeafShift` on a given cache (PruneList.cpp:88-130), with `q = position + 1`.
`Index - 1` in C++ wraps at position 0, where `position + 1` is then 0. -/
def lookupShift (roots : Finset Nat) (cache : List Nat) (q : Nat) : Nat :=
  if roots = ∅ then 0
  else if cache = [] then 0
  else
    let index := rankOf roots q
    if index = 0 then 0
    else if index > cache.length then cache.getLastD 0
    else cache.getD (index - 1) 0

/-- The loop of `BuildShiftCaches` (PruneList.cpp:168-182) for one of its two caches; `w` is the
shift contributed by a root. -/
def buildCache (roots : Finset Nat) (w : Nat → Nat) : Nat → List Nat
  | 0 => []
  | p + 1 =>
    let c := buildCache roots w p
    if p ∈ roots then c ++ [lookupShift roots c p + w p] else c

/-- Hash entries removed under a root (PruneList.cpp:174). -/
def hashWeight (p : Nat) : Nat := 2 * (1 <<< calcHeight p - 1)

/-- Leaf entries removed under a root (PruneList.cpp:179). -/
def leafWeight (p : Nat) : Nat := if calcHeight p = 0 then 0 else 1 <<< calcHeight p

/-- The inner loop of `BuildPrunedCache` (PruneList.cpp:143-150).  Each step moves to a larger
position, so `fuel = maximum` is enough. -/
def climb (roots : Finset Nat) (maximum : Nat) : Nat → Index → Bool
  | 0, _ => false
  | fuel + 1, i =>
    if i.pos < maximum then
      if i.pos ∈ roots then true else climb roots maximum fuel i.parent
    else false

/-- `BuildPrunedCache` (PruneList.cpp:132-154). -/
def buildPruned (roots : Finset Nat) : Finset Nat :=
  (Finset.range (maximumOf roots)).filter
    (fun p => climb roots (maximumOf roots) (maximumOf roots) (Index.at p) = true)

/-- `BuildPrunedCache` and `BuildShiftCaches`, as called by `Load` and `Flush`
(PruneList.cpp:20-21, 44-45). -/
def PruneList.rebuild (l : PruneList) : PruneList :=
  if l.roots = ∅ then l
  else
    { roots := l.roots
      cache := buildPruned l.roots
      shiftCache := buildCache l.roots hashWeight (maximumOf l.roots)
      leafShiftCache := buildCache l.roots leafWeight (maximumOf l.roots) }

/-- The loop of `PruneList::Add` (PruneList.cpp:51-66).  With a cache that holds exactly the pruned
positions, a round that continues removes a root or moves up inside a pruned subtree, so
`maximum + roots.card + 1` rounds are enough; running out of them is reported as undefined behaviour,
which the theorems exclude. -/
def addLoop : Nat → Finset Nat → Finset Nat → Index → Res (Finset Nat × Finset Nat)
  | 0, _, _, _ => .ub
  | fuel + 1, roots, cache, i =>
    let sib := i.sibling.pos
    if sib ∈ roots ∨ sib ∈ cache then
      addLoop fuel (roots.erase sib) (insert i.pos cache) i.parent
    else .ok (insert i.pos roots, insert i.pos cache)

/-- `PruneList::Add` (PruneList.cpp:51-66); the caches are only rebuilt by `Flush`. -/
def PruneList.add (l : PruneList) (i : Index) : Res PruneList := do
  let r ← addLoop (maximumOf l.roots + l.roots.card + 1) l.roots l.cache i
  return { l with roots := r.1, cache := r.2 }

/-- `IsPruned` (PruneList.cpp:68-71). -/
def PruneList.isPruned (l : PruneList) (p : Nat) : Bool := p ∈ l.cache

/-- `IsPrunedRoot` (PruneList.cpp:73-76). -/
def PruneList.isPrunedRoot (l : PruneList) (p : Nat) : Bool := p ∈ l.roots

/-- `IsCompacted` (PruneList.cpp:78-81). -/
def PruneList.isCompacted (l : PruneList) (p : Nat) : Bool := l.isPruned p && !l.isPrunedRoot p

/-- `GetShift` (PruneList.cpp:88-108). -/
def PruneList.shift (l : PruneList) (p : Nat) : Nat := lookupShift l.roots l.shiftCache (p + 1)

/-- `GetLeafShift` (PruneList.cpp:110-130). -/
def PruneList.leafShift (l : PruneList) (p : Nat) : Nat :=
  lookupShift l.roots l.leafShiftCache (p + 1)

/-- `GetTotalShift` (PruneList.cpp:83-86): `Index::At(maximum())`. -/
def PruneList.totalShift (l : PruneList) : Nat := l.shift (maximumOf l.roots)

/-- What `MMRHashUtil` sees of the prune list. -/
def PruneList.view (l : PruneList) : PruneView :=
  { compacted := l.isCompacted, shift := l.shift, total := l.totalShift }

end Verif.MMR
