/-!
# MMR index arithmetic

Model of `src/PMMR/Common/Index.cpp`, `include/PMMR/Common/Index.h`,
`include/PMMR/Common/LeafIndex.h`, `src/PMMR/Common/MMRUtil.cpp` and the helpers of
`include/Common/Util/BitUtil.h`.  Positions are 64-bit in the C++; the model uses unbounded naturals,
and `Verif.Props.index_no_wrap` shows nothing wraps below 2^62.
-/
namespace Verif.MMR

/-- `BitUtil::FillOnesToRight` (BitUtil.h:9-19). -/
def fillOnes (x0 : Nat) : Nat :=
  let x1 := x0 ||| (x0 >>> 1)
  let x2 := x1 ||| (x1 >>> 2)
  let x3 := x2 ||| (x2 >>> 4)
  let x4 := x3 ||| (x3 >>> 8)
  let x5 := x4 ||| (x4 >>> 16)
  x5 ||| (x5 >>> 32)

/-- `BitUtil::CountBitsSet` (BitUtil.h:21-31); the 8-bit counter cannot overflow on 64 bits. -/
def countBits (n : Nat) : Nat := if n = 0 then 0 else (n &&& 1) + countBits (n >>> 1)
termination_by n
decreasing_by
  rw [Nat.shiftRight_eq_div_pow]
  exact Nat.div_lt_self (Nat.pos_of_ne_zero ‹_›) (by decide)

/-- The loop of `Index::CalculateHeight` (Index.cpp:56-62). -/
def heightLoop (peakSize height : Nat) : Nat :=
  if peakSize = 0 then height
  else heightLoop (peakSize >>> 1) (if height ≥ peakSize then height - peakSize else height)
termination_by peakSize
decreasing_by
  rw [Nat.shiftRight_eq_div_pow]
  exact Nat.div_lt_self (Nat.pos_of_ne_zero ‹_›) (by decide)

/-- `Index::CalculateHeight` (Index.cpp:52-65). -/
def calcHeight (position : Nat) : Nat := heightLoop (fillOnes position) position

/-- The loop of `Index::CalculateLeafIndex` (Index.cpp:73-80). -/
def leafLoop (peakSize numLeft leafIndex : Nat) : Nat :=
  if peakSize = 0 then leafIndex
  else if numLeft ≥ peakSize then
    leafLoop (peakSize >>> 1) (numLeft - peakSize) (leafIndex + (peakSize + 1) / 2)
  else leafLoop (peakSize >>> 1) numLeft leafIndex
termination_by peakSize
decreasing_by all_goals
  rw [Nat.shiftRight_eq_div_pow]
  exact Nat.div_lt_self (Nat.pos_of_ne_zero ‹_›) (by decide)

/-- `Index::CalculateLeafIndex` (Index.cpp:67-83). -/
def calcLeafIndex (position : Nat) : Nat := leafLoop (fillOnes position) position 0

/-- `Index` (Index.h:88-89): position and height. -/
structure Index where
  pos : Nat
  height : Nat
deriving DecidableEq, Repr

/-- `Index::At` (Index.cpp:4-7). -/
def Index.at (position : Nat) : Index := ⟨position, calcHeight position⟩

/-- `Index::IsLeaf` (Index.h:51). -/
def Index.isLeaf (i : Index) : Bool := i.height == 0

/-- `Index::GetParent` (Index.cpp:16-25). -/
def Index.parent (i : Index) : Index :=
  if calcHeight (i.pos + 1) = i.height + 1 then ⟨i.pos + 1, i.height + 1⟩
  else ⟨i.pos + 1 <<< (i.height + 1), i.height + 1⟩

/-- `Index::GetSibling` (Index.cpp:27-36). -/
def Index.sibling (i : Index) : Index :=
  if calcHeight (i.pos + 1) = i.height + 1 then ⟨i.pos + 1 - 1 <<< (i.height + 1), i.height⟩
  else ⟨i.pos + 1 <<< (i.height + 1) - 1, i.height⟩

/-- `Index::GetLeftChild` (Index.cpp:38-43). -/
def Index.leftChild (i : Index) : Index := ⟨i.pos - 1 <<< i.height, i.height - 1⟩

/-- `Index::GetRightChild` (Index.cpp:45-50). -/
def Index.rightChild (i : Index) : Index := ⟨i.pos - 1, i.height - 1⟩

/-- Position of `LeafIndex::At(n)` (LeafIndex.h:19-22). -/
def leafPos (n : Nat) : Nat := 2 * n - countBits n

/-- `LeafIndex::AtPos` / `Index::GetLeafIndex` (LeafIndex.h:24-32, Index.cpp:9-14). -/
def leafIndexAt (position : Nat) : Nat := calcLeafIndex position

/-- The loop of `MMRUtil::GetPeakIndices` (MMRUtil.cpp:16-24): remaining nodes and peaks found. -/
def peakLoop (peakSize numLeft sumPrev : Nat) : Nat × List Nat :=
  if peakSize = 0 then (numLeft, [])
  else if numLeft ≥ peakSize then
    let r := peakLoop (peakSize >>> 1) (numLeft - peakSize) (sumPrev + peakSize)
    (r.1, (sumPrev + peakSize - 1) :: r.2)
  else peakLoop (peakSize >>> 1) numLeft sumPrev
termination_by peakSize
decreasing_by all_goals
  rw [Nat.shiftRight_eq_div_pow]
  exact Nat.div_lt_self (Nat.pos_of_ne_zero ‹_›) (by decide)

/-- `MMRUtil::GetPeakIndices` (MMRUtil.cpp:9-32). -/
def peakIndices (size : Nat) : List Nat :=
  if size > 0 then
    let r := peakLoop (fillOnes size) size 0
    if r.1 > 0 then [] else r.2
  else []

end Verif.MMR
