import Verif.MMR.Hash
import Verif.MMR.Tree

/-!
# Specification: hash of a subtree, and of the whole range
-/
namespace Verif.MMR

/-- `SubtreeL s n h`: the perfect subtree of height `h` laid out from position `s` holds the leaves
number `n, …, n + 2^h - 1`. -/
inductive SubtreeL : Nat → Nat → Nat → Prop
  | top (h : Nat) : SubtreeL 0 0 h
  | left {s n h : Nat} : SubtreeL s n (h + 1) → SubtreeL s n h
  | right {s n h : Nat} : SubtreeL s n (h + 1) → SubtreeL (s + (2 ^ (h + 1) - 1)) (n + 2 ^ h) h

/-- Hash of the subtree of height `h` from position `s` with first leaf `n`: a leaf hashes its
position and content, an inner node its position and its two subtrees' hashes. -/
def treeHash (H : Bytes → Bytes) (leaf : Nat → Bytes) : Nat → Nat → Nat → Bytes
  | 0, s, n => H (beBytes 8 s ++ leaf n)
  | h + 1, s, n =>
    H (beBytes 8 (rootPos s (h + 1)) ++
      (treeHash H leaf h s n ++ treeHash H leaf h (s + (2 ^ (h + 1) - 1)) (n + 2 ^ h)))

/-- The byte strings hashed in computing `treeHash`. -/
def treeInputs (H : Bytes → Bytes) (leaf : Nat → Bytes) : Nat → Nat → Nat → List Bytes
  | 0, s, n => [beBytes 8 s ++ leaf n]
  | h + 1, s, n =>
    (beBytes 8 (rootPos s (h + 1)) ++
      (treeHash H leaf h s n ++ treeHash H leaf h (s + (2 ^ (h + 1) - 1)) (n + 2 ^ h))) ::
    (treeInputs H leaf h s n ++ treeInputs H leaf h (s + (2 ^ (h + 1) - 1)) (n + 2 ^ h))

end Verif.MMR

namespace Verif.MMR

/-- The perfect trees a range of `N < 2^k` leaves consists of, largest first, starting at position
`s` and leaf `n`: triples (start position, first leaf, height). -/
def peaksSpec : Nat → Nat → Nat → Nat → List (Nat × Nat × Nat)
  | 0, _, _, _ => []
  | k + 1, N, s, n =>
    if N ≥ 2 ^ k then (s, n, k) :: peaksSpec k (N - 2 ^ k) (s + (2 ^ (k + 1) - 1)) (n + 2 ^ k)
    else peaksSpec k N s n

/-- Peaks of the range with `N` leaves. -/
def rangePeaks (N : Nat) : List (Nat × Nat × Nat) := peaksSpec N N 0 0

/-- Bagging the peaks: combine from the right, with the size as index. -/
def bag (H : Bytes → Bytes) (size : Nat) : List Bytes → Bytes
  | [] => zeroHash
  | [x] => x
  | x :: y :: xs => H (beBytes 8 size ++ (x ++ bag H size (y :: xs)))

/-- The byte strings hashed in bagging. -/
def bagInputs (H : Bytes → Bytes) (size : Nat) : List Bytes → List Bytes
  | [] => []
  | [_] => []
  | x :: y :: xs => (beBytes 8 size ++ (x ++ bag H size (y :: xs))) :: bagInputs H size (y :: xs)

/-- Hashes of the peaks. -/
def peakHashes (H : Bytes → Bytes) (leaf : Nat → Bytes) (N : Nat) : List Bytes :=
  (rangePeaks N).map (fun t => treeHash H leaf t.2.2 t.1 t.2.1)

/-- Number of nodes of the range with `N` leaves: `2^(h+1) - 1` for each peak. -/
def rangeSize (N : Nat) : Nat := ((rangePeaks N).map (fun t => 2 ^ (t.2.2 + 1) - 1)).sum

/-- Root of the range with `N` leaves. -/
def rangeRoot (H : Bytes → Bytes) (leaf : Nat → Bytes) (N : Nat) : Bytes :=
  bag H (rangeSize N) (peakHashes H leaf N)

/-- All byte strings hashed in computing the root. -/
def rangeInputs (H : Bytes → Bytes) (leaf : Nat → Bytes) (N : Nat) : List Bytes :=
  (rangePeaks N).flatMap (fun t => treeInputs H leaf t.2.2 t.1 t.2.1) ++
    bagInputs H (rangeSize N) (peakHashes H leaf N)

end Verif.MMR
