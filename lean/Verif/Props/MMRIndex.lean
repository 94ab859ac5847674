import Verif.MMR.IndexLemmas

/-!
# C16, C17, C18: MMR index arithmetic, leaf numbering, peaks

The specification is the layout of the infinite mountain range in `Verif/MMR/Tree.lean`: `IsNode p h`
(position `p` is the root of a perfect subtree of height `h`) and `Children l r p`.  The bounds
`2^64`, `2^62` are the widths of the C++ integers, not bounds of the proof.
-/
namespace Verif.Props

open Verif.MMR

/-- **C16.** The computed height of a position is its height in the tree: positions and heights
correspond, each position having exactly one. -/
theorem height_correct (p h : Nat) (hp : p < 2 ^ 64) : calcHeight p = h ↔ IsNode p h := by
  rw [calcHeight_eq hp, isNode_iff]

/-- **C16.** Every position is a node of exactly one height. -/
theorem node_height_unique (p : Nat) : ∃ h, IsNode p h ∧ ∀ h', IsNode p h' → h' = h :=
  ⟨ht p, isNode_ht p, fun h' hh => ((isNode_iff p h').mp hh).symm⟩

/-- **C16.** A position is a leaf exactly if its computed height is zero: no node has it as
parent of children. -/
theorem leaf_iff_no_children (p : Nat) (hp : p < 2 ^ 64) :
    (Index.at p).isLeaf = true ↔ ¬ ∃ l r, Children l r p := by
  simp only [Index.at, Index.isLeaf, beq_iff_eq, calcHeight_eq hp]
  constructor
  · rintro h ⟨l, r, s, k, hs, rfl, _, _⟩
    rw [ht_rootPos hs] at h
    omega
  · intro h
    rcases Nat.eq_zero_or_pos (ht p) with h0 | h0
    · exact h0
    · exfalso
      apply h
      obtain ⟨s, hs, e⟩ := isNode_ht p
      obtain ⟨k, hk⟩ : ∃ k, ht p = k + 1 := ⟨ht p - 1, by omega⟩
      rw [hk] at hs e
      exact ⟨_, _, s, k, hs, e, rfl, rfl⟩

/-- **C16.** For a node with children `l` and `r`, the computed children of the node are `l` and `r`,
the computed parent of each is the node, they are each other's sibling, and heights differ by one. -/
theorem family_correct (l r p : Nat) (hp : p < 2 ^ 64) (h : Children l r p) :
    (Index.at p).leftChild = Index.at l ∧ (Index.at p).rightChild = Index.at r ∧
    (Index.at l).parent = Index.at p ∧ (Index.at r).parent = Index.at p ∧
    (Index.at l).sibling = Index.at r ∧ (Index.at r).sibling = Index.at l ∧
    l < r ∧ r < p ∧ calcHeight l + 1 = calcHeight p ∧ calcHeight r + 1 = calcHeight p := by
  obtain ⟨s, k, hs, ep, el, er⟩ := h
  have h1 := Nat.pow_succ 2 k
  have h2 := Nat.pow_succ 2 (k + 1)
  have hpos := two_pow_pos' k
  simp only [rootPos] at ep el er
  have hhp : calcHeight p = k + 1 := by
    rw [calcHeight_eq hp, ep]; exact ht_rootPos hs
  have hhl : calcHeight l = k := by
    rw [calcHeight_eq (by omega), el]; exact ht_rootPos hs.left
  have hhr : calcHeight r = k := by
    rw [calcHeight_eq (by omega), er]; exact ht_rootPos hs.right
  have hl1 : calcHeight (l + 1) = 0 := by
    rw [calcHeight_eq (by omega), show l + 1 = s + (2 ^ (k + 1) - 1) by omega]
    exact ht_start hs.right
  have hr1 : calcHeight (r + 1) = k + 1 := by
    rw [show r + 1 = p by omega]; exact hhp
  simp only [Index.at, Index.leftChild, Index.rightChild, Index.parent, Index.sibling, hhp, hhl, hhr,
    hl1, hr1, Nat.shiftLeft_eq, Nat.one_mul, if_true, if_false, Index.mk.injEq, Nat.add_sub_cancel,
    show ¬ (0 = k + 1) by omega]
  refine ⟨⟨?_, trivial⟩, ⟨?_, trivial⟩, ⟨?_, trivial⟩, ⟨?_, trivial⟩, ⟨?_, trivial⟩, ⟨?_, trivial⟩,
    ?_, ?_, trivial, trivial⟩ <;> omega

/-- **C16.** Every position is a child: it has a parent and a sibling, and these are the computed
ones. -/
theorem parent_sibling_correct (p : Nat) (hp : p < 2 ^ 62) :
    Children p (Index.at p).sibling.pos (Index.at p).parent.pos ∨
    Children (Index.at p).sibling.pos p (Index.at p).parent.pos := by
  obtain ⟨s, hs, e⟩ := isNode_ht p
  have hb := ht_bound p
  generalize ht p = k at *
  simp only [rootPos] at e
  have h1 := Nat.pow_succ 2 k
  have h2 := Nat.pow_succ 2 (k + 1)
  have hpos := two_pow_pos' k
  rcases subtree_cases hs with h | ⟨s', h, e'⟩
  · have hc : Children p (rootPos (s + (2 ^ (k + 1) - 1)) k) (rootPos s (k + 1)) :=
      ⟨s, k, h, rfl, e, rfl⟩
    have := family_correct _ _ _ (by simp only [rootPos]; omega) hc
    rw [this.2.2.1, this.2.2.2.2.1]
    exact Or.inl hc
  · have hc : Children (rootPos s' k) p (rootPos s' (k + 1)) :=
      ⟨s', k, h, rfl, rfl, by rw [e, e']; rfl⟩
    have := family_correct _ _ _ (by simp only [rootPos]; omega) hc
    rw [this.2.2.2.1, this.2.2.2.2.2.1]
    exact Or.inr hc

/-- **C16.** Below 2^62 none of the 64-bit computations of the C++ wraps: shifts stay below 64 and
sums below 2^64, and subtractions do not go below zero. -/
theorem index_no_wrap (p : Nat) (hp : p < 2 ^ 62) :
    calcHeight p + 1 < 64 ∧ p + 1 < 2 ^ 64 ∧ p + 2 ^ (calcHeight p + 1) < 2 ^ 64 ∧
    (calcHeight (p + 1) = calcHeight p + 1 → 2 ^ (calcHeight p + 1) ≤ p + 1) ∧
    (0 < calcHeight p → 2 ^ calcHeight p ≤ p) := by
  have hb := ht_bound p
  rw [calcHeight_eq (by omega), calcHeight_eq (by omega)]
  have h62 : ht p + 1 < 64 := by
    have hlt : 2 ^ (ht p + 1) < 2 ^ 63 := by omega
    have := (Nat.pow_lt_pow_iff_right (by omega : 1 < 2)).mp hlt
    omega
  have h1 := Nat.pow_succ 2 (ht p)
  have hpos := two_pow_pos' (ht p)
  refine ⟨h62, by omega, by omega, ?_, ?_⟩
  · intro h
    have hb' := ht_bound (p + 1)
    rw [h] at hb'
    have h2 := Nat.pow_succ 2 (ht p + 1)
    omega
  · intro h
    have h2 : 2 ^ ht p = 2 ^ (ht p - 1) * 2 := by
      rw [← Nat.pow_succ]; congr 1; omega
    have := two_pow_pos' (ht p - 1)
    omega

/-- **C17.** The positions `2n - popcount n` are exactly the leaves. -/
theorem leafPos_iff_leaf (p : Nat) (hp : p < 2 ^ 64) :
    calcHeight p = 0 ↔ ∃ n, p = leafPos n := by
  rw [calcHeight_eq hp]
  constructor
  · intro h
    obtain ⟨n, _, e⟩ := leafPos_surj (le_two_pow_sub p) h
    exact ⟨n, e⟩
  · rintro ⟨n, rfl⟩; exact ht_leafPos n

/-- **C17.** Leaf positions increase strictly with the leaf number, starting from 0; so the n-th
leaf, counting from zero, is at `2n - popcount n`. -/
theorem leafPos_increasing (a b : Nat) : a < b ↔ leafPos a < leafPos b := by
  constructor
  · exact leafPos_strictMono
  · intro h
    rcases Nat.lt_trichotomy a b with h1 | h1 | h1
    · exact h1
    · subst h1; omega
    · have := leafPos_strictMono h1; omega

/-- **C17.** The number of leaves before the n-th leaf's position is n. -/
theorem leafPos_counts (n : Nat) (hn : leafPos n < 2 ^ 64) :
    ((List.range (leafPos n)).filter (fun p => calcHeight p = 0)).length = n := by
  induction n with
  | zero => simp [leafPos_zero]
  | succ n ih =>
    have hlt : leafPos n < leafPos (n + 1) := leafPos_strictMono (Nat.lt_succ_self n)
    have ih := ih (by omega)
    obtain ⟨d, hd⟩ : ∃ d, leafPos (n + 1) = leafPos n + 1 + d := ⟨leafPos (n + 1) - leafPos n - 1, by omega⟩
    have gap : ∀ e, e ≤ d → ((List.range (leafPos n + 1 + e)).filter
        (fun p => calcHeight p = 0)).length = n + 1 := by
      intro e
      induction e with
      | zero =>
        intro _
        rw [Nat.add_zero, List.range_succ, List.filter_append, List.length_append, ih]
        simp [calcHeight_eq (show leafPos n < 2 ^ 64 by omega), ht_leafPos]
      | succ e ihe =>
        intro he
        rw [← Nat.add_assoc, List.range_succ, List.filter_append, List.length_append,
          ihe (by omega)]
        have hne : ¬ calcHeight (leafPos n + 1 + e) = 0 := by
          intro h0
          obtain ⟨m, hm⟩ := (leafPos_iff_leaf _ (by omega)).mp h0
          have a1 := (leafPos_increasing n m).mpr (by omega)
          have a2 := (leafPos_increasing m (n + 1)).mpr (by omega)
          omega
        simp [hne]
    rw [hd]
    exact gap d (Nat.le_refl _)

/-- **C17.** The position-to-leaf-number computation inverts the leaf-number-to-position one. -/
theorem leafIndex_roundtrip (n : Nat) (hn : leafPos n < 2 ^ 64) : leafIndexAt (leafPos n) = n :=
  calcLeafIndex_leafPos hn

/-- **C17.** … and conversely at every leaf. -/
theorem leafIndex_roundtrip' (p : Nat) (hp : p < 2 ^ 64) (hl : calcHeight p = 0) :
    leafPos (leafIndexAt p) = p := by
  obtain ⟨n, rfl⟩ := (leafPos_iff_leaf p hp).mp hl
  rw [leafIndex_roundtrip n hp]

/-- Spec of a peak list: `Tiles ps s e H` says that the peaks `ps` are the roots of perfect subtrees
of strictly decreasing heights below `H` which, one after the other, fill positions `s, …, e-1`. -/
inductive Tiles : List Nat → Nat → Nat → Nat → Prop
  | nil (e H : Nat) : Tiles [] e e H
  | cons {ps : List Nat} {s e H h : Nat} : h < H → Subtree s h →
      Tiles ps (rootPos s h + 1) e h → Tiles (rootPos s h :: ps) s e H

theorem tiles_loop {k : Nat} : ∀ {n s : Nat}, n < 2 ^ k → Subtree s k →
    Tiles (peakLoop (2 ^ k - 1) (leafPos n) s).2 s (s + leafPos n) k := by
  induction k with
  | zero =>
    intro n s h _
    have : n = 0 := by simpa using h
    subst this
    rw [peakLoop_zero, leafPos_zero]
    exact Tiles.nil _ _
  | succ k ih =>
    intro n s h hs
    have hpos := two_pow_pos' k
    have h1 := Nat.pow_succ 2 k
    rw [peakLoop_succ]
    rcases split_pow h with hn | ⟨m, hm, rfl⟩
    · have := leafPos_lt hn
      rw [if_neg (by omega)]
      have t := ih hn hs.left
      revert t
      generalize (peakLoop (2 ^ k - 1) (leafPos n) s).2 = ps
      generalize s + leafPos n = e
      intro t
      cases t with
      | nil => exact Tiles.nil _ _
      | cons a b c => exact Tiles.cons (by omega) b c
    · rw [leafPos_pow_add hm, if_pos (by omega),
        show 2 ^ (k + 1) - 1 + leafPos m - (2 ^ (k + 1) - 1) = leafPos m by omega]
      have t := ih hm hs.right
      have e1 : s + (2 ^ (k + 1) - 1) - 1 = rootPos s k := by simp only [rootPos]; omega
      have e2 : s + (2 ^ (k + 1) - 1) = rootPos s k + 1 := by simp only [rootPos]; omega
      rw [e1]
      refine Tiles.cons (Nat.lt_succ_self k) hs.left ?_
      rw [e2] at t ⊢
      have e3 : rootPos s k + 1 + leafPos m = s + (2 ^ (k + 1) - 1 + leafPos m) := by omega
      rw [e3] at t
      exact t

/-- **C18.** For a size reached by appending `n` leaves the peaks are roots of perfect subtrees of
strictly decreasing height that fill exactly the positions below the size. -/
theorem peaks_tile (n : Nat) (hn : leafPos n < 2 ^ 64) :
    ∃ H, Tiles (peakIndices (leafPos n)) 0 (leafPos n) H := by
  unfold peakIndices
  by_cases h0 : leafPos n > 0
  · rw [if_pos h0]
    obtain ⟨k, hk, hlt, _⟩ := fillOnes_eq hn
    have hge := leafPos_ge n
    have t := tiles_loop (show n < 2 ^ k by omega) (Subtree.top k)
    have f := peakLoop_fst k (leafPos n) 0
    have h1 := Nat.pow_succ 2 k
    rw [heightLoop_eq_ht (by omega), ht_leafPos] at f
    simp only [hk, f, Nat.lt_irrefl, if_false, gt_iff_lt]
    rw [Nat.zero_add] at t
    exact ⟨k, t⟩
  · rw [if_neg h0]
    have : leafPos n = 0 := by omega
    rw [this]
    exact ⟨0, Tiles.nil _ _⟩

/-- **C18.** For every other size the peak list is empty. -/
theorem peaks_invalid (size : Nat) (hs : size < 2 ^ 64) (hinv : ¬ ∃ n, size = leafPos n) :
    peakIndices size = [] := by
  unfold peakIndices
  by_cases h0 : size > 0
  · rw [if_pos h0]
    obtain ⟨k, hk, hlt, _⟩ := fillOnes_eq hs
    have f := peakLoop_fst k size 0
    have h1 := Nat.pow_succ 2 k
    rw [heightLoop_eq_ht (by omega)] at f
    have : ht size ≠ 0 := by
      intro h
      exact hinv ((leafPos_iff_leaf size hs).mp (by rw [calcHeight_eq hs, h]))
    simp only [hk, f]
    rw [if_pos (by omega)]
  · rw [if_neg h0]

/-! ## The hypotheses are met by concrete cases -/

/-- Position 6 has children 2 and 5, and 2 has children 0 and 1. -/
example : Children 2 5 6 ∧ Children 0 1 2 := by
  refine ⟨⟨0, 1, Subtree.top 2, ?_, ?_, ?_⟩, ⟨0, 0, Subtree.top 1, ?_, ?_, ?_⟩⟩ <;> simp [rootPos]

/-- Eleven leaves make a range of 19 nodes. -/
example : leafPos 11 = 19 := by decide +kernel

/-- Size 19 has the peaks 14, 17, 18; size 5 is no mountain range. -/
example : peakIndices 19 = [14, 17, 18] ∧ peakIndices 5 = [] := by decide +kernel

end Verif.Props
