import Verif.MMR.HashSpec
import Verif.MMR.IndexLemmas

/-!
# Helper lemmas on MMR hashing
-/
namespace Verif.MMR

theorem SubtreeL.toSubtree {s n h : Nat} (hs : SubtreeL s n h) : Subtree s h := by
  induction hs with
  | top h => exact Subtree.top h
  | left _ ih => exact ih.left
  | right _ ih => exact ih.right

theorem Subtree.toL {s h : Nat} (hs : Subtree s h) : ∃ n, SubtreeL s n h := by
  induction hs with
  | top h => exact ⟨0, SubtreeL.top h⟩
  | left _ ih => obtain ⟨n, hn⟩ := ih; exact ⟨n, hn.left⟩
  | right _ ih => obtain ⟨n, hn⟩ := ih; exact ⟨_, hn.right⟩

/-- Within a subtree, leaf numbers and positions run in parallel. -/
theorem leafPos_in_subtree {s n h : Nat} (hs : SubtreeL s n h) :
    ∀ j, j < 2 ^ h → leafPos (n + j) = s + leafPos j := by
  induction hs with
  | top h => intro j _; simp
  | @left s n h _ ih =>
    intro j hj
    apply ih
    have := Nat.pow_succ 2 h
    omega
  | @right s n h _ ih =>
    intro j hj
    have h1 := Nat.pow_succ 2 h
    have e := ih (2 ^ h + j) (by omega)
    rw [leafPos_pow_add hj] at e
    rw [Nat.add_assoc, e]
    omega

theorem SubtreeL.start {s n h : Nat} (hs : SubtreeL s n h) : s = leafPos n := by
  have := leafPos_in_subtree hs 0 (two_pow_pos' h)
  rw [leafPos_zero] at this
  simpa using this.symm

theorem SubtreeL.unique {s n n' h h' : Nat} (hs : SubtreeL s n h) (hs' : SubtreeL s n' h') : n = n' :=
  leafPos_inj (by rw [← hs.start, ← hs'.start])

/-- Positions after a subtree's last leaf up to the next leaf climb by one in height; so the root of
a subtree comes before the leaf that follows the subtree. -/
theorem rootPos_lt_leafPos {s n h : Nat} (hs : SubtreeL s n h) {N : Nat} (hN : n + 2 ^ h ≤ N) :
    rootPos s h < leafPos N := by
  -- the leaf number n + 2^h lies after the root
  have hlast : leafPos (n + (2 ^ h - 1)) = s + leafPos (2 ^ h - 1) :=
    leafPos_in_subtree hs _ (by have := two_pow_pos' h; omega)
  have hpos := two_pow_pos' h
  by_cases hle : leafPos N ≤ rootPos s h
  · exfalso
    -- leafPos N is a leaf inside the subtree's range, hence one of its leaves
    have hgt : s ≤ leafPos N := by
      have := leafPos_strictMono (show n < N by omega)
      rw [← hs.start] at this
      omega
    have hx : leafPos N - s ≤ 2 ^ (h + 1) - 2 := by simp only [rootPos] at hle; omega
    have h0 := ht_subtree hs.toSubtree (leafPos N - s) hx
    rw [show s + (leafPos N - s) = leafPos N by omega, ht_leafPos] at h0
    obtain ⟨m, hm, e⟩ := leafPos_surj hx h0.symm
    have e2 := leafPos_in_subtree hs m hm
    have : N = n + m := leafPos_inj (by omega)
    omega
  · omega

theorem SubtreeL.range {s n h : Nat} (hs : SubtreeL s n h) {N : Nat} (hN : rootPos s h < leafPos N) :
    n + 2 ^ h ≤ N := by
  by_cases hc : n + 2 ^ h ≤ N
  · exact hc
  · exfalso
    have h2 : N < n + 2 ^ h := by omega
    have hpos := two_pow_pos' h
    have hb : leafPos N ≤ leafPos (n + (2 ^ h - 1)) := by
      rcases Nat.lt_or_ge N (n + (2 ^ h - 1)) with h1 | h1
      · exact Nat.le_of_lt (leafPos_strictMono h1)
      · have : N = n + (2 ^ h - 1) := by omega
        rw [this]
    rw [leafPos_in_subtree hs _ (by omega)] at hb
    have := leafPos_lt (k := h) (n := 2 ^ h - 1) (by omega)
    simp only [rootPos] at hN
    omega

/-- The list holds at every position the hash of the subtree rooted there. -/
def Good (H : Bytes → Bytes) (leaf : Nat → Bytes) (file : List Bytes) : Prop :=
  ∀ s n h, SubtreeL s n h → rootPos s h < file.length →
    file[rootPos s h]? = some (treeHash H leaf h s n)

theorem fileAt_ok {file : List Bytes} {i : Nat} {x : Bytes} : fileAt file i = .ok x ↔ file[i]? = some x := by
  unfold fileAt
  cases file[i]? <;> simp

theorem isNode_subtreeL (p : Nat) : ∃ s n, SubtreeL s n (ht p) ∧ p = rootPos s (ht p) := by
  obtain ⟨s, hs, e⟩ := isNode_ht p
  obtain ⟨n, hn⟩ := hs.toL
  exact ⟨s, n, hn, e⟩

theorem rootPos_inj {s h s' h' : Nat} (hs : Subtree s h) (hs' : Subtree s' h')
    (e : rootPos s h = rootPos s' h') : s = s' ∧ h = h' := by
  have h1 := ht_rootPos hs
  have h2 := ht_rootPos hs'
  rw [e, h2] at h1
  subst h1
  simp only [rootPos] at e
  exact ⟨by omega, rfl⟩

/-- Pushing the hash of the subtree rooted at the next position keeps the list good. -/
theorem Good.push {H : Bytes → Bytes} {leaf : Nat → Bytes} {file : List Bytes} (hg : Good H leaf file)
    {s n h : Nat} (hs : SubtreeL s n h) (hp : file.length = rootPos s h) :
    Good H leaf (file ++ [treeHash H leaf h s n]) := by
  intro s' n' h' hs' hlt
  rw [List.length_append, List.length_singleton] at hlt
  by_cases hlast : rootPos s' h' = file.length
  · obtain ⟨e1, e2⟩ := rootPos_inj hs'.toSubtree hs.toSubtree (by rw [hlast, hp])
    subst e1; subst e2
    have := hs.unique hs'
    subst this
    rw [hlast]; simp
  · rw [List.getElem?_append_left (by omega)]
    exact hg s' n' h' hs' (by omega)

/-- One round of the parent loop computes the next inner node. -/
theorem addParents_step {H : Bytes → Bytes} {leaf : Nat → Bytes} {file : List Bytes} {fuel : Nat}
    (hg : Good H leaf file) (hl : file.length < 2 ^ 64) (hne : ht file.length ≠ 0) :
    ∃ x, addParents H none (fuel + 1) file file.length
        = addParents H none fuel (file ++ [x]) (file.length + 1) ∧ Good H leaf (file ++ [x]) := by
  obtain ⟨s, n, hs, e⟩ := isNode_subtreeL file.length
  obtain ⟨k, hk⟩ : ∃ k, ht file.length = k + 1 := ⟨ht file.length - 1, by omega⟩
  rw [hk] at hs e
  have h1 := Nat.pow_succ 2 (k + 1)
  have hpos := two_pow_pos' (k + 1)
  have e' := e
  simp only [rootPos] at e'
  have gl := hg s n k hs.left (by simp only [rootPos]; omega)
  have gr := hg _ _ k hs.right (by simp only [rootPos]; omega)
  refine ⟨treeHash H leaf (k + 1) s n, ?_, hg.push hs e⟩
  have hcalc : calcHeight file.length = k + 1 := by rw [calcHeight_eq hl, hk]
  have elc : (Index.at file.length).leftChild.pos = rootPos s k := by
    simp only [Index.at, Index.leftChild, hcalc, Nat.shiftLeft_eq, Nat.one_mul, rootPos]; omega
  have erc : (Index.at file.length).rightChild.pos = rootPos (s + (2 ^ (k + 1) - 1)) k := by
    simp only [Index.at, Index.rightChild, rootPos]; omega
  have hleaf : (Index.at file.length).isLeaf = false := by
    simp [Index.at, Index.isLeaf, hcalc]
  rw [addParents, hleaf, elc, erc]
  simp only [getHashAt, fileAt_ok.mpr gl, fileAt_ok.mpr gr, Res.ok_bind, Bool.false_eq_true, if_false]
  rw [hashParent, treeHash, ← e]

theorem addParents_stop {H : Bytes → Bytes} {file : List Bytes} {fuel : Nat} {pos : Nat}
    (hl : pos < 2 ^ 64) (h0 : ht pos = 0) : addParents H none (fuel + 1) file pos = .ok file := by
  rw [addParents]
  simp [Index.at, Index.isLeaf, calcHeight_eq hl, h0]

theorem addParents_run {H : Bytes → Bytes} {leaf : Nat → Bytes} (d : Nat) :
    ∀ {file : List Bytes} {fuel : Nat} {N : Nat}, Good H leaf file → file.length + d = leafPos N →
      (∀ q, file.length ≤ q → q < leafPos N → ht q ≠ 0) → leafPos N < 2 ^ 64 → d < fuel →
      ∃ ext, addParents H none fuel file file.length = .ok (file ++ ext) ∧ ext.length = d ∧
        Good H leaf (file ++ ext) := by
  induction d with
  | zero =>
    intro file fuel N hg hd _ hN hf
    obtain ⟨f, rfl⟩ : ∃ f, fuel = f + 1 := ⟨fuel - 1, by omega⟩
    refine ⟨[], ?_, rfl, by simpa using hg⟩
    rw [addParents_stop (by omega) (by rw [show file.length = leafPos N by omega]; exact ht_leafPos N)]
    simp
  | succ d ih =>
    intro file fuel N hg hd hne hN hf
    obtain ⟨f, rfl⟩ : ∃ f, fuel = f + 1 := ⟨fuel - 1, by omega⟩
    obtain ⟨x, hx, hgx⟩ := addParents_step (fuel := f) hg (by omega)
      (hne file.length (Nat.le_refl _) (by omega))
    have hlen : (file ++ [x]).length = file.length + 1 := by simp
    obtain ⟨ext, h1, h2, h3⟩ := ih (file := file ++ [x]) (fuel := f) (N := N) hgx (by omega)
      (fun q hq1 hq2 => hne q (by omega) hq2) hN (by omega)
    refine ⟨x :: ext, ?_, by simp [h2], ?_⟩
    · rw [hx, ← hlen, h1]; simp
    · simpa using h3

theorem ht_between {n q : Nat} (h1 : leafPos n < q) (h2 : q < leafPos (n + 1)) : ht q ≠ 0 := by
  intro h0
  obtain ⟨m, _, rfl⟩ := leafPos_surj (le_two_pow_sub q) h0
  have a : n < m := by
    rcases Nat.lt_trichotomy n m with h | h | h
    · exact h
    · subst h; omega
    · have := leafPos_strictMono h; omega
  have b : m < n + 1 := by
    rcases Nat.lt_trichotomy m (n + 1) with h | h | h
    · exact h
    · subst h; omega
    · have := leafPos_strictMono h; omega
  omega

theorem leafPos_step_le (n : Nat) : leafPos (n + 1) ≤ leafPos n + 2 + n := by
  unfold leafPos
  have := countBits_le n
  omega

theorem leafPos_ge_of_pos {n : Nat} : n ≤ leafPos n := leafPos_ge n

/-- The leaf hash is the height-zero tree hash. -/
theorem subtreeL_leaf (n : Nat) : SubtreeL (leafPos n) n 0 := by
  obtain ⟨s, m, hs, e⟩ := isNode_subtreeL (leafPos n)
  rw [ht_leafPos] at hs e
  have e2 : leafPos n = s := by simpa [rootPos] using e
  have : m = n := leafPos_inj (by rw [← hs.start, e2])
  subst this
  rw [e2]; exact hs

/-- Appending the next leaf extends the list with correct hashes up to the next size. -/
theorem addHashes_good {H : Bytes → Bytes} {leaf : Nat → Bytes} {file : List Bytes} {n : Nat}
    (hg : Good H leaf file) (hlen : file.length = leafPos n) (hb : leafPos (n + 1) < 2 ^ 64) :
    ∃ ext, addHashes H none file (leaf n) = .ok (file ++ ext) ∧
      (file ++ ext).length = leafPos (n + 1) ∧ Good H leaf (file ++ ext) := by
  have hroot : file.length = rootPos (leafPos n) 0 := by simp [rootPos, hlen]
  have hg1 := hg.push (subtreeL_leaf n) hroot
  have hlt : leafPos n < leafPos (n + 1) := leafPos_strictMono (Nat.lt_succ_self n)
  have hstep := leafPos_step_le n
  have hge := leafPos_ge n
  have hl1 : (file ++ [treeHash H leaf 0 (leafPos n) n]).length = leafPos n + 1 := by simp [hlen]
  obtain ⟨ext, h1, h2, h3⟩ := addParents_run (leafPos (n + 1) - (leafPos n + 1)) (N := n + 1)
    (fuel := leafPos n + 2) hg1 (by omega)
    (fun q hq1 hq2 => ht_between (n := n) (by omega) hq2) hb (by omega)
  refine ⟨treeHash H leaf 0 (leafPos n) n :: ext, ?_, ?_, by simpa using h3⟩
  · unfold addHashes
    simp only [Nat.add_zero]
    rw [hlen]
    rw [hl1] at h1
    have : hashLeaf H (leaf n) (leafPos n) = treeHash H leaf 0 (leafPos n) n := rfl
    rw [this, h1]; simp
  · simp only [List.length_append, List.length_cons, hlen]; omega

theorem appendAll_good {H : Bytes → Bytes} {leaf : Nat → Bytes} :
    ∀ (ls : List Bytes) {file : List Bytes} {n : Nat}, Good H leaf file → file.length = leafPos n →
      (∀ i, i < ls.length → leaf (n + i) = ls.getD i []) → leafPos (n + ls.length) < 2 ^ 64 →
      ∃ ext, appendAll H file ls = .ok (file ++ ext) ∧
        (file ++ ext).length = leafPos (n + ls.length) ∧ Good H leaf (file ++ ext) := by
  intro ls
  induction ls with
  | nil => intro file n hg hl _ _; exact ⟨[], by simp [appendAll], by simpa using hl, by simpa using hg⟩
  | cons l ls ih =>
    intro file n hg hl hleaf hb
    have h0 : leaf n = l := by simpa using hleaf 0 (by simp)
    have hle : leafPos (n + 1) ≤ leafPos (n + (l :: ls).length) := by
      rcases Nat.eq_zero_or_pos ls.length with h | h
      · simp [h]
      · exact Nat.le_of_lt (leafPos_strictMono (by simp only [List.length_cons]; omega))
    obtain ⟨e1, a1, a2, a3⟩ := addHashes_good hg hl (by omega)
    have hidx : n + 1 + ls.length = n + (l :: ls).length := by simp only [List.length_cons]; omega
    obtain ⟨e2, b1, b2, b3⟩ := ih a3 a2 (fun i hi => by
      have := hleaf (i + 1) (by simp only [List.length_cons]; omega)
      rw [show n + 1 + i = n + (i + 1) by omega, this]; simp) (by rw [hidx]; exact hb)
    refine ⟨e1 ++ e2, ?_, ?_, ?_⟩
    · rw [appendAll, ← h0, a1, Res.ok_bind, b1]; simp [List.append_assoc]
    · rw [← List.append_assoc, b2, hidx]
    · rw [← List.append_assoc]; exact b3

theorem good_nil (H : Bytes → Bytes) (leaf : Nat → Bytes) : Good H leaf [] := by
  intro s n h _ hlt; simp at hlt

/-! ## Roots -/

theorem rootLoop_append {H : Bytes → Bytes} {file ext : List Bytes} {size : Nat} :
    ∀ (ps : List Nat) (a : Bytes), (∀ p ∈ ps, p < file.length) →
      rootLoop H none (file ++ ext) size ps a = rootLoop H none file size ps a := by
  intro ps
  induction ps with
  | nil => intro a _; rfl
  | cons p ps ih =>
    intro a h
    have hp := h p (by simp)
    have : fileAt (file ++ ext) p = fileAt file p := by
      unfold fileAt
      rw [List.getElem?_append_left hp]
    simp only [rootLoop, shiftedIndex, this]
    cases fileAt file p with
    | ok x => simp only [Res.ok_bind]; exact ih _ (fun q hq => h q (by simp [hq]))
    | throw => rfl
    | ub => rfl

theorem peaksSpec_stable {k j N s n : Nat} (hkj : k ≤ j) (hN : N < 2 ^ k) :
    peaksSpec j N s n = peaksSpec k N s n := by
  induction j with
  | zero => have : k = 0 := by omega
            subst this; rfl
  | succ j ih =>
    by_cases h : k = j + 1
    · subst h; rfl
    · have : 2 ^ k ≤ 2 ^ j := Nat.pow_le_pow_right (by omega) (by omega)
      rw [peaksSpec, if_neg (by omega)]
      exact ih (by omega)

theorem rangePeaks_eq {k N : Nat} (h : N < 2 ^ k) : rangePeaks N = peaksSpec k N 0 0 := by
  unfold rangePeaks
  rcases Nat.le_total k N with hk | hk
  · exact peaksSpec_stable hk h
  · exact (peaksSpec_stable hk Nat.lt_two_pow_self).symm

theorem peakLoop_spec {k : Nat} : ∀ {N s n : Nat}, N < 2 ^ k →
    (peakLoop (2 ^ k - 1) (leafPos N) s).2 = (peaksSpec k N s n).map (fun t => rootPos t.1 t.2.2) := by
  induction k with
  | zero => intro N s n h
            have : N = 0 := by simpa using h
            subst this; rw [leafPos_zero, peakLoop_zero]; rfl
  | succ k ih =>
    intro N s n h
    have hpos := two_pow_pos' k
    have h1 := Nat.pow_succ 2 k
    rw [peakLoop_succ, peaksSpec]
    rcases split_pow h with hn | ⟨m, hm, rfl⟩
    · have := leafPos_lt hn
      rw [if_neg (by omega), if_neg (by omega)]
      exact ih hn
    · rw [leafPos_pow_add hm, if_pos (by omega), if_pos (by omega),
        show 2 ^ (k + 1) - 1 + leafPos m - (2 ^ (k + 1) - 1) = leafPos m by omega,
        show 2 ^ k + m - 2 ^ k = m by omega]
      simp only [List.map_cons, List.cons.injEq]
      exact ⟨by simp only [rootPos]; omega, ih hm⟩

theorem peakIndices_eq {N : Nat} (hN : leafPos N < 2 ^ 64) :
    peakIndices (leafPos N) = (rangePeaks N).map (fun t => rootPos t.1 t.2.2) := by
  have hge := leafPos_ge N
  unfold peakIndices
  by_cases h0 : leafPos N > 0
  · rw [if_pos h0]
    obtain ⟨k, hk, hlt, _⟩ := fillOnes_eq hN
    have f := peakLoop_fst k (leafPos N) 0
    have h1 := Nat.pow_succ 2 k
    rw [heightLoop_eq_ht (by omega), ht_leafPos] at f
    simp only [hk, f, Nat.lt_irrefl, if_false, gt_iff_lt]
    rw [peakLoop_spec (n := 0) (by omega), rangePeaks_eq (k := k) (by omega)]
  · rw [if_neg h0]
    have : N = 0 := by omega
    subst this
    rfl

theorem peaksSpec_mem {k : Nat} : ∀ {N s n : Nat}, N < 2 ^ k → SubtreeL s n k →
    ∀ t ∈ peaksSpec k N s n, SubtreeL t.1 t.2.1 t.2.2 ∧ n ≤ t.2.1 ∧ t.2.1 + 2 ^ t.2.2 ≤ n + N := by
  induction k with
  | zero => intro N s n _ _ t ht; simp [peaksSpec] at ht
  | succ k ih =>
    intro N s n h hs t ht
    rw [peaksSpec] at ht
    by_cases hN : N ≥ 2 ^ k
    · rw [if_pos hN] at ht
      rcases List.mem_cons.mp ht with rfl | ht
      · exact ⟨hs.left, Nat.le_refl _, by simp only; omega⟩
      · have h1 := Nat.pow_succ 2 k
        obtain ⟨a, b, c⟩ := ih (by omega) hs.right t ht
        exact ⟨a, by omega, by omega⟩
    · rw [if_neg hN] at ht
      exact ih (by omega) hs.left t ht

theorem rangePeaks_mem {N : Nat} {t : Nat × Nat × Nat} (h : t ∈ rangePeaks N) :
    SubtreeL t.1 t.2.1 t.2.2 ∧ t.2.1 + 2 ^ t.2.2 ≤ N := by
  obtain ⟨a, _, c⟩ := peaksSpec_mem (Nat.lt_two_pow_self (n := N)) (SubtreeL.top N) t h
  exact ⟨a, by omega⟩

theorem peaksSpec_size {k : Nat} : ∀ {N s n : Nat}, N < 2 ^ k →
    ((peaksSpec k N s n).map (fun t => 2 ^ (t.2.2 + 1) - 1)).sum = leafPos N := by
  induction k with
  | zero => intro N s n h
            have : N = 0 := by simpa using h
            subst this; rw [leafPos_zero]; rfl
  | succ k ih =>
    intro N s n h
    rw [peaksSpec]
    rcases split_pow h with hn | ⟨m, hm, rfl⟩
    · rw [if_neg (by omega)]; exact ih hn
    · rw [if_pos (by omega), show 2 ^ k + m - 2 ^ k = m by omega, leafPos_pow_add hm]
      simp only [List.map_cons, List.sum_cons, ih hm]

theorem rangeSize_eq (N : Nat) : rangeSize N = leafPos N := peaksSpec_size Nat.lt_two_pow_self

/-- Every leaf is below exactly one peak. -/
theorem peaksSpec_cover {k : Nat} : ∀ {N s n : Nat}, N < 2 ^ k →
    ∀ i, n ≤ i → i < n + N → ∃ t ∈ peaksSpec k N s n, t.2.1 ≤ i ∧ i < t.2.1 + 2 ^ t.2.2 := by
  induction k with
  | zero => intro N s n h i h1 h2
            have : N = 0 := by simpa using h
            omega
  | succ k ih =>
    intro N s n h i h1 h2
    rw [peaksSpec]
    by_cases hN : N ≥ 2 ^ k
    · rw [if_pos hN]
      by_cases hi : i < n + 2 ^ k
      · exact ⟨_, List.mem_cons_self, h1, hi⟩
      · have h3 := Nat.pow_succ 2 k
        obtain ⟨t, a, b⟩ := ih (N := N - 2 ^ k) (s := s + (2 ^ (k + 1) - 1)) (n := n + 2 ^ k)
          (by omega) i (by omega) (by omega)
        exact ⟨t, List.mem_cons_of_mem _ a, b⟩
    · rw [if_neg hN]
      exact ih (by omega) i h1 h2

theorem rootLoop_append_list {H : Bytes → Bytes} {file : List Bytes} {size : Nat} (pl : Option PruneView)
    (ps qs : List Nat) : ∀ a, rootLoop H pl file size (ps ++ qs) a =
      (rootLoop H pl file size ps a >>= fun b => rootLoop H pl file size qs b) := by
  induction ps with
  | nil => intro a; rfl
  | cons p ps ih =>
    intro a
    simp only [List.cons_append, rootLoop]
    cases fileAt file (shiftedIndex p pl) with
    | ok x => simp only [Res.ok_bind]; exact ih _
    | throw => rfl
    | ub => rfl

/-- The accumulator of `Root` over a list of peak hashes, from the right. -/
def bagStep (H : Bytes → Bytes) (size : Nat) (peak hash : Bytes) : Bytes :=
  if peak ≠ zeroHash then (if hash = zeroHash then peak else hashParent H peak hash size) else hash

theorem rootLoop_reverse {H : Bytes → Bytes} {file : List Bytes} {size : Nat} (pl : Option PruneView) :
    ∀ (ps : List Nat) (hs : List Bytes), ps.length = hs.length →
      (∀ i, i < ps.length → fileAt file (shiftedIndex (ps.getD i 0) pl) = .ok (hs.getD i [])) →
      rootLoop H pl file size ps.reverse zeroHash = .ok (hs.foldr (bagStep H size) zeroHash) := by
  intro ps
  induction ps with
  | nil => intro hs hl _
           have : hs = [] := List.length_eq_zero_iff.mp hl.symm
           subst this; rfl
  | cons p ps ih =>
    intro hs hl h
    cases hs with
    | nil => simp at hl
    | cons x hs =>
      have hl' : ps.length = hs.length := by simpa using hl
      rw [List.reverse_cons, rootLoop_append_list, ih hs hl' (fun i hi => by
        have := h (i + 1) (by simp only [List.length_cons]; omega)
        simpa using this)]
      have h0 := h 0 (by simp)
      simp only [List.getD_cons_zero] at h0
      simp only [Res.ok_bind, rootLoop, h0, List.foldr_cons]
      rfl

theorem foldr_bag {H : Bytes → Bytes} {size : Nat} : ∀ (hs : List Bytes),
    (∀ x ∈ hs, x ≠ zeroHash) → (∀ x ∈ bagInputs H size hs, H x ≠ zeroHash) →
    hs.foldr (bagStep H size) zeroHash = bag H size hs ∧ (hs ≠ [] → bag H size hs ≠ zeroHash) := by
  intro hs
  induction hs with
  | nil => intro _ _; exact ⟨rfl, fun h => absurd rfl h⟩
  | cons x hs ih =>
    intro h1 h2
    have hx := h1 x (by simp)
    cases hs with
    | nil =>
      refine ⟨?_, fun _ => hx⟩
      simp [bagStep, hx, bag]
    | cons y ys =>
      obtain ⟨e, ne⟩ := ih (fun z hz => h1 z (by simp [hz])) (fun z hz => h2 z (by
        rw [bagInputs]; exact List.mem_cons_of_mem _ hz))
      rw [List.foldr_cons, e]
      have hn := ne (by simp)
      refine ⟨?_, fun _ => ?_⟩
      · simp only [bagStep, hx, ne_eq, not_false_eq_true, if_true, hn, if_false, bag, hashParent]
      · rw [bag]; exact h2 _ (by rw [bagInputs]; simp)

theorem treeHash_mem_inputs (H : Bytes → Bytes) (leaf : Nat → Bytes) (h s n : Nat) :
    ∃ x ∈ treeInputs H leaf h s n, treeHash H leaf h s n = H x := by
  cases h with
  | zero => exact ⟨_, by simp [treeInputs], rfl⟩
  | succ h => exact ⟨_, by rw [treeInputs]; exact List.mem_cons_self, rfl⟩

theorem treeHash_injective {H : Bytes → Bytes} (hlen : ∀ x, (H x).length = 32) {f g : Nat → Bytes}
    {S : Bytes → Prop} (hinj : ∀ x y, S x → S y → H x = H y → x = y) (h : Nat) :
    ∀ s n, (∀ x ∈ treeInputs H f h s n, S x) → (∀ x ∈ treeInputs H g h s n, S x) →
      treeHash H f h s n = treeHash H g h s n → ∀ i, i < 2 ^ h → f (n + i) = g (n + i) := by
  induction h with
  | zero =>
    intro s n hf hg e i hi
    have : i = 0 := by simpa using hi
    subst this
    have := hinj _ _ (hf _ (by simp [treeInputs])) (hg _ (by simp [treeInputs])) e
    exact List.append_cancel_left this
  | succ h ih =>
    intro s n hf hg e i hi
    have e2 := hinj _ _ (hf _ (by rw [treeInputs]; exact List.mem_cons_self))
      (hg _ (by rw [treeInputs]; exact List.mem_cons_self)) e
    have e3 := List.append_cancel_left e2
    have hl : ∀ (f : Nat → Bytes) h s n, (treeHash H f h s n).length = 32 := by
      intro f h s n; obtain ⟨x, _, e⟩ := treeHash_mem_inputs H f h s n; rw [e]; exact hlen x
    obtain ⟨el, er⟩ := List.append_inj e3 (by rw [hl, hl])
    have h1 := Nat.pow_succ 2 h
    rw [treeInputs] at hf hg
    by_cases hi' : i < 2 ^ h
    · exact ih s n (fun x hx => hf x (by simp [hx])) (fun x hx => hg x (by simp [hx])) el i hi'
    · have := ih _ _ (fun x hx => hf x (by simp [hx])) (fun x hx => hg x (by simp [hx])) er
        (i - 2 ^ h) (by omega)
      rw [show n + 2 ^ h + (i - 2 ^ h) = n + i by omega] at this
      exact this

theorem bag_injective {H : Bytes → Bytes} {size : Nat}
    {S : Bytes → Prop} (hinj : ∀ x y, S x → S y → H x = H y → x = y) : ∀ (xs ys : List Bytes),
      xs.length = ys.length → (∀ x ∈ xs, x.length = 32) → (∀ x ∈ ys, x.length = 32) →
      (∀ x ∈ bagInputs H size xs, S x) → (∀ x ∈ bagInputs H size ys, S x) →
      bag H size xs = bag H size ys → xs = ys := by
  intro xs
  induction xs with
  | nil => intro ys hl _ _ _ _ _; exact (List.length_eq_zero_iff.mp hl.symm).symm
  | cons x xs ih =>
    intro ys hl hx hy sx sy e
    cases ys with
    | nil => simp at hl
    | cons y ys =>
      cases xs with
      | nil =>
        have : ys = [] := List.length_eq_zero_iff.mp (by simpa using hl.symm)
        subst this
        simp only [bag] at e
        rw [e]
      | cons x2 xs =>
        cases ys with
        | nil => simp at hl
        | cons y2 ys =>
          rw [bagInputs] at sx sy
          simp only [bag] at e
          have e2 := List.append_cancel_left (hinj _ _ (sx _ (by simp)) (sy _ (by simp)) e)
          obtain ⟨a, b⟩ := List.append_inj e2 (by rw [hx x (by simp), hy y (by simp)])
          have := ih (y2 :: ys) (by simpa using hl) (fun z hz => hx z (by simp [hz]))
            (fun z hz => hy z (by simp [hz])) (fun z hz => sx z (by simp [hz]))
            (fun z hz => sy z (by simp [hz])) b
          rw [a, this]

/-- `Root` on a good list is the range root of the specification. -/
theorem root_good {H : Bytes → Bytes} {leaf : Nat → Bytes} {file : List Bytes} {N : Nat}
    (hg : Good H leaf file) (hl : leafPos N ≤ file.length) (hb : leafPos N < 2 ^ 64)
    (hz : ∀ x ∈ rangeInputs H leaf N, H x ≠ zeroHash) :
    root H none file (leafPos N) = .ok (rangeRoot H leaf N) := by
  unfold root
  by_cases h0 : leafPos N = 0
  · rw [if_pos h0]
    have : N = 0 := by have := leafPos_ge N; omega
    subst this; rfl
  · rw [if_neg h0, peakIndices_eq hb]
    rw [rootLoop_reverse none _ (peakHashes H leaf N) (by simp [peakHashes])]
    · congr 1
      have hz1 : ∀ x ∈ peakHashes H leaf N, x ≠ zeroHash := by
        intro x hx
        simp only [peakHashes, List.mem_map] at hx
        obtain ⟨t, ht, rfl⟩ := hx
        obtain ⟨y, hy, e⟩ := treeHash_mem_inputs H leaf t.2.2 t.1 t.2.1
        rw [e]
        exact hz y (by
          rw [rangeInputs]
          exact List.mem_append_left _ (List.mem_flatMap.mpr ⟨t, ht, hy⟩))
      have := foldr_bag (H := H) (size := leafPos N) (peakHashes H leaf N) hz1 (fun x hx => hz x (by
        rw [rangeInputs, rangeSize_eq]; exact List.mem_append_right _ hx))
      rw [this.1, rangeRoot, rangeSize_eq]
    · intro i hi
      rw [List.length_map] at hi
      simp only [shiftedIndex, peakHashes]
      rw [List.getD_eq_getElem _ _ (by simpa using hi), List.getD_eq_getElem _ _ (by simpa using hi)]
      simp only [List.getElem_map]
      have hm := rangePeaks_mem (List.getElem_mem hi)
      rw [fileAt_ok]
      exact hg _ _ _ hm.1 (Nat.lt_of_lt_of_le (rootPos_lt_leafPos hm.1 hm.2) hl)

end Verif.MMR
