import Verif.MMR.Prune
import Verif.MMR.HashLemmas

/-!
# Helper lemmas on the prune list
-/
namespace Verif.MMR

/-- First position of the subtree rooted at `p`. -/
def startOf (p : Nat) : Nat := p - (2 ^ (ht p + 1) - 2)

/-- `p` lies in the subtree rooted at `r`. -/
def InSub (p r : Nat) : Prop := startOf r ≤ p ∧ p ≤ r

theorem startOf_rootPos {s h : Nat} (hs : Subtree s h) : startOf (rootPos s h) = s := by
  unfold startOf
  rw [ht_rootPos hs]
  simp only [rootPos]; omega

theorem subtree_startOf (p : Nat) : Subtree (startOf p) (ht p) ∧ p = rootPos (startOf p) (ht p) := by
  obtain ⟨s, hs, e⟩ := isNode_ht p
  have : startOf p = s := by
    unfold startOf; simp only [rootPos] at e; omega
  rw [this]; exact ⟨hs, e⟩

theorem startOf_le (p : Nat) : startOf p ≤ p := Nat.sub_le _ _

theorem inSub_self (p : Nat) : InSub p p := ⟨startOf_le p, Nat.le_refl _⟩

theorem node_inside {h : Nat} : ∀ s, Subtree s h → ∀ x, x ≤ 2 ^ (h + 1) - 2 →
    s ≤ startOf (s + x) := by
  induction h with
  | zero =>
    intro s hs x hx
    have : x = 0 := by simp at hx; omega
    subst this
    have e : s + 0 = rootPos s 0 := by simp [rootPos]
    rw [e, startOf_rootPos hs]
  | succ h ih =>
    intro s hs x hx
    have h1 := Nat.pow_succ 2 (h + 1)
    have := two_pow_pos' (h + 1)
    by_cases hx1 : x ≤ 2 ^ (h + 1) - 2
    · exact ih s hs.left x hx1
    · by_cases hx2 : x = 2 ^ (h + 1 + 1) - 2
      · have e : s + x = rootPos s (h + 1) := by rw [hx2]; rfl
        rw [e, startOf_rootPos hs]
      · have hn := ih _ hs.right (x - (2 ^ (h + 1) - 1)) (by omega)
        rw [show s + (2 ^ (h + 1) - 1) + (x - (2 ^ (h + 1) - 1)) = s + x by omega] at hn
        omega

theorem InSub.start_le {p r : Nat} (h : InSub p r) : startOf r ≤ startOf p := by
  obtain ⟨hs, e⟩ := subtree_startOf r
  have hx : p - startOf r ≤ 2 ^ (ht r + 1) - 2 := by
    have := h.2; simp only [rootPos] at e; omega
  have := node_inside _ hs (p - startOf r) hx
  rw [show startOf r + (p - startOf r) = p by have := h.1; omega] at this
  exact this

theorem InSub.trans {p q r : Nat} (h1 : InSub p q) (h2 : InSub q r) : InSub p r := by
  refine ⟨?_, Nat.le_trans h1.2 h2.2⟩
  exact Nat.le_trans h2.start_le h1.1

/-- The three parts of a subtree: left child's, right child's, and the root. -/
theorem inSub_children {l r p : Nat} (h : Children l r p) :
    startOf p = startOf l ∧ startOf r = l + 1 ∧ p = r + 1 ∧ l < r ∧
    (∀ q, InSub q p ↔ InSub q l ∨ InSub q r ∨ q = p) := by
  obtain ⟨s, k, hs, ep, el, er⟩ := h
  have h1 := Nat.pow_succ 2 (k + 1)
  have hpos := two_pow_pos' (k + 1)
  have sp : startOf p = s := by rw [ep]; exact startOf_rootPos hs
  have sl : startOf l = s := by rw [el]; exact startOf_rootPos hs.left
  have sr : startOf r = s + (2 ^ (k + 1) - 1) := by rw [er]; exact startOf_rootPos hs.right
  have h2 := Nat.pow_succ 2 k
  have hk := two_pow_pos' k
  simp only [rootPos] at ep el er
  refine ⟨by omega, by omega, by omega, by omega, ?_⟩
  intro q
  simp only [InSub, sp, sl, sr]
  omega

theorem parent_children {p : Nat} (hp : p < 2 ^ 62) :
    Children p (Index.at p).sibling.pos (Index.at p).parent.pos ∨
    Children (Index.at p).sibling.pos p (Index.at p).parent.pos := by
  obtain ⟨s, hs, e⟩ := isNode_ht p
  have hb := ht_bound p
  have hc1 : calcHeight p = ht p := calcHeight_eq (by omega)
  generalize hk : ht p = k at *
  simp only [rootPos] at e
  have h1 := Nat.pow_succ 2 k
  have h2 := Nat.pow_succ 2 (k + 1)
  have hpos := two_pow_pos' k
  rcases subtree_cases hs with h | ⟨s', h, e'⟩
  · left
    have hc2 : calcHeight (p + 1) ≠ k + 1 := by
      rw [calcHeight_eq (by omega), show p + 1 = s + (2 ^ (k + 1) - 1) by omega, ht_start h.right]
      omega
    refine ⟨s, k, h, ?_, e, ?_⟩
    · simp only [Index.parent, Index.at, hc1, if_neg hc2, Nat.shiftLeft_eq, Nat.one_mul, rootPos]
      omega
    · simp only [Index.sibling, Index.at, hc1, if_neg hc2, Nat.shiftLeft_eq, Nat.one_mul, rootPos]
      omega
  · right
    have hc2 : calcHeight (p + 1) = k + 1 := by
      rw [calcHeight_eq (by omega), show p + 1 = rootPos s' (k + 1) by simp only [rootPos]; omega,
        ht_rootPos h]
    refine ⟨s', k, h, ?_, ?_, ?_⟩
    · simp only [Index.parent, Index.at, hc1, if_pos hc2, rootPos]; omega
    · simp only [Index.sibling, Index.at, hc1, if_pos hc2, Nat.shiftLeft_eq, Nat.one_mul, rootPos]
      omega
    · simp only [rootPos]; omega

theorem parent_index {p : Nat} (hp : p < 2 ^ 62) :
    (Index.at p).parent = Index.at (Index.at p).parent.pos := by
  have hb := ht_bound p
  have hpos := two_pow_pos' (ht p)
  have h1 := Nat.pow_succ 2 (ht p)
  have hc1 : calcHeight p = ht p := calcHeight_eq (by omega)
  rcases parent_children hp with h | h
  all_goals
    obtain ⟨s, k, hs, ep, el, er⟩ := h
    have hk : ht p = k := by
      first
        | (rw [el]; exact ht_rootPos hs.left)
        | (rw [er]; exact ht_rootPos hs.right)
    have hle : (Index.at p).parent.pos < 2 ^ 64 := by
      by_cases hc : calcHeight (p + 1) = ht p + 1
      · simp only [Index.parent, Index.at, hc1, if_pos hc]; omega
      · simp only [Index.parent, Index.at, if_neg hc, hc1, Nat.shiftLeft_eq, Nat.one_mul]; omega
    have hh : calcHeight (Index.at p).parent.pos = k + 1 := by
      rw [calcHeight_eq hle]
      rw [ep]; exact ht_rootPos hs
    have : (Index.at p).parent.height = k + 1 := by
      by_cases hc : calcHeight (p + 1) = ht p + 1
      · simp only [Index.parent, Index.at, hc1, if_pos hc]; omega
      · simp only [Index.parent, Index.at, hc1, if_neg hc]; omega
    show (Index.at p).parent = ⟨(Index.at p).parent.pos, calcHeight (Index.at p).parent.pos⟩
    rw [hh, ← this]

theorem parent_gt {p : Nat} (hp : p < 2 ^ 62) : p < (Index.at p).parent.pos := by
  rcases parent_children hp with h | h
  all_goals
    obtain ⟨_, _, e, l, _⟩ := inSub_children h
    omega

/-- A proper ancestor contains the parent. -/
theorem InSub.parent {p r : Nat} (hp : p < 2 ^ 62) (h : InSub p r) (hne : p ≠ r) :
    InSub (Index.at p).parent.pos r := by
  have hgt := parent_gt hp
  refine ⟨by have := h.1; omega, ?_⟩
  by_cases hle : (Index.at p).parent.pos ≤ r
  · exact hle
  · exfalso
    have hpr : p < r := by have := h.2; omega
    rcases parent_children hp with hc | hc
    · obtain ⟨e1, e2, e3, _, e5⟩ := inSub_children hc
      have hr : InSub r (Index.at p).parent.pos := by
        refine ⟨?_, by omega⟩
        rw [e1]; have := startOf_le p; omega
      rcases (e5 r).mp hr with h1 | h1 | h1
      · have := h1.2; omega
      · have := h1.start_le; have := h.1; omega
      · omega
    · obtain ⟨_, _, e3, _, _⟩ := inSub_children hc
      omega

theorem inSub_parent (p : Nat) (hp : p < 2 ^ 62) : InSub p (Index.at p).parent.pos := by
  rcases parent_children hp with hc | hc
  · exact ((inSub_children hc).2.2.2.2 p).mpr (Or.inl (inSub_self p))
  · exact ((inSub_children hc).2.2.2.2 p).mpr (Or.inr (Or.inl (inSub_self p)))

/-- Two subtrees are nested or disjoint. -/
theorem inSub_laminar {a b p : Nat} (h1 : InSub p a) (h2 : InSub p b) (hab : a ≤ b) : InSub a b := by
  refine ⟨?_, hab⟩
  have := h1.2; have := h2.1
  omega

/-! ## The pruned cache -/

/-- `p` lies in the subtree of some root. -/
def Pruned (roots : Finset Nat) (p : Nat) : Prop := ∃ r ∈ roots, InSub p r

theorem lt_maximumOf {roots : Finset Nat} {r : Nat} (h : r ∈ roots) : r < maximumOf roots := by
  exact Finset.le_sup (f := (· + 1)) h

theorem maximumOf_le {roots : Finset Nat} {m : Nat} (h : ∀ r ∈ roots, r < m) : maximumOf roots ≤ m := by
  unfold maximumOf
  apply Finset.sup_le
  intro r hr
  exact h r hr

theorem climb_iff {roots : Finset Nat} (hb : maximumOf roots ≤ 2 ^ 62) (fuel : Nat) :
    ∀ p, maximumOf roots ≤ p + fuel →
      (climb roots (maximumOf roots) fuel (Index.at p) = true ↔ Pruned roots p) := by
  induction fuel with
  | zero =>
    intro p hp
    simp only [climb, Bool.false_eq_true, false_iff]
    rintro ⟨r, hr, hin⟩
    have := lt_maximumOf hr
    have := hin.2
    omega
  | succ fuel ih =>
    intro p hp
    rw [climb]
    by_cases hlt : p < maximumOf roots
    · have hp62 : p < 2 ^ 62 := by omega
      rw [if_pos (show (Index.at p).pos < maximumOf roots from hlt)]
      by_cases hmem : p ∈ roots
      · rw [if_pos (show (Index.at p).pos ∈ roots from hmem)]
        simp only [true_iff]
        exact ⟨p, hmem, inSub_self p⟩
      · rw [if_neg (show ¬ (Index.at p).pos ∈ roots from hmem), parent_index hp62]
        have hgt := parent_gt hp62
        rw [ih _ (by omega)]
        constructor
        · rintro ⟨r, hr, hin⟩
          exact ⟨r, hr, (inSub_parent p hp62).trans hin⟩
        · rintro ⟨r, hr, hin⟩
          exact ⟨r, hr, hin.parent hp62 (by rintro rfl; exact hmem hr)⟩
    · rw [if_neg (show ¬ (Index.at p).pos < maximumOf roots from hlt)]
      simp only [Bool.false_eq_true, false_iff]
      rintro ⟨r, hr, hin⟩
      have := lt_maximumOf hr
      have := hin.2
      omega

theorem mem_buildPruned {roots : Finset Nat} (hb : maximumOf roots ≤ 2 ^ 62) (p : Nat) :
    p ∈ buildPruned roots ↔ Pruned roots p := by
  unfold buildPruned
  rw [Finset.mem_filter, Finset.mem_range, climb_iff hb _ p (by omega)]
  constructor
  · exact fun h => h.2
  · intro h
    refine ⟨?_, h⟩
    obtain ⟨r, hr, hin⟩ := h
    have := lt_maximumOf hr
    have := hin.2
    omega

/-! ## The shift caches -/

/-- Sum of the weights of the roots before `q`. -/
def sumBelow (roots : Finset Nat) (w : Nat → Nat) (q : Nat) : Nat :=
  ∑ r ∈ roots.filter (· < q), w r

theorem filter_succ_mem {roots : Finset Nat} {m : Nat} (h : m ∈ roots) :
    roots.filter (· < m + 1) = insert m (roots.filter (· < m)) := by
  ext x
  simp only [Finset.mem_filter, Finset.mem_insert]
  constructor
  · rintro ⟨h1, h2⟩
    by_cases hx : x = m
    · exact Or.inl hx
    · exact Or.inr ⟨h1, by omega⟩
  · rintro (rfl | ⟨h1, h2⟩)
    · exact ⟨h, by omega⟩
    · exact ⟨h1, by omega⟩

theorem filter_succ_not_mem {roots : Finset Nat} {m : Nat} (h : m ∉ roots) :
    roots.filter (· < m + 1) = roots.filter (· < m) := by
  ext x
  simp only [Finset.mem_filter]
  constructor
  · rintro ⟨h1, h2⟩
    refine ⟨h1, ?_⟩
    have : x ≠ m := by rintro rfl; exact h h1
    omega
  · rintro ⟨h1, h2⟩; exact ⟨h1, by omega⟩

theorem rankOf_mono {roots : Finset Nat} {a b : Nat} (h : a ≤ b) : rankOf roots a ≤ rankOf roots b := by
  unfold rankOf
  apply Finset.card_le_card
  intro x hx
  simp only [Finset.mem_filter] at hx ⊢
  exact ⟨hx.1, by omega⟩

theorem sumBelow_of_rank_zero {roots : Finset Nat} {w : Nat → Nat} {q : Nat} (h : rankOf roots q = 0) :
    sumBelow roots w q = 0 := by
  unfold rankOf at h
  rw [Finset.card_eq_zero] at h
  rw [sumBelow, h, Finset.sum_empty]

theorem buildCache_spec (roots : Finset Nat) (w : Nat → Nat) (m : Nat) :
    (buildCache roots w m).length = rankOf roots m ∧
    ∀ q, q ≤ m → 0 < rankOf roots q →
      (buildCache roots w m)[rankOf roots q - 1]? = some (sumBelow roots w q) := by
  induction m with
  | zero =>
    refine ⟨by simp [buildCache, rankOf], ?_⟩
    intro q hq h
    have : q = 0 := by omega
    subst this
    simp [rankOf] at h
  | succ m ih =>
    obtain ⟨ihl, ihq⟩ := ih
    by_cases hm : m ∈ roots
    · have hrank : rankOf roots (m + 1) = rankOf roots m + 1 := by
        unfold rankOf
        rw [filter_succ_mem hm, Finset.card_insert_of_notMem (by simp)]
      have hsum : sumBelow roots w (m + 1) = sumBelow roots w m + w m := by
        unfold sumBelow
        rw [filter_succ_mem hm, Finset.sum_insert (by simp), Nat.add_comm]
      have hlook : lookupShift roots (buildCache roots w m) m = sumBelow roots w m := by
        unfold lookupShift
        rw [if_neg (by rintro rfl; simp at hm)]
        rcases Nat.eq_zero_or_pos (rankOf roots m) with h0 | h0
        · rw [if_pos (List.length_eq_zero_iff.mp (by rw [ihl, h0])), sumBelow_of_rank_zero h0]
        · rw [if_neg (by intro e; rw [e] at ihl; simp at ihl; omega)]
          simp only
          rw [if_neg (by omega), if_neg (by omega)]
          have := ihq m (Nat.le_refl _) h0
          rw [List.getD_eq_getElem?_getD, this]; rfl
      have e : buildCache roots w (m + 1)
          = buildCache roots w m ++ [sumBelow roots w m + w m] := by
        rw [buildCache]; simp only [if_pos hm, hlook]
      rw [e]
      refine ⟨by rw [List.length_append, ihl, hrank]; rfl, ?_⟩
      intro q hq h0
      by_cases hqm : q = m + 1
      · subst hqm
        rw [hrank, Nat.add_sub_cancel, ← ihl, hsum]; simp
      · have := rankOf_mono (roots := roots) (show q ≤ m by omega)
        rw [List.getElem?_append_left (by omega)]
        exact ihq q (by omega) h0
    · have hrank : rankOf roots (m + 1) = rankOf roots m := by
        unfold rankOf; rw [filter_succ_not_mem hm]
      have hsum : sumBelow roots w (m + 1) = sumBelow roots w m := by
        unfold sumBelow; rw [filter_succ_not_mem hm]
      have e : buildCache roots w (m + 1) = buildCache roots w m := by
        rw [buildCache]; simp only [if_neg hm]
      rw [e, hrank]
      refine ⟨ihl, ?_⟩
      intro q hq h0
      by_cases hqm : q = m + 1
      · subst hqm
        rw [hrank, hsum]
        exact ihq m (Nat.le_refl _) (by omega)
      · exact ihq q (by omega) h0

theorem filter_lt_max {roots : Finset Nat} {q : Nat} (h : maximumOf roots ≤ q) :
    roots.filter (· < q) = roots.filter (· < maximumOf roots) := by
  ext x
  simp only [Finset.mem_filter]
  constructor
  · rintro ⟨h1, _⟩; exact ⟨h1, lt_maximumOf h1⟩
  · rintro ⟨h1, h2⟩; exact ⟨h1, by omega⟩

theorem lookup_build (roots : Finset Nat) (w : Nat → Nat) (q : Nat) :
    lookupShift roots (buildCache roots w (maximumOf roots)) q = sumBelow roots w q := by
  obtain ⟨hl, hq⟩ := buildCache_spec roots w (maximumOf roots)
  unfold lookupShift
  by_cases h0 : roots = ∅
  · rw [if_pos h0, h0]; simp [sumBelow]
  · rw [if_neg h0]
    rcases Nat.eq_zero_or_pos (rankOf roots q) with hr | hr
    · simp only [hr, if_true, ite_self]
      exact (sumBelow_of_rank_zero hr).symm
    · by_cases hqm : q ≤ maximumOf roots
      · have hmono := rankOf_mono (roots := roots) hqm
        rw [if_neg (by intro e; rw [e] at hl; simp at hl; omega)]
        simp only
        rw [if_neg (by omega), if_neg (by omega), List.getD_eq_getElem?_getD, hq q hqm hr]
        rfl
      · have e := filter_lt_max (roots := roots) (show maximumOf roots ≤ q by omega)
        have er : rankOf roots q = rankOf roots (maximumOf roots) := by unfold rankOf; rw [e]
        have es : sumBelow roots w q = sumBelow roots w (maximumOf roots) := by
          unfold sumBelow; rw [e]
        rw [if_neg (by intro e; rw [e] at hl; simp at hl; omega)]
        simp only
        rw [if_neg (by omega), if_neg (by omega), er, List.getD_eq_getElem?_getD,
          hq _ (Nat.le_refl _) (by omega), es]
        rfl

end Verif.MMR
