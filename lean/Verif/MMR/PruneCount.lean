import Verif.MMR.PruneLemmas
import Mathlib.Algebra.BigOperators.Group.Finset.Basic

/-!
# Helper lemmas: what the shift caches count, and adding to the prune list
-/
namespace Verif.MMR

/-- No root lies in another root's subtree. -/
def Antichain (roots : Finset Nat) : Prop := ∀ r ∈ roots, ∀ r' ∈ roots, InSub r r' → r = r'

theorem Antichain.eq_of_common {roots : Finset Nat} (ha : Antichain roots) {r r' p : Nat}
    (hr : r ∈ roots) (hr' : r' ∈ roots) (h : InSub p r) (h' : InSub p r') : r = r' := by
  rcases Nat.le_total r r' with hle | hle
  · exact ha r hr r' hr' (inSub_laminar h h' hle)
  · exact (ha r' hr' r hr (inSub_laminar h' h hle)).symm

/-- Strictly inside a pruned subtree. -/
def Inner (roots : Finset Nat) (p : Nat) : Prop := Pruned roots p ∧ p ∉ roots

theorem inner_iff {roots : Finset Nat} (ha : Antichain roots) (p : Nat) :
    Inner roots p ↔ ∃ r ∈ roots, InSub p r ∧ p ≠ r := by
  constructor
  · rintro ⟨⟨r, hr, h⟩, hn⟩
    exact ⟨r, hr, h, by rintro rfl; exact hn hr⟩
  · rintro ⟨r, hr, h, hne⟩
    exact ⟨⟨r, hr, h⟩, fun hp => hne (ha p hp r hr h)⟩

theorem hashWeight_eq {r : Nat} (hr : r < 2 ^ 64) : hashWeight r = r - startOf r := by
  unfold hashWeight
  rw [calcHeight_eq hr, Nat.shiftLeft_eq, Nat.one_mul]
  obtain ⟨_, e⟩ := subtree_startOf r
  simp only [rootPos] at e
  have := Nat.pow_succ 2 (ht r)
  have := two_pow_pos' (ht r)
  omega

open Classical in
theorem count_inner {roots : Finset Nat} (ha : Antichain roots) (hb : maximumOf roots ≤ 2 ^ 62)
    (p : Nat) (hp : ¬ Inner roots p) :
    ((Finset.range p).filter (fun q => Inner roots q)).card = sumBelow roots hashWeight (p + 1) := by
  have e : (Finset.range p).filter (fun q => Inner roots q)
      = (roots.filter (· < p + 1)).biUnion (fun r => Finset.Ico (startOf r) r) := by
    ext q
    simp only [Finset.mem_filter, Finset.mem_range, Finset.mem_biUnion, Finset.mem_Ico]
    constructor
    · rintro ⟨hq, hin⟩
      obtain ⟨r, hr, h, hne⟩ := (inner_iff ha q).mp hin
      refine ⟨r, ⟨hr, ?_⟩, h.1, by have := h.2; omega⟩
      by_contra hlt
      apply hp
      rw [inner_iff ha]
      exact ⟨r, hr, ⟨by have := h.1; omega, by omega⟩, by omega⟩
    · rintro ⟨r, ⟨hr, hlt⟩, h1, h2⟩
      exact ⟨by omega, (inner_iff ha q).mpr ⟨r, hr, ⟨h1, by omega⟩, by omega⟩⟩
  rw [e, Finset.card_biUnion]
  · unfold sumBelow
    apply Finset.sum_congr rfl
    intro r hr
    simp only [Finset.mem_filter] at hr
    have := lt_maximumOf hr.1
    rw [Nat.card_Ico, hashWeight_eq (by omega)]
  · intro r hr r' hr' hne
    simp only [Finset.coe_filter, Set.mem_ofPred_eq] at hr hr'
    simp only [Function.onFun]
    rw [Finset.disjoint_left]
    intro x hx hx'
    simp only [Finset.mem_Ico] at hx hx'
    exact hne (ha.eq_of_common (p := x) hr.1 hr'.1 ⟨hx.1, by omega⟩ ⟨hx'.1, by omega⟩)

/-- The leaves of the subtree rooted at `r` are consecutive. -/
theorem leaves_of_sub (r : Nat) : ∃ a, ∀ n, InSub (leafPos n) r ↔ a ≤ n ∧ n < a + 2 ^ ht r := by
  obtain ⟨hs, e⟩ := subtree_startOf r
  obtain ⟨a, hL⟩ := hs.toL
  refine ⟨a, fun n => ?_⟩
  have hst := hL.start
  constructor
  · rintro ⟨h1, h2⟩
    constructor
    · rw [hst] at h1
      by_contra hlt
      have := leafPos_strictMono (show n < a by omega)
      omega
    · by_contra hge
      have := rootPos_lt_leafPos hL (N := n) (by omega)
      omega
  · rintro ⟨h1, h2⟩
    have := leafPos_in_subtree hL (n - a) (by omega)
    rw [show a + (n - a) = n by omega] at this
    have hb := leafPos_lt (k := ht r) (n := n - a) (by omega)
    simp only [rootPos] at e
    exact ⟨by omega, by omega⟩

/-- First leaf number below `r`. -/
noncomputable def firstLeaf (r : Nat) : Nat := (leaves_of_sub r).choose

theorem firstLeaf_spec (r n : Nat) : InSub (leafPos n) r ↔ firstLeaf r ≤ n ∧ n < firstLeaf r + 2 ^ ht r :=
  (leaves_of_sub r).choose_spec n

open Classical in
theorem count_inner_leaves {roots : Finset Nat} (ha : Antichain roots) (hb : maximumOf roots ≤ 2 ^ 62)
    (n : Nat) (hp : ¬ Inner roots (leafPos n)) :
    ((Finset.range n).filter (fun m => Inner roots (leafPos m))).card
      = sumBelow roots leafWeight (leafPos n + 1) := by
  have e : (Finset.range n).filter (fun m => Inner roots (leafPos m))
      = ((roots.filter (· < leafPos n + 1)).filter (fun r => ht r ≠ 0)).biUnion
          (fun r => Finset.Ico (firstLeaf r) (firstLeaf r + 2 ^ ht r)) := by
    ext m
    simp only [Finset.mem_filter, Finset.mem_range, Finset.mem_biUnion, Finset.mem_Ico]
    constructor
    · rintro ⟨hm, hin⟩
      obtain ⟨r, hr, h, hne⟩ := (inner_iff ha _).mp hin
      have hmn := leafPos_strictMono hm
      refine ⟨r, ⟨⟨hr, ?_⟩, ?_⟩, (firstLeaf_spec r m).mp h⟩
      · by_contra hlt
        apply hp
        rw [inner_iff ha]
        exact ⟨r, hr, ⟨by have := h.1; omega, by omega⟩, by omega⟩
      · intro h0
        obtain ⟨hs, er⟩ := subtree_startOf r
        rw [h0] at er
        simp only [rootPos] at er
        have := h.1; have := h.2
        omega
    · rintro ⟨r, ⟨⟨hr, hlt⟩, h0⟩, hm⟩
      have hin := (firstLeaf_spec r m).mpr hm
      have hne : leafPos m ≠ r := by
        intro e; apply h0; rw [← e]; exact ht_leafPos m
      have h2 := hin.2
      refine ⟨?_, (inner_iff ha _).mpr ⟨r, hr, hin, hne⟩⟩
      by_contra hge
      have : leafPos n ≤ leafPos m := by
        rcases Nat.eq_or_lt_of_le (show n ≤ m by omega) with h | h
        · rw [h]
        · exact Nat.le_of_lt (leafPos_strictMono h)
      omega
  rw [e, Finset.card_biUnion]
  · unfold sumBelow
    rw [Finset.sum_filter]
    apply Finset.sum_congr rfl
    intro r hr
    simp only [Finset.mem_filter] at hr
    have := lt_maximumOf hr.1
    rw [Nat.card_Ico, leafWeight, calcHeight_eq (by omega), Nat.shiftLeft_eq, Nat.one_mul]
    by_cases h0 : ht r = 0
    · simp [h0]
    · simp [h0]
  · intro r hr r' hr' hne
    simp only [Finset.coe_filter, Finset.mem_filter, Set.mem_ofPred_eq] at hr hr'
    simp only [Function.onFun]
    rw [Finset.disjoint_left]
    intro x hx hx'
    simp only [Finset.mem_Ico] at hx hx'
    exact hne (ha.eq_of_common (p := leafPos x) hr.1.1 hr'.1.1 ((firstLeaf_spec r x).mpr hx)
      ((firstLeaf_spec r' x).mpr hx'))

/-! ## Add -/

/-- The roots are the maximal pruned subtrees: none inside another, no two siblings. -/
structure Canon (roots : Finset Nat) : Prop where
  anti : Antichain roots
  nosib : ∀ l r p, Children l r p → ¬ (l ∈ roots ∧ r ∈ roots)

theorem sibling_children {p : Nat} (hp : p < 2 ^ 62) :
    ∃ par, (Children p (Index.at p).sibling.pos par ∨ Children (Index.at p).sibling.pos p par) ∧
      (Index.at p).parent = Index.at par :=
  ⟨_, parent_children hp, parent_index hp⟩

theorem Children.unique {l r p l' r' p' : Nat} (h : Children l r p) (h' : Children l' r' p') :
    (l = l' → r = r') ∧ (r = r' → l = l') ∧ l ≠ r' := by
  obtain ⟨s, k, hs, e1, e2, e3⟩ := h
  obtain ⟨s', k', hs', f1, f2, f3⟩ := h'
  refine ⟨fun e => ?_, fun e => ?_, fun e => ?_⟩
  · obtain ⟨rfl, rfl⟩ := rootPos_inj hs.left hs'.left (by rw [← e2, ← f2, e])
    rw [e3, f3]
  · obtain ⟨a, rfl⟩ := rootPos_inj hs.right hs'.right (by rw [← e3, ← f3, e])
    rw [e2, f2]; congr 1; omega
  · obtain ⟨a, rfl⟩ := rootPos_inj hs.left hs'.right (by rw [← e2, ← f3, e])
    -- a subtree cannot be both a left and a right child
    have h1 := ht_start hs.right
    have h2 : ht (s + (2 ^ (k + 1) - 1)) = k + 1 := by
      rw [a, show s' + (2 ^ (k + 1) - 1) + (2 ^ (k + 1) - 1) = rootPos s' (k + 1) by
        have := Nat.pow_succ 2 (k + 1); have := two_pow_pos' (k + 1); simp only [rootPos]; omega]
      exact ht_rootPos hs'
    omega

/-- The leaf numbers a set of roots prunes. -/
def PrunedLeaf (roots : Finset Nat) (n : Nat) : Prop := Pruned roots (leafPos n)

theorem inSub_antisymm {a b : Nat} (h1 : InSub a b) (h2 : InSub b a) : a = b := by
  have := h1.2; have := h2.2; omega

theorem addLoop_spec (fuel : Nat) : ∀ (roots cache : Finset Nat) (x : Nat),
    max x (maximumOf roots) + roots.card < 2 ^ 62 → Canon roots →
    (∀ r ∈ roots, ¬ InSub x r ∧ ¬ InSub r x) →
    (∀ c ∈ cache, Pruned roots c ∨ InSub c x) →
    roots.card < fuel →
    ∃ roots' cache', addLoop fuel roots cache (Index.at x) = .ok (roots', cache') ∧ Canon roots' ∧
      (∀ c ∈ cache', Pruned roots' c) ∧
      (∀ n, PrunedLeaf roots' n ↔ PrunedLeaf roots n ∨ InSub (leafPos n) x) ∧
      (∀ r ∈ roots', r ∈ roots ∨ InSub x r) := by
  induction fuel with
  | zero => intros; omega
  | succ fuel ih =>
    intro roots cache x hx hcanon hdisj hcache hfuel
    obtain ⟨par, hch, hpar⟩ := sibling_children (p := x) (by omega)
    generalize hsib : (Index.at x).sibling.pos = sib at hch
    -- structure of the parent's subtree
    have hsub : (∀ q, InSub q par ↔ InSub q x ∨ InSub q sib ∨ q = par) ∧ x < par ∧ sib < par ∧
        ¬ InSub sib x ∧ ¬ InSub x sib ∧ sib ≠ x ∧ par ≤ max x sib + 1 ∧ ht par ≠ 0 := by
      have hhp : ht par ≠ 0 := by
        rcases hch with h | h
        all_goals
          obtain ⟨s, k, hs, ep, _, _⟩ := h
          rw [ep, ht_rootPos hs]; omega
      rcases hch with h | h
      · obtain ⟨e1, e2, e3, e4, e5⟩ := inSub_children h
        refine ⟨e5, by omega, by omega, ?_, ?_, by omega, by omega, hhp⟩
        · intro hc; have := hc.2; omega
        · intro hc; have := hc.1; omega
      · obtain ⟨e1, e2, e3, e4, e5⟩ := inSub_children h
        refine ⟨?_, by omega, by omega, ?_, ?_, by omega, by omega, hhp⟩
        · intro q; rw [e5]; constructor <;> (rintro (h | h | h) <;> simp [h])
        · intro hc; have := hc.1; omega
        · intro hc; have := hc.2; omega
    obtain ⟨hsplit, hxp, hsp, hsx, hxs, hne, hparle, hhp⟩ := hsub
    have hxpar : InSub x par := (hsplit x).mpr (Or.inl (inSub_self x))
    have hspar : InSub sib par := (hsplit sib).mpr (Or.inr (Or.inl (inSub_self sib)))
    -- the sibling is pruned only if it is a root
    have hkey : (sib ∈ roots ∨ sib ∈ cache) ↔ sib ∈ roots := by
      constructor
      · rintro (h | h)
        · exact h
        · rcases hcache sib h with ⟨r, hr, hin⟩ | hin
          · by_cases he : sib = r
            · rw [he]; exact hr
            · exfalso
              -- then the parent, hence x, lies in r's subtree
              have hrp : InSub par r := by
                refine ⟨by have := hin.1; omega, ?_⟩
                by_contra hlt
                have hr2 : InSub r par := by
                  refine ⟨?_, by omega⟩
                  have := hspar.1; have := hin.2; omega
                rcases (hsplit r).mp hr2 with h1 | h1 | h1
                · exact (hdisj r hr).2 h1
                · exact he (inSub_antisymm hin h1)
                · omega
              exact (hdisj r hr).1 (hxpar.trans hrp)
          · exact absurd hin hsx
      · exact Or.inl
    rw [addLoop]
    simp only [show (Index.at x).sibling.pos = sib from hsib]
    by_cases hs : sib ∈ roots
    · rw [if_pos (hkey.mpr hs), hpar]
      have hsm := lt_maximumOf hs
      have hmem : ∀ r, r ∈ roots.erase sib ↔ r ≠ sib ∧ r ∈ roots := fun r => Finset.mem_erase
      have hmax' : maximumOf (roots.erase sib) ≤ maximumOf roots :=
        maximumOf_le (fun r hr => lt_maximumOf ((hmem r).mp hr).2)
      have hcanon' : Canon (roots.erase sib) :=
        ⟨fun r hr r' hr' => hcanon.anti r ((hmem r).mp hr).2 r' ((hmem r').mp hr').2,
         fun l r p hc ⟨h1, h2⟩ => hcanon.nosib l r p hc ⟨((hmem l).mp h1).2, ((hmem r).mp h2).2⟩⟩
      have hcard := Finset.card_erase_of_mem hs
      have hcpos := Finset.card_pos.mpr ⟨sib, hs⟩
      obtain ⟨roots', cache', h1, h2, h3, h4, h5⟩ := ih (roots.erase sib) (insert (Index.at x).pos cache)
        par (by omega) hcanon'
        (by
          intro r hr
          have hr' := (hmem r).mp hr
          constructor
          · intro hin
            exact hr'.1 ((hcanon.anti sib hs r hr'.2 (hspar.trans hin)).symm)
          · intro hin
            rcases (hsplit r).mp hin with h | h | h
            · exact (hdisj r hr'.2).2 h
            · exact hr'.1 (hcanon.anti r hr'.2 sib hs h)
            · exact hr'.1 ((hcanon.anti sib hs r hr'.2 (by rw [h]; exact hspar)).symm))
        (by
          intro c hc
          rcases Finset.mem_insert.mp hc with rfl | hc
          · exact Or.inr hxpar
          · rcases hcache c hc with ⟨r, hr, hin⟩ | hin
            · by_cases he : r = sib
              · right; subst he; exact hin.trans hspar
              · exact Or.inl ⟨r, (hmem r).mpr ⟨he, hr⟩, hin⟩
            · exact Or.inr (hin.trans hxpar))
        (by omega)
      refine ⟨roots', cache', h1, h2, h3, ?_, ?_⟩
      · intro n
        rw [h4 n]
        unfold PrunedLeaf Pruned
        constructor
        · rintro (⟨r, hr, hin⟩ | hin)
          · exact Or.inl ⟨r, ((hmem r).mp hr).2, hin⟩
          · rcases (hsplit _).mp hin with h | h | h
            · exact Or.inr h
            · exact Or.inl ⟨sib, hs, h⟩
            · exact absurd (by rw [← h]; exact ht_leafPos n) hhp
        · rintro (⟨r, hr, hin⟩ | hin)
          · by_cases he : r = sib
            · right; subst he; exact hin.trans hspar
            · exact Or.inl ⟨r, (hmem r).mpr ⟨he, hr⟩, hin⟩
          · exact Or.inr (hin.trans hxpar)
      · intro r hr
        rcases h5 r hr with h | h
        · exact Or.inl ((hmem r).mp h).2
        · exact Or.inr (hxpar.trans h)
    · rw [if_neg (fun h => hs (hkey.mp h))]
      refine ⟨_, _, rfl, ⟨?_, ?_⟩, ?_, ?_, ?_⟩
      · intro r hr r' hr' hin
        rcases Finset.mem_insert.mp hr with rfl | hr
        · rcases Finset.mem_insert.mp hr' with rfl | hr'
          · rfl
          · exact absurd hin (hdisj r' hr').1
        · rcases Finset.mem_insert.mp hr' with he | hr'
          · rw [show (Index.at x).pos = x from rfl] at he
            rw [he] at hin
            exact absurd hin (hdisj r hr).2
          · exact hcanon.anti r hr r' hr' hin
      · intro l r p hc ⟨h1, h2⟩
        rcases Finset.mem_insert.mp h1 with rfl | h1
        · rcases Finset.mem_insert.mp h2 with rfl | h2
          · have := (inSub_children hc).2.2.2.1
            omega
          · rcases hch with h | h
            · have := (hc.unique h).1 rfl
              exact hs (this ▸ h2)
            · exact (hc.unique h).2.2 rfl
        · rcases Finset.mem_insert.mp h2 with he | h2
          · rw [show (Index.at x).pos = x from rfl] at he
            rcases hch with h | h
            · exact (h.unique hc).2.2 he.symm
            · have := (hc.unique h).2.1 he
              exact hs (this ▸ h1)
          · exact hcanon.nosib l r p hc ⟨h1, h2⟩
      · intro c hc
        rcases Finset.mem_insert.mp hc with rfl | hc
        · exact ⟨_, Finset.mem_insert_self _ _, inSub_self _⟩
        · rcases hcache c hc with ⟨r, hr, hin⟩ | hin
          · exact ⟨r, Finset.mem_insert_of_mem hr, hin⟩
          · exact ⟨x, Finset.mem_insert_self _ _, hin⟩
      · intro n
        unfold PrunedLeaf Pruned
        constructor
        · rintro ⟨r, hr, hin⟩
          rcases Finset.mem_insert.mp hr with rfl | hr
          · exact Or.inr hin
          · exact Or.inl ⟨r, hr, hin⟩
        · rintro (⟨r, hr, hin⟩ | hin)
          · exact ⟨r, Finset.mem_insert_of_mem hr, hin⟩
          · exact ⟨x, Finset.mem_insert_self _ _, hin⟩
      · intro r hr
        rcases Finset.mem_insert.mp hr with rfl | hr
        · exact Or.inr (inSub_self _)
        · exact Or.inl hr

end Verif.MMR
