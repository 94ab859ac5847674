import Verif.MMR.Index
import Verif.MMR.Tree
import Mathlib.Data.Nat.Bitwise
import Mathlib.Data.Nat.Size

/-!
# Helper lemmas on MMR index arithmetic
-/
namespace Verif.MMR

theorem two_pow_pos' (k : Nat) : 0 < 2 ^ k := Nat.two_pow_pos k

/-! ## FillOnesToRight -/

theorem fill_step {x f : Nat} {n : Nat} (h : ∀ i, f.testBit i = true ↔ ∃ j < n, x.testBit (i + j) = true) :
    ∀ i, (f ||| f >>> n).testBit i = true ↔ ∃ j < n + n, x.testBit (i + j) = true := by
  intro i
  rw [Nat.testBit_or, Nat.testBit_shiftRight, Bool.or_eq_true, h, h]
  constructor
  · rintro (⟨j, hj, hb⟩ | ⟨j, hj, hb⟩)
    · exact ⟨j, by omega, hb⟩
    · exact ⟨n + j, by omega, by rw [← hb]; congr 1; omega⟩
  · rintro ⟨j, hj, hb⟩
    by_cases hjn : j < n
    · exact Or.inl ⟨j, hjn, hb⟩
    · refine Or.inr ⟨j - n, by omega, ?_⟩
      rw [← hb]; congr 1; omega

theorem fillOnes_testBit (x i : Nat) :
    (fillOnes x).testBit i = true ↔ ∃ j < 64, x.testBit (i + j) = true := by
  have h0 : ∀ i, x.testBit i = true ↔ ∃ j < 1, x.testBit (i + j) = true := by
    intro i
    constructor
    · intro h; exact ⟨0, by omega, by simpa using h⟩
    · rintro ⟨j, hj, h⟩
      have : j = 0 := by omega
      subst this; simpa using h
  have h1 := fill_step h0
  have h2 := fill_step h1
  have h3 := fill_step h2
  have h4 := fill_step h3
  have h5 := fill_step h4
  have h6 := fill_step h5
  exact h6 i

/-- Below 2^64 the helper is the least `2^k - 1` not below its argument. -/
theorem fillOnes_eq {x : Nat} (hx : x < 2 ^ 64) : ∃ k, fillOnes x = 2 ^ k - 1 ∧ x < 2 ^ k ∧
    (∀ j, x < 2 ^ j → k ≤ j) := by
  refine ⟨Nat.size x, ?_, Nat.lt_size_self x, fun j hj => Nat.size_le.mpr hj⟩
  apply Nat.eq_of_testBit_eq
  intro i
  rw [Nat.testBit_two_pow_sub_one]
  by_cases hi : i < Nat.size x
  · simp only [hi, decide_true]
    rw [fillOnes_testBit]
    have hne : x ≠ 0 := by
      rintro rfl; simp at hi
    have hpos : 0 < Nat.size x := by omega
    have htop : x.testBit (Nat.size x - 1) = true := by
      have hle : 2 ^ (Nat.size x - 1) ≤ x := by
        have := (Nat.lt_size (m := Nat.size x - 1) (n := x)).mp (by omega)
        exact this
      have hlt := Nat.lt_size_self x
      rw [Nat.testBit_eq_decide_div_mod_eq]
      have hdiv : x / 2 ^ (Nat.size x - 1) = 1 := by
        apply Nat.div_eq_of_lt_le
        · simpa using hle
        · have : 2 ^ Nat.size x = 2 * 2 ^ (Nat.size x - 1) := by
            rw [← Nat.pow_succ']; congr 1; omega
          omega
      simp [hdiv]
    have hs64 : Nat.size x ≤ 64 := Nat.size_le.mpr hx
    refine ⟨Nat.size x - 1 - i, by omega, ?_⟩
    rw [show i + (Nat.size x - 1 - i) = Nat.size x - 1 by omega]
    exact htop
  · simp only [hi, decide_false]
    rw [Bool.eq_false_iff]
    intro hb
    rw [fillOnes_testBit] at hb
    obtain ⟨j, _, hj⟩ := hb
    have : x < 2 ^ (i + j) := Nat.lt_of_lt_of_le (Nat.lt_size_self x)
      (Nat.pow_le_pow_right (by omega) (by omega))
    rw [Nat.testBit_lt_two_pow this] at hj
    cases hj

/-! ## Height -/

theorem pow_sub_one_shift (k : Nat) : (2 ^ (k + 1) - 1) >>> 1 = 2 ^ k - 1 := by
  rw [Nat.shiftRight_eq_div_pow, Nat.pow_succ]
  have := two_pow_pos' k
  omega

theorem heightLoop_zero (x : Nat) : heightLoop (2 ^ 0 - 1) x = x := by
  rw [heightLoop]; simp

theorem heightLoop_succ (k x : Nat) : heightLoop (2 ^ (k + 1) - 1) x =
    heightLoop (2 ^ k - 1) (if x ≥ 2 ^ (k + 1) - 1 then x - (2 ^ (k + 1) - 1) else x) := by
  rw [heightLoop, pow_sub_one_shift, if_neg]
  have := two_pow_pos' k
  rw [Nat.pow_succ]; omega

theorem heightLoop_over (k i : Nat) : heightLoop (2 ^ k - 1) (2 ^ (k + 1) - 2 + i) = k + i := by
  induction k generalizing i with
  | zero => rw [heightLoop_zero]; simp
  | succ k ih =>
    have := two_pow_pos' k
    rw [heightLoop_succ, if_pos (by rw [Nat.pow_succ 2 (k+1)]; omega)]
    have e : 2 ^ (k + 1 + 1) - 2 + i - (2 ^ (k + 1) - 1) = 2 ^ (k + 1) - 2 + (i + 1) := by
      rw [Nat.pow_succ 2 (k+1), Nat.pow_succ 2 k]; omega
    rw [e, ih]; omega

theorem heightLoop_below (k x : Nat) (h : x < 2 ^ (k + 1) - 1) :
    heightLoop (2 ^ (k + 1) - 1) x = heightLoop (2 ^ k - 1) x := by
  rw [heightLoop_succ, if_neg (by omega)]

/-- The height function, on the smallest range containing the position. -/
def ht (x : Nat) : Nat := heightLoop (2 ^ x - 1) x

theorem heightLoop_stable {k j x : Nat} (hkj : k ≤ j) (h : x ≤ 2 ^ (k + 1) - 2) :
    heightLoop (2 ^ j - 1) x = heightLoop (2 ^ k - 1) x := by
  induction j with
  | zero => have : k = 0 := by omega
            subst this; rfl
  | succ j ih =>
    by_cases hkj' : k = j + 1
    · subst hkj'; rfl
    · rw [heightLoop_below]
      · exact ih (by omega)
      · have : 2 ^ (k + 1) ≤ 2 ^ (j + 1) := Nat.pow_le_pow_right (by omega) (by omega)
        have := two_pow_pos' k
        have := Nat.pow_succ 2 k
        omega

theorem le_two_pow_sub (x : Nat) : x ≤ 2 ^ (x + 1) - 2 := by
  have h1 : x < 2 ^ x := Nat.lt_two_pow_self
  have h2 := Nat.pow_succ 2 x
  by_cases hx : x = 0
  · omega
  · omega

theorem heightLoop_eq_ht {k x : Nat} (h : x ≤ 2 ^ (k + 1) - 2) : heightLoop (2 ^ k - 1) x = ht x := by
  unfold ht
  have hx := le_two_pow_sub x
  rcases Nat.le_total k x with hkx | hkx
  · exact (heightLoop_stable hkx h).symm
  · exact heightLoop_stable hkx hx

theorem calcHeight_eq {x : Nat} (hx : x < 2 ^ 64) : calcHeight x = ht x := by
  obtain ⟨k, hk, hlt, _⟩ := fillOnes_eq hx
  unfold calcHeight
  rw [hk, heightLoop_eq_ht]
  have := Nat.pow_succ 2 k
  have := two_pow_pos' k
  omega

theorem ht_zero : ht 0 = 0 := by rw [ht, heightLoop_zero]

/-- The root of the perfect tree of height `k` at position zero. -/
theorem ht_top (k : Nat) : ht (2 ^ (k + 1) - 2) = k := by
  rw [← heightLoop_eq_ht (Nat.le_refl _)]
  have := heightLoop_over k 0
  simpa using this

/-- Positions of the right subtree repeat those of the left. -/
theorem ht_right {k x : Nat} (h : x ≤ 2 ^ (k + 1) - 2) : ht (2 ^ (k + 1) - 1 + x) = ht x := by
  have hk := two_pow_pos' k
  have h1 := Nat.pow_succ 2 k
  have h2 := Nat.pow_succ 2 (k + 1)
  rw [← heightLoop_eq_ht (k := k + 1) (by omega), heightLoop_succ, if_pos (by omega)]
  rw [show 2 ^ (k + 1) - 1 + x - (2 ^ (k + 1) - 1) = x by omega]
  exact heightLoop_eq_ht h

/-- The layout inside every subtree is that of the tree at position zero. -/
theorem ht_subtree {s h : Nat} (hs : Subtree s h) : ∀ x, x ≤ 2 ^ (h + 1) - 2 → ht (s + x) = ht x := by
  induction hs with
  | top h => intro x _; simp
  | @left s h _ ih =>
    intro x hx
    apply ih
    have := Nat.pow_succ 2 (h + 1)
    omega
  | @right s h _ ih =>
    intro x hx
    have h1 := Nat.pow_succ 2 (h + 1)
    have := two_pow_pos' (h + 1)
    rw [Nat.add_assoc, ih _ (by omega)]
    exact ht_right hx

theorem ht_rootPos {s h : Nat} (hs : Subtree s h) : ht (rootPos s h) = h := by
  rw [rootPos, ht_subtree hs _ (Nat.le_refl _), ht_top]

theorem ht_start {s h : Nat} (hs : Subtree s h) : ht s = 0 := by
  have := ht_subtree hs 0 (by omega)
  simpa [ht_zero] using this

theorem isNode_exists_in {h : Nat} : ∀ s, Subtree s h → ∀ x, x ≤ 2 ^ (h + 1) - 2 →
    ∃ k, k ≤ h ∧ IsNode (s + x) k := by
  induction h with
  | zero =>
    intro s hs x hx
    have : x = 0 := by simp at hx; omega
    subst this
    exact ⟨0, Nat.le_refl _, s, hs, by simp [rootPos]⟩
  | succ h ih =>
    intro s hs x hx
    have h1 := Nat.pow_succ 2 (h + 1)
    have := two_pow_pos' (h + 1)
    by_cases hx1 : x ≤ 2 ^ (h + 1) - 2
    · obtain ⟨k, hk, hn⟩ := ih s hs.left x hx1
      exact ⟨k, by omega, hn⟩
    · by_cases hx2 : x = 2 ^ (h + 1 + 1) - 2
      · exact ⟨h + 1, Nat.le_refl _, s, hs, by rw [hx2]; rfl⟩
      · obtain ⟨k, hk, hn⟩ := ih _ hs.right (x - (2 ^ (h + 1) - 1)) (by omega)
        refine ⟨k, by omega, ?_⟩
        rw [show s + (2 ^ (h + 1) - 1) + (x - (2 ^ (h + 1) - 1)) = s + x by omega] at hn
        exact hn

theorem isNode_ht (p : Nat) : IsNode p (ht p) := by
  obtain ⟨k, _, hn⟩ := isNode_exists_in 0 (Subtree.top p) p (le_two_pow_sub p)
  rw [Nat.zero_add] at hn
  obtain ⟨s, hs, rfl⟩ := hn
  rw [ht_rootPos hs]
  exact ⟨s, hs, rfl⟩

theorem isNode_iff (p h : Nat) : IsNode p h ↔ ht p = h := by
  constructor
  · rintro ⟨s, hs, rfl⟩; exact ht_rootPos hs
  · rintro rfl; exact isNode_ht p

theorem ht_bound (p : Nat) : 2 ^ (ht p + 1) - 2 ≤ p := by
  obtain ⟨s, _, hp⟩ := isNode_ht p
  rw [rootPos] at hp
  omega

/-- Every subtree is the left or the right half of the next larger one. -/
theorem subtree_cases {s h : Nat} (hs : Subtree s h) :
    Subtree s (h + 1) ∨ ∃ s', Subtree s' (h + 1) ∧ s = s' + (2 ^ (h + 1) - 1) := by
  cases hs with
  | top => exact Or.inl (Subtree.top _)
  | left hs => exact Or.inl hs
  | right hs => exact Or.inr ⟨_, hs, rfl⟩

/-! ## Leaf positions -/

theorem countBits_zero : countBits 0 = 0 := by rw [countBits]; simp

theorem countBits_two_mul_add (n b : Nat) (hb : b < 2) : countBits (2 * n + b) = b + countBits n := by
  rw [countBits]
  by_cases h : 2 * n + b = 0
  · have : n = 0 ∧ b = 0 := by omega
    simp [this.1, this.2, countBits_zero]
  · rw [if_neg h, Nat.shiftRight_eq_div_pow, Nat.and_one_is_mod]
    congr 1
    · omega
    · congr 1; omega

theorem countBits_le (n : Nat) : countBits n ≤ n := by
  induction n using Nat.strongRecOn with
  | _ n ih =>
    by_cases h : n = 0
    · subst h; simp [countBits_zero]
    · have e : n = 2 * (n / 2) + n % 2 := by omega
      rw [e, countBits_two_mul_add _ _ (by omega)]
      have := ih (n / 2) (by omega)
      omega

theorem countBits_pow_add (k m : Nat) (h : m < 2 ^ k) : countBits (2 ^ k + m) = 1 + countBits m := by
  induction k generalizing m with
  | zero =>
    have : m = 0 := by simpa using h
    subst this
    have := countBits_two_mul_add 0 1 (by omega)
    simpa [countBits_zero] using this
  | succ k ih =>
    have e : 2 ^ (k + 1) + m = 2 * (2 ^ k + m / 2) + m % 2 := by rw [Nat.pow_succ]; omega
    rw [e, countBits_two_mul_add _ _ (by omega), ih _ (by rw [Nat.pow_succ] at h; omega)]
    have e2 : countBits m = m % 2 + countBits (m / 2) := by
      conv => lhs; rw [show m = 2 * (m / 2) + m % 2 by omega]
      exact countBits_two_mul_add _ _ (by omega)
    omega

theorem leafPos_zero : leafPos 0 = 0 := by simp [leafPos]

theorem leafPos_pow_add {k m : Nat} (h : m < 2 ^ k) :
    leafPos (2 ^ k + m) = (2 ^ (k + 1) - 1) + leafPos m := by
  unfold leafPos
  rw [countBits_pow_add k m h]
  have := countBits_le m
  have := Nat.pow_succ 2 k
  have := two_pow_pos' k
  omega

theorem leafPos_lt {k n : Nat} (h : n < 2 ^ k) : leafPos n ≤ 2 ^ (k + 1) - 2 := by
  unfold leafPos
  have := Nat.pow_succ 2 k
  omega

/-- Split a number below `2^(k+1)` at its top bit. -/
theorem split_pow {k n : Nat} (h : n < 2 ^ (k + 1)) :
    n < 2 ^ k ∨ ∃ m, m < 2 ^ k ∧ n = 2 ^ k + m := by
  have := Nat.pow_succ 2 k
  by_cases h1 : n < 2 ^ k
  · exact Or.inl h1
  · exact Or.inr ⟨n - 2 ^ k, by omega, by omega⟩

theorem ht_leafPos (n : Nat) : ht (leafPos n) = 0 := by
  have key : ∀ k n, n < 2 ^ k → ht (leafPos n) = 0 := by
    intro k
    induction k with
    | zero => intro n h; have : n = 0 := by simpa using h
              subst this; rw [leafPos_zero, ht_zero]
    | succ k ih =>
      intro n h
      rcases split_pow h with h1 | ⟨m, hm, rfl⟩
      · exact ih n h1
      · rw [leafPos_pow_add hm, ht_right (leafPos_lt hm)]
        exact ih m hm
  exact key n n Nat.lt_two_pow_self

theorem leafPos_surj {k p : Nat} (hp : p ≤ 2 ^ (k + 1) - 2) (h0 : ht p = 0) :
    ∃ n < 2 ^ k, p = leafPos n := by
  induction k generalizing p with
  | zero => exact ⟨0, by simp, by rw [leafPos_zero]; simpa using hp⟩
  | succ k ih =>
    have h1 := Nat.pow_succ 2 (k + 1)
    have h2 := Nat.pow_succ 2 k
    have := two_pow_pos' k
    by_cases hp1 : p ≤ 2 ^ (k + 1) - 2
    · obtain ⟨n, hn, e⟩ := ih hp1 h0
      exact ⟨n, by omega, e⟩
    · by_cases hp2 : p = 2 ^ (k + 1 + 1) - 2
      · rw [hp2, ht_top] at h0; omega
      · have hx : p - (2 ^ (k + 1) - 1) ≤ 2 ^ (k + 1) - 2 := by omega
        have hh := ht_right hx
        rw [show 2 ^ (k + 1) - 1 + (p - (2 ^ (k + 1) - 1)) = p by omega, h0] at hh
        obtain ⟨m, hm, e⟩ := ih hx hh.symm
        refine ⟨2 ^ k + m, by omega, ?_⟩
        rw [leafPos_pow_add hm, ← e]; omega

theorem leafPos_strictMono {a b : Nat} (h : a < b) : leafPos a < leafPos b := by
  have key : ∀ n, leafPos n < leafPos (n + 1) := by
    intro n
    have hk : ∀ k n, n + 1 < 2 ^ k → leafPos n < leafPos (n + 1) := by
      intro k
      induction k with
      | zero => intro n h; simp at h
      | succ k ih =>
        intro n h
        have h2 := Nat.pow_succ 2 k
        rcases split_pow h with h1 | ⟨m, hm, e⟩
        · exact ih n h1
        · by_cases hm0 : m = 0
          · subst hm0
            rw [e, leafPos_pow_add (two_pow_pos' k), leafPos_zero]
            have := leafPos_lt (k := k) (n := n) (by omega)
            have := two_pow_pos' k
            omega
          · have e1 : n = 2 ^ k + (m - 1) := by omega
            rw [e, e1, leafPos_pow_add hm, leafPos_pow_add (by omega)]
            have := ih (m - 1) (by omega)
            rw [show m - 1 + 1 = m by omega] at this
            omega
    exact hk (n + 1) n Nat.lt_two_pow_self
  induction b with
  | zero => omega
  | succ b ih =>
    have := key b
    by_cases hab : a = b
    · subst hab; exact this
    · have := ih (by omega); omega

theorem leafPos_inj {a b : Nat} (h : leafPos a = leafPos b) : a = b := by
  rcases Nat.lt_trichotomy a b with h1 | h1 | h1
  · have := leafPos_strictMono h1; omega
  · exact h1
  · have := leafPos_strictMono h1; omega

theorem leafLoop_zero (x a : Nat) : leafLoop (2 ^ 0 - 1) x a = a := by rw [leafLoop]; simp

theorem leafLoop_succ (k x a : Nat) : leafLoop (2 ^ (k + 1) - 1) x a =
    if x ≥ 2 ^ (k + 1) - 1 then leafLoop (2 ^ k - 1) (x - (2 ^ (k + 1) - 1)) (a + 2 ^ k)
    else leafLoop (2 ^ k - 1) x a := by
  have := two_pow_pos' k
  have := Nat.pow_succ 2 k
  rw [leafLoop, pow_sub_one_shift, if_neg (by omega),
    show (2 ^ (k + 1) - 1 + 1) / 2 = 2 ^ k by omega]

theorem leafLoop_leafPos {k n : Nat} (h : n < 2 ^ k) (a : Nat) :
    leafLoop (2 ^ k - 1) (leafPos n) a = a + n := by
  induction k generalizing n a with
  | zero => have : n = 0 := by simpa using h
            subst this; rw [leafLoop_zero]; rfl
  | succ k ih =>
    have := two_pow_pos' k
    have h2 := Nat.pow_succ 2 k
    rw [leafLoop_succ]
    rcases split_pow h with h1 | ⟨m, hm, rfl⟩
    · have := leafPos_lt h1
      rw [if_neg (by omega)]
      exact ih h1 a
    · rw [leafPos_pow_add hm, if_pos (by omega),
        show 2 ^ (k + 1) - 1 + leafPos m - (2 ^ (k + 1) - 1) = leafPos m by omega, ih hm]
      omega

theorem leafPos_ge (n : Nat) : n ≤ leafPos n := by
  unfold leafPos
  have := countBits_le n
  omega

theorem calcLeafIndex_leafPos {n : Nat} (hn : leafPos n < 2 ^ 64) : calcLeafIndex (leafPos n) = n := by
  obtain ⟨k, hk, hlt, _⟩ := fillOnes_eq hn
  unfold calcLeafIndex
  have := leafPos_ge n
  rw [hk, leafLoop_leafPos (by omega)]
  omega

/-! ## Peaks -/

theorem peakLoop_zero (x a : Nat) : peakLoop (2 ^ 0 - 1) x a = (x, []) := by rw [peakLoop]; simp

theorem peakLoop_succ (k x a : Nat) : peakLoop (2 ^ (k + 1) - 1) x a =
    if x ≥ 2 ^ (k + 1) - 1 then
      ((peakLoop (2 ^ k - 1) (x - (2 ^ (k + 1) - 1)) (a + (2 ^ (k + 1) - 1))).1,
       (a + (2 ^ (k + 1) - 1) - 1) ::
         (peakLoop (2 ^ k - 1) (x - (2 ^ (k + 1) - 1)) (a + (2 ^ (k + 1) - 1))).2)
    else peakLoop (2 ^ k - 1) x a := by
  have := two_pow_pos' k
  have := Nat.pow_succ 2 k
  rw [peakLoop, pow_sub_one_shift, if_neg (by omega)]

theorem peakLoop_fst (k x a : Nat) : (peakLoop (2 ^ k - 1) x a).1 = heightLoop (2 ^ k - 1) x := by
  induction k generalizing x a with
  | zero => rw [peakLoop_zero, heightLoop_zero]
  | succ k ih =>
    rw [peakLoop_succ, heightLoop_succ]
    by_cases h : x ≥ 2 ^ (k + 1) - 1
    · rw [if_pos h, if_pos h]; exact ih _ _
    · rw [if_neg h, if_neg h]; exact ih _ _

end Verif.MMR
