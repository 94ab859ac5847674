import Verif.PoW.Uint128
import Mathlib.Tactic.Ring
import Mathlib.Data.Nat.Size

/-!
# C90: the 128-bit integers compute with whole numbers

The specification is ordinary arithmetic on `Nat`: `U128.val` reads the two words as one number.
-/

namespace Verif.PoW.U128

open Verif

/-- The number two words stand for: the specification side of every theorem below. -/
def val (a : U128) : Nat := a.upper.toNat * 2 ^ 64 + a.lower.toNat

theorem val_lt (a : U128) : a.val < 2 ^ 128 := by
  have h1 := a.upper.toNat_lt
  have h2 := a.lower.toNat_lt
  unfold val; omega

theorem val_inj {a b : U128} (h : a.val = b.val) : a = b := by
  have h1 := a.lower.toNat_lt
  have h2 := b.lower.toNat_lt
  unfold val at h
  have hu : a.upper.toNat = b.upper.toNat := by omega
  have hl : a.lower.toNat = b.lower.toNat := by omega
  cases a; cases b
  simp only [mk.injEq]
  exact ⟨UInt64.toNat_inj.mp hu, UInt64.toNat_inj.mp hl⟩

private theorem val_zero : zero.val = 0 := rfl
private theorem val_one : one.val = 1 := rfl
private theorem val_ofWord (w : UInt64) : (ofWord w).val = w.toNat := by simp [val, ofWord]

private theorem bit_toNat (b : Bool) : (bit b).toNat = if b then 1 else 0 := by cases b <;> rfl

/-- Sum. -/
theorem u128_add (a b : U128) : (add a b).val = (a.val + b.val) % 2 ^ 128 := by
  have h1 := a.upper.toNat_lt
  have h2 := a.lower.toNat_lt
  have h3 := b.upper.toNat_lt
  have h4 := b.lower.toNat_lt
  simp only [val, add, UInt64.toNat_add, bit_toNat, decide_eq_true_eq, UInt64.lt_iff_toNat_lt]
  split <;> omega

/-- Difference. -/
theorem u128_sub (a b : U128) : (sub a b).val = (a.val + (2 ^ 128 - b.val)) % 2 ^ 128 := by
  have h1 := a.upper.toNat_lt
  have h2 := a.lower.toNat_lt
  have h3 := b.upper.toNat_lt
  have h4 := b.lower.toNat_lt
  simp only [val, sub, UInt64.toNat_sub, bit_toNat, decide_eq_true_eq, UInt64.lt_iff_toNat_lt, gt_iff_lt]
  split <;> omega

private theorem val_incr (a : U128) : (incr a).val = (a.val + 1) % 2 ^ 128 := u128_add a one

/-- The opposite. -/
theorem u128_neg (a : U128) : (neg a).val = (2 ^ 128 - a.val) % 2 ^ 128 := by
  have h1 := a.upper.toNat_lt
  have h2 := a.lower.toNat_lt
  rw [neg, u128_add, val_one]
  simp only [val, not, UInt64.toNat_not, UInt64.size]
  omega

/-- Order and equality. -/
theorem u128_order (a b : U128) :
    (eq a b = true ↔ a.val = b.val) ∧ (lt a b = true ↔ a.val < b.val) ∧ (gt a b = true ↔ a.val > b.val)
      ∧ (le a b = true ↔ a.val ≤ b.val) ∧ (ge a b = true ↔ a.val ≥ b.val) := by
  have h1 := a.upper.toNat_lt
  have h2 := a.lower.toNat_lt
  have h3 := b.upper.toNat_lt
  have h4 := b.lower.toNat_lt
  have e : eq a b = true ↔ a.val = b.val := by
    simp only [eq, Bool.and_eq_true, beq_iff_eq, val, ← UInt64.toNat_inj]; omega
  have l : lt a b = true ↔ a.val < b.val := by
    unfold lt
    by_cases h : a.upper = b.upper
    · simp only [h, beq_self_eq_true, if_true, decide_eq_true_eq, UInt64.lt_iff_toNat_lt, val]; omega
    · simp only [beq_iff_eq, h, if_false, decide_eq_true_eq, UInt64.lt_iff_toNat_lt, val]
      rw [← UInt64.toNat_inj] at h; omega
  have g : gt a b = true ↔ a.val > b.val := by
    unfold gt
    by_cases h : a.upper = b.upper
    · simp only [h, beq_self_eq_true, if_true, decide_eq_true_eq, UInt64.lt_iff_toNat_lt, val, gt_iff_lt]; omega
    · simp only [beq_iff_eq, h, if_false, decide_eq_true_eq, UInt64.lt_iff_toNat_lt, val, gt_iff_lt]
      rw [← UInt64.toNat_inj] at h; omega
  refine ⟨e, l, g, ?_, ?_⟩
  · rw [le, Bool.or_eq_true, e, l]; omega
  · rw [ge, Bool.or_eq_true, e, g]; omega

private theorem toBool_iff (a : U128) : toBool a = true ↔ a.val ≠ 0 := by
  simp only [toBool, bne_iff_ne, ne_eq, ← UInt64.toNat_inj, UInt64.toNat_or, val]
  constructor
  · intro h hz
    apply h
    have : a.upper.toNat = 0 := by omega
    have h2 : a.lower.toNat = 0 := by omega
    rw [this, h2]; rfl
  · intro h hz
    apply h
    have hz : a.upper.toNat ||| a.lower.toNat = 0 := hz
    rw [Nat.or_eq_zero_iff] at hz
    omega

/-- Left shift by any amount. -/
theorem u128_shl (a s : U128) : (shl a s).val = a.val * 2 ^ s.val % 2 ^ 128 := by
  have h1 := a.upper.toNat_lt
  have h2 := a.lower.toNat_lt
  have big : 128 ≤ s.val → a.val * 2 ^ s.val % 2 ^ 128 = 0 := by
    intro h
    obtain ⟨k, hk⟩ := Nat.exists_eq_add_of_le h
    rw [hk, Nat.pow_add, Nat.mul_left_comm, Nat.mul_mod_right]
  unfold shl
  simp only
  by_cases hc : s.upper = 0 ∧ s.lower.toNat < 128
  · obtain ⟨hu, hl⟩ := hc
    have hn : ¬ ((s.upper != 0 || decide (s.lower ≥ 128)) = true) := by
      simp only [hu, bne_self_eq_false, Bool.false_or, decide_eq_true_eq, ge_iff_le, UInt64.le_iff_toNat_le]
      have : (128 : UInt64).toNat = 128 := rfl
      omega
    rw [if_neg hn]
    have hs : s.val = s.lower.toNat := by simp [val, hu]
    have c64 : (64 : UInt64).toNat = 64 := rfl
    have c0 : (0 : UInt64).toNat = 0 := rfl
    have c128 : (128 : UInt64).toNat = 128 := rfl
    rw [hs]
    simp only [beq_iff_eq, ← UInt64.toNat_inj, UInt64.lt_iff_toNat_lt, c64, c0, c128, gt_iff_lt, Bool.and_eq_true,
      decide_eq_true_eq]
    generalize hk : s.lower.toNat = k at *
    by_cases k64 : k = 64
    · rw [if_pos k64]; subst k64; simp only [val, c0]; omega
    rw [if_neg k64]
    by_cases k0 : k = 0
    · rw [if_pos k0]; subst k0; have := a.val_lt; omega
    rw [if_neg k0]
    by_cases klt : k < 64
    · rw [if_pos klt]
      have e1 : (64 - s.lower).toNat % 64 = 64 - k := by
        rw [UInt64.toNat_sub, c64, hk]; omega
      simp only [val, UInt64.toNat_add, UInt64.toNat_shiftLeft, UInt64.toNat_shiftRight, hk, e1,
        Nat.mod_eq_of_lt klt, Nat.shiftLeft_eq, Nat.shiftRight_eq_div_pow]
      have hp : 2 ^ 64 = 2 ^ k * 2 ^ (64 - k) := by rw [← Nat.pow_add]; congr 1; omega
      have hq : 0 < 2 ^ (64 - k) := Nat.pow_pos (by omega)
      have hpk : 0 < 2 ^ k := Nat.pow_pos (by omega)
      -- the low word times 2^k splits at 2^64 where the code cuts it
      have ed : a.lower.toNat * 2 ^ k / 2 ^ 64 = a.lower.toNat / 2 ^ (64 - k) := by
        rw [hp, Nat.mul_comm (2 ^ k), Nat.mul_div_mul_right _ _ hpk]
      have hdl : a.lower.toNat / 2 ^ (64 - k) < 2 ^ 64 := Nat.lt_of_le_of_lt (Nat.div_le_self _ _) h2
      rw [← ed, Nat.add_mul, Nat.mul_right_comm]
      generalize a.lower.toNat * 2 ^ k = L at *
      generalize a.upper.toNat * 2 ^ k = U at *
      omega
    rw [if_neg klt, if_pos ⟨hl, by omega⟩]
    have e1 : (s.lower - 64).toNat % 64 = k - 64 := by
      rw [UInt64.toNat_sub, c64, hk]; omega
    simp only [val, UInt64.toNat_shiftLeft, e1, Nat.shiftLeft_eq, c0]
    have hp : 2 ^ k = 2 ^ (k - 64) * 2 ^ 64 := by rw [← Nat.pow_add]; congr 1; omega
    rw [hp, Nat.add_mul, ← Nat.mul_assoc, ← Nat.mul_assoc, Nat.mul_right_comm a.upper.toNat]
    generalize a.lower.toNat * 2 ^ (k - 64) = L at *
    generalize a.upper.toNat * 2 ^ (k - 64) = U at *
    omega
  · have hy : (s.upper != 0 || decide (s.lower ≥ 128)) = true := by
      simp only [Bool.or_eq_true, bne_iff_ne, decide_eq_true_eq, ge_iff_le, UInt64.le_iff_toNat_le]
      have : (128 : UInt64).toNat = 128 := rfl
      rw [this]
      by_cases hu : s.upper = 0
      · exact Or.inr (by have : ¬ s.lower.toNat < 128 := fun h => hc ⟨hu, h⟩; omega)
      · exact Or.inl hu
    rw [if_pos hy, val_zero, big]
    by_cases hu : s.upper = 0
    · have : ¬ s.lower.toNat < 128 := fun h => hc ⟨hu, h⟩
      unfold val; omega
    · rw [← UInt64.toNat_inj] at hu
      have : (0 : UInt64).toNat = 0 := rfl
      unfold val; omega

/-- Right shift by any amount. -/
theorem u128_shr (a s : U128) : (shr a s).val = a.val / 2 ^ s.val := by
  have h1 := a.upper.toNat_lt
  have h2 := a.lower.toNat_lt
  unfold shr
  simp only
  by_cases hc : s.upper = 0 ∧ s.lower.toNat < 128
  · obtain ⟨hu, hl⟩ := hc
    have hn : ¬ ((s.upper != 0 || decide (s.lower ≥ 128)) = true) := by
      simp only [hu, bne_self_eq_false, Bool.false_or, decide_eq_true_eq, ge_iff_le, UInt64.le_iff_toNat_le]
      have : (128 : UInt64).toNat = 128 := rfl
      omega
    rw [if_neg hn]
    have hs : s.val = s.lower.toNat := by simp [val, hu]
    have c64 : (64 : UInt64).toNat = 64 := rfl
    have c0 : (0 : UInt64).toNat = 0 := rfl
    have c128 : (128 : UInt64).toNat = 128 := rfl
    rw [hs]
    simp only [beq_iff_eq, ← UInt64.toNat_inj, UInt64.lt_iff_toNat_lt, c64, c0, c128, gt_iff_lt, Bool.and_eq_true,
      decide_eq_true_eq]
    generalize hk : s.lower.toNat = k at *
    by_cases k64 : k = 64
    · rw [if_pos k64]; subst k64; simp only [val, c0]; omega
    rw [if_neg k64]
    by_cases k0 : k = 0
    · rw [if_pos k0]; subst k0; omega
    rw [if_neg k0]
    by_cases klt : k < 64
    · rw [if_pos klt]
      have e1 : (64 - s.lower).toNat % 64 = 64 - k := by
        rw [UInt64.toNat_sub, c64, hk]; omega
      simp only [val, UInt64.toNat_add, UInt64.toNat_shiftLeft, UInt64.toNat_shiftRight, hk, e1,
        Nat.mod_eq_of_lt klt, Nat.shiftLeft_eq, Nat.shiftRight_eq_div_pow]
      have hp : 2 ^ 64 = 2 ^ (64 - k) * 2 ^ k := by rw [← Nat.pow_add]; congr 1; omega
      have hq : 0 < 2 ^ (64 - k) := Nat.pow_pos (by omega)
      have hpk : 0 < 2 ^ k := Nat.pow_pos (by omega)
      -- what falls out of the upper word
      have ed : (a.upper.toNat * 2 ^ 64 + a.lower.toNat) / 2 ^ k
          = a.upper.toNat * 2 ^ (64 - k) + a.lower.toNat / 2 ^ k := by
        rw [hp, ← Nat.mul_assoc, Nat.add_comm, Nat.add_mul_div_right _ _ hpk, Nat.add_comm]
      have em : a.upper.toNat * 2 ^ (64 - k) % 2 ^ 64 = (a.upper.toNat % 2 ^ k) * 2 ^ (64 - k) := by
        rw [hp, Nat.mul_comm (2 ^ (64 - k)), Nat.mul_mod_mul_right]
      have hud : a.upper.toNat * 2 ^ (64 - k)
          = (a.upper.toNat / 2 ^ k) * 2 ^ 64 + (a.upper.toNat % 2 ^ k) * 2 ^ (64 - k) := by
        rw [hp]
        conv_lhs => rw [← Nat.div_add_mod a.upper.toNat (2 ^ k)]
        ring
      have hlo : a.lower.toNat / 2 ^ k < 2 ^ (64 - k) := by
        rw [Nat.div_lt_iff_lt_mul hpk, ← hp]; exact h2
      have hmm : a.upper.toNat % 2 ^ k < 2 ^ k := Nat.mod_lt _ hpk
      have hsum : (a.upper.toNat % 2 ^ k) * 2 ^ (64 - k) + a.lower.toNat / 2 ^ k < 2 ^ 64 := by
        have : (a.upper.toNat % 2 ^ k + 1) * 2 ^ (64 - k) ≤ 2 ^ k * 2 ^ (64 - k) := Nat.mul_le_mul_right _ hmm
        rw [Nat.add_mul, Nat.mul_comm (2 ^ k), ← hp] at this
        omega
      rw [ed, em, hud, Nat.mod_eq_of_lt hsum, Nat.add_assoc]
    rw [if_neg klt, if_pos ⟨hl, by omega⟩]
    have e1 : (s.lower - 64).toNat % 64 = k - 64 := by
      rw [UInt64.toNat_sub, c64, hk]; omega
    simp only [val, UInt64.toNat_shiftRight, e1, Nat.shiftRight_eq_div_pow, c0]
    have hp : 2 ^ k = 2 ^ 64 * 2 ^ (k - 64) := by rw [← Nat.pow_add]; congr 1; omega
    rw [hp, ← Nat.div_div_eq_div_mul]
    have : (a.upper.toNat * 2 ^ 64 + a.lower.toNat) / 2 ^ 64 = a.upper.toNat := by omega
    rw [this]; omega
  · have hy : (s.upper != 0 || decide (s.lower ≥ 128)) = true := by
      simp only [Bool.or_eq_true, bne_iff_ne, decide_eq_true_eq, ge_iff_le, UInt64.le_iff_toNat_le]
      have : (128 : UInt64).toNat = 128 := rfl
      rw [this]
      by_cases hu : s.upper = 0
      · exact Or.inr (by have : ¬ s.lower.toNat < 128 := fun h => hc ⟨hu, h⟩; omega)
      · exact Or.inl hu
    have big : 128 ≤ s.val := by
      by_cases hu : s.upper = 0
      · have : ¬ s.lower.toNat < 128 := fun h => hc ⟨hu, h⟩
        unfold val; omega
      · rw [← UInt64.toNat_inj] at hu
        have : (0 : UInt64).toNat = 0 := rfl
        unfold val; omega
    rw [if_pos hy, val_zero, Nat.div_eq_of_lt]
    exact Nat.lt_of_lt_of_le a.val_lt (Nat.pow_le_pow_right (by omega) big)

private theorem digits (u l : Nat) : u * 2 ^ 64 + l
    = u / 2 ^ 32 * 2 ^ 96 + u % 2 ^ 32 * 2 ^ 64 + l / 2 ^ 32 * 2 ^ 32 + l % 2 ^ 32 := by omega

/-- Propagating the carries of four digits. -/
private theorem carries (top f s t l : Nat) (hl : l < 2 ^ 32) :
    (((f + (s + t / 2 ^ 32) / 2 ^ 32) % 2 ^ 32 * 2 ^ 32 + (s + t / 2 ^ 32) % 2 ^ 32) * 2 ^ 64
      + (t % 2 ^ 32 * 2 ^ 32 + l))
      = (top * 2 ^ 128 + f * 2 ^ 96 + s * 2 ^ 64 + t * 2 ^ 32 + l) % 2 ^ 128 := by
  omega

private theorem cut {p : Nat} (h : p ≤ (2 ^ 32 - 1) * (2 ^ 32 - 1)) :
    ∃ a b, a < 2 ^ 32 ∧ b < 2 ^ 32 ∧ p = a * 2 ^ 32 + b :=
  ⟨p / 2 ^ 32, p % 2 ^ 32, by omega, by omega, by omega⟩

/-- The carries of the schoolbook product. -/
private theorem mul_carries (P30 P31 P32 P33 P21 P22 P23 P12 P13 P03 top : Nat)
    (q30 : P30 ≤ (2 ^ 32 - 1) * (2 ^ 32 - 1))
    (q31 : P31 ≤ (2 ^ 32 - 1) * (2 ^ 32 - 1))
    (q32 : P32 ≤ (2 ^ 32 - 1) * (2 ^ 32 - 1))
    (q33 : P33 ≤ (2 ^ 32 - 1) * (2 ^ 32 - 1))
    (q21 : P21 ≤ (2 ^ 32 - 1) * (2 ^ 32 - 1))
    (q22 : P22 ≤ (2 ^ 32 - 1) * (2 ^ 32 - 1))
    (q23 : P23 ≤ (2 ^ 32 - 1) * (2 ^ 32 - 1))
    (q12 : P12 ≤ (2 ^ 32 - 1) * (2 ^ 32 - 1))
    (q13 : P13 ≤ (2 ^ 32 - 1) * (2 ^ 32 - 1))
    (q03 : P03 ≤ (2 ^ 32 - 1) * (2 ^ 32 - 1))
    : ((((((P30 % 2 ^ 32 + P31 / 2 ^ 32) % 2 ^ 64 + (P21 % 2 ^ 32 + P22 / 2 ^ 32) % 2 ^ 64) % 2 ^ 64 + (P12 %
      2 ^ 32 + P13 / 2 ^ 32) % 2 ^ 64) % 2 ^ 64 + P03 % 2 ^ 32) % 2 ^ 64 + ((((P31 % 2 ^ 32 + P32 / 2 ^ 32) %
      2 ^ 64 + (P22 % 2 ^ 32 + P23 / 2 ^ 32) % 2 ^ 64) % 2 ^ 64 + P13 % 2 ^ 32) % 2 ^ 64 + (((P32 % 2 ^ 32 +
      P33 / 2 ^ 32) % 2 ^ 64 + P23 % 2 ^ 32) % 2 ^ 64 + P33 % 2 ^ 32 / 2 ^ 32) % 2 ^ 64 / 2 ^ 32) % 2 ^ 64 / 2
      ^ 32) % 2 ^ 64 % 2 ^ 32 * 2 ^ 32 + ((((P31 % 2 ^ 32 + P32 / 2 ^ 32) % 2 ^ 64 + (P22 % 2 ^ 32 + P23 / 2 ^
      32) % 2 ^ 64) % 2 ^ 64 + P13 % 2 ^ 32) % 2 ^ 64 + (((P32 % 2 ^ 32 + P33 / 2 ^ 32) % 2 ^ 64 + P23 % 2 ^
      32) % 2 ^ 64 + P33 % 2 ^ 32 / 2 ^ 32) % 2 ^ 64 / 2 ^ 32) % 2 ^ 64 % 2 ^ 32) * 2 ^ 64 + ((((P32 % 2 ^ 32
      + P33 / 2 ^ 32) % 2 ^ 64 + P23 % 2 ^ 32) % 2 ^ 64 + P33 % 2 ^ 32 / 2 ^ 32) % 2 ^ 64 % 2 ^ 32 * 2 ^ 32 +
      P33 % 2 ^ 32 % 2 ^ 32) = (top * 2 ^ 128 + (P30 + P21 + P12 + P03) * 2 ^ 96 + (P31 + P22 + P13) * 2 ^ 64
      + (P32 + P23) * 2 ^ 32 + P33) % 2 ^ 128 := by
  obtain ⟨h30, l30, hh30, hl30, rfl⟩ := cut q30
  obtain ⟨h31, l31, hh31, hl31, rfl⟩ := cut q31
  obtain ⟨h32, l32, hh32, hl32, rfl⟩ := cut q32
  obtain ⟨h33, l33, hh33, hl33, rfl⟩ := cut q33
  obtain ⟨h21, l21, hh21, hl21, rfl⟩ := cut q21
  obtain ⟨h22, l22, hh22, hl22, rfl⟩ := cut q22
  obtain ⟨h23, l23, hh23, hl23, rfl⟩ := cut q23
  obtain ⟨h12, l12, hh12, hl12, rfl⟩ := cut q12
  obtain ⟨h13, l13, hh13, hl13, rfl⟩ := cut q13
  obtain ⟨h03, l03, hh03, hl03, rfl⟩ := cut q03
  have eh : ∀ h l : Nat, l < 2 ^ 32 → (h * 2 ^ 32 + l) / 2 ^ 32 = h := fun h l hl => by omega
  have el : ∀ h l : Nat, l < 2 ^ 32 → (h * 2 ^ 32 + l) % 2 ^ 32 = l := fun h l hl => by omega
  rw [el _ _ hl30, el _ _ hl31, el _ _ hl32, el _ _ hl33, el _ _ hl21, el _ _ hl22, el _ _ hl23, el _ _ hl12, el _ _ hl13, el _ _ hl03, eh _ _ hl31, eh _ _ hl32, eh _ _ hl33, eh _ _ hl22, eh _ _ hl23, eh _ _ hl13]
  rw [Nat.mod_eq_of_lt hl33, Nat.div_eq_of_lt hl33]
  have w : ∀ x : Nat, x < 2 ^ 40 → x % 2 ^ 64 = x := fun x hx => Nat.mod_eq_of_lt (by omega)
  rw [w (l30 + h31) (by omega), w (l21 + h22) (by omega), w (l12 + h13) (by omega), w (l31 + h32) (by omega),
    w (l22 + h23) (by omega), w (l32 + h33) (by omega)]
  rw [w (l30 + h31 + (l21 + h22)) (by omega), w (l31 + h32 + (l22 + h23)) (by omega), w (l32 + h33 + l23) (by omega)]
  rw [w (l30 + h31 + (l21 + h22) + (l12 + h13)) (by omega), w (l31 + h32 + (l22 + h23) + l13) (by omega),
    w (l32 + h33 + l23 + 0) (by omega)]
  rw [w (l30 + h31 + (l21 + h22) + (l12 + h13) + l03) (by omega),
    w (l31 + h32 + (l22 + h23) + l13 + (l32 + h33 + l23 + 0) / 2 ^ 32) (by omega)]
  rw [w (l30 + h31 + (l21 + h22) + (l12 + h13) + l03
    + (l31 + h32 + (l22 + h23) + l13 + (l32 + h33 + l23 + 0) / 2 ^ 32) / 2 ^ 32) (by omega)]
  rw [carries (top + h30 + h21 + h12 + h03) _ _ _ l33 hl33]
  exact congrArg (· % 2 ^ 128) (by ring)

/-- Product. -/
theorem u128_mul (a b : U128) : (mul a b).val = a.val * b.val % 2 ^ 128 := by
  have m32 : ∀ w : UInt64, (w &&& 0xffffffff).toNat = w.toNat % 2 ^ 32 := fun w => by
    rw [UInt64.toNat_and]; exact Nat.and_two_pow_sub_one_eq_mod w.toNat 32
  have s32 : ∀ w : UInt64, (w >>> 32).toNat = w.toNat / 2 ^ 32 := fun w => by
    rw [UInt64.toNat_shiftRight]; exact Nat.shiftRight_eq_div_pow _ _
  have join : ∀ x y : UInt64, ((x &&& 0xffffffff) <<< 32 ||| (y &&& 0xffffffff)).toNat
      = x.toNat % 2 ^ 32 * 2 ^ 32 + y.toNat % 2 ^ 32 := fun x y => by
    rw [UInt64.toNat_or, UInt64.toNat_shiftLeft, m32, m32]
    have : (32 : UInt64).toNat % 64 = 32 := rfl
    rw [this]
    have hx : x.toNat % 2 ^ 32 < 2 ^ 32 := Nat.mod_lt _ (by omega)
    have hy : y.toNat % 2 ^ 32 < 2 ^ 32 := Nat.mod_lt _ (by omega)
    have hl : (x.toNat % 2 ^ 32) <<< 32 < 2 ^ 64 := by rw [Nat.shiftLeft_eq]; omega
    rw [Nat.mod_eq_of_lt hl, ← Nat.shiftLeft_add_eq_or_of_lt hy, Nat.shiftLeft_eq]
  have hd : ∀ w : UInt64, w.toNat / 2 ^ 32 < 2 ^ 32 := fun w => by have := w.toNat_lt; omega
  have hm : ∀ w : UInt64, w.toNat % 2 ^ 32 < 2 ^ 32 := fun w => Nat.mod_lt _ (by omega)
  have pl : ∀ {x y : Nat}, x < 2 ^ 32 → y < 2 ^ 32 → x * y ≤ (2 ^ 32 - 1) * (2 ^ 32 - 1) := fun hx hy =>
    Nat.mul_le_mul (by omega) (by omega)
  have pw : ∀ {x y : Nat}, x < 2 ^ 32 → y < 2 ^ 32 → x * y % 2 ^ 64 = x * y := fun hx hy => by
    have := pl hx hy; exact Nat.mod_eq_of_lt (by omega)
  have i0 : (3 - 0 : Fin 4) = 3 := rfl
  have i1 : (3 - 1 : Fin 4) = 2 := rfl
  have i2 : (3 - 2 : Fin 4) = 1 := rfl
  have i3 : (3 - 3 : Fin 4) = 0 := rfl
  simp only [val, mul, i0, i1, i2, i3, join, UInt64.toNat_add, s32, m32, UInt64.toNat_mul]
  rw [digits a.upper.toNat, digits b.upper.toNat]
  have t0 := hd a.upper
  have t1 := hm a.upper
  have t2 := hd a.lower
  have t3 := hm a.lower
  have u0 := hd b.upper
  have u1 := hm b.upper
  have u2 := hd b.lower
  have u3 := hm b.lower
  generalize a.upper.toNat / 2 ^ 32 = A0 at *
  generalize a.upper.toNat % 2 ^ 32 = A1 at *
  generalize a.lower.toNat / 2 ^ 32 = A2 at *
  generalize a.lower.toNat % 2 ^ 32 = A3 at *
  generalize b.upper.toNat / 2 ^ 32 = B0 at *
  generalize b.upper.toNat % 2 ^ 32 = B1 at *
  generalize b.lower.toNat / 2 ^ 32 = B2 at *
  generalize b.lower.toNat % 2 ^ 32 = B3 at *
  clear hd hm join m32 s32
  have hx : (A0 * 2 ^ 96 + A1 * 2 ^ 64 + A2 * 2 ^ 32 + A3) * (B0 * 2 ^ 96 + B1 * 2 ^ 64 + B2 * 2 ^ 32 + B3)
      = (A0 * B0 * 2 ^ 64 + (A0 * B1 + A1 * B0) * 2 ^ 32 + (A0 * B2 + A1 * B1 + A2 * B0)) * 2 ^ 128
        + (A3 * B0 + A2 * B1 + A1 * B2 + A0 * B3) * 2 ^ 96 + (A3 * B1 + A2 * B2 + A1 * B3) * 2 ^ 64
        + (A3 * B2 + A2 * B3) * 2 ^ 32 + A3 * B3 := by ring
  rw [hx, pw t3 u0, pw t3 u1, pw t3 u2, pw t3 u3, pw t2 u1, pw t2 u2, pw t2 u3, pw t1 u2, pw t1 u3, pw t0 u3]
  have q30 := pl t3 u0
  have q31 := pl t3 u1
  have q32 := pl t3 u2
  have q33 := pl t3 u3
  have q21 := pl t2 u1
  have q22 := pl t2 u2
  have q23 := pl t2 u3
  have q12 := pl t1 u2
  have q13 := pl t1 u3
  have q03 := pl t0 u3
  exact mul_carries _ _ _ _ _ _ _ _ _ _ _ q30 q31 q32 q33 q21 q22 q23 q12 q13 q03

private theorem bitsLoop_spec : ∀ (n : Nat) (w : UInt64) (out : UInt8), w.toNat < 2 ^ n → out.toNat + n < 256 →
    ∃ r, bitsLoop n w out = .ok r ∧ out.toNat ≤ r.toNat ∧ r.toNat ≤ out.toNat + n
      ∧ w.toNat < 2 ^ (r.toNat - out.toNat) ∧ (w.toNat ≠ 0 → out.toNat < r.toNat ∧ 2 ^ (r.toNat - out.toNat - 1) ≤ w.toNat)
  | 0, w, out, hw, ho => by
    have hz : w.toNat = 0 := by omega
    have hz' : w = 0 := UInt64.toNat_inj.mp hz
    refine ⟨out, ?_, by omega, by omega, by simp [hz], fun h => absurd hz h⟩
    simp [bitsLoop, hz']
  | n + 1, w, out, hw, ho => by
    by_cases hz : w = 0
    · refine ⟨out, by simp [bitsLoop, hz], by omega, by omega, by simp [hz], fun h => absurd (by simp [hz]) h⟩
    · have hne : w.toNat ≠ 0 := fun h => hz (UInt64.toNat_inj.mp h)
      have hs : (w >>> 1).toNat = w.toNat / 2 := by
        rw [UInt64.toNat_shiftRight]
        have : (1 : UInt64).toNat % 64 = 1 := rfl
        rw [this, Nat.shiftRight_eq_div_pow]
      have ho1 : (out + 1).toNat = out.toNat + 1 := by
        rw [UInt8.toNat_add]
        have : (1 : UInt8).toNat = 1 := rfl
        omega
      obtain ⟨r, e, h1, h2, h3, h4⟩ := bitsLoop_spec n (w >>> 1) (out + 1) (by rw [hs]; omega) (by omega)
      rw [hs, ho1] at h3 h4
      rw [ho1] at h1 h2
      have hp : 2 ^ (r.toNat - out.toNat) = 2 * 2 ^ (r.toNat - (out.toNat + 1)) := by
        rw [← Nat.pow_succ']; congr 1; omega
      refine ⟨r, ?_, by omega, by omega, by omega, fun _ => ⟨by omega, ?_⟩⟩
      · rw [bitsLoop, if_neg (by simpa using hz)]; exact e
      · by_cases hh : w.toNat / 2 = 0
        · rw [hh] at h3
          have : ¬ (2 ≤ w.toNat) := by omega
          by_cases hr : r.toNat = out.toNat + 1
          · rw [hr]; simp; omega
          · exfalso
            -- nothing is left after the first step, so the loop ends there
            have hw0 : w >>> 1 = 0 := UInt64.toNat_inj.mp (by rw [hs, hh]; rfl)
            have : bitsLoop n (w >>> 1) (out + 1) = .ok (out + 1) := by
              cases n <;> simp [bitsLoop, hw0]
            rw [this] at e
            injection e with e
            exact hr (by rw [← e, ho1])
        · obtain ⟨h5, h6⟩ := h4 hh
          have hp2 : 2 ^ (r.toNat - out.toNat - 1) = 2 * 2 ^ (r.toNat - (out.toNat + 1) - 1) := by
            rw [← Nat.pow_succ']; congr 1; omega
          omega

/-- The number of bits. -/
theorem u128_bits (a : U128) : ∃ r : UInt8, bits a = .ok r ∧ r.toNat ≤ 128 ∧ a.val < 2 ^ r.toNat
    ∧ (a.val = 0 → r.toNat = 0) ∧ (a.val ≠ 0 → 2 ^ (r.toNat - 1) ≤ a.val) := by
  have h1 := a.upper.toNat_lt
  have h2 := a.lower.toNat_lt
  have c64 : (64 : UInt8).toNat = 64 := rfl
  have c0 : (0 : UInt8).toNat = 0 := rfl
  unfold bits
  by_cases hu : a.upper = 0
  · obtain ⟨r, e, b1, b2, b3, b4⟩ := bitsLoop_spec 64 a.lower 0 h2 (by omega)
    have hv : a.val = a.lower.toNat := by simp [val, hu]
    rw [c0] at *
    refine ⟨r, by simpa [hu] using e, by omega, by rw [hv]; exact b3, fun hz => ?_, fun hz => ?_⟩
    · have hz' : a.lower = 0 := UInt64.toNat_inj.mp (by rw [← hv, hz]; rfl)
      rw [hz'] at e
      simp only [bitsLoop] at e
      injection e with e
      rw [← e]; rfl
    · rw [hv] at hz ⊢
      exact (b4 hz).2
  · obtain ⟨r, e, b1, b2, b3, b4⟩ := bitsLoop_spec 64 a.upper 64 h1 (by omega)
    rw [c64] at *
    have hne : a.upper.toNat ≠ 0 := fun h => hu (UInt64.toNat_inj.mp h)
    obtain ⟨b5, b6⟩ := b4 hne
    refine ⟨r, by simpa [hu] using e, by omega, ?_, fun hz => ?_, fun _ => ?_⟩
    · have hp : 2 ^ r.toNat = 2 ^ (r.toNat - 64) * 2 ^ 64 := by rw [← Nat.pow_add]; congr 1; omega
      rw [hp]; unfold val
      have := Nat.mul_le_mul_right (2 ^ 64) (show a.upper.toNat + 1 ≤ _ from b3)
      omega
    · unfold val at hz; omega
    · have hp : 2 ^ (r.toNat - 1) = 2 ^ (r.toNat - 64 - 1) * 2 ^ 64 := by rw [← Nat.pow_add]; congr 1; omega
      rw [hp]; unfold val
      exact Nat.le_trans (Nat.mul_le_mul_right (2 ^ 64) b6) (Nat.le_add_right _ _)

private theorem dbl (a : U128) (h : 2 * a.val < 2 ^ 128) : (shl a one).val = 2 * a.val := by
  rw [u128_shl, val_one, Nat.pow_one, Nat.mul_comm, Nat.mod_eq_of_lt h]

private theorem inc (a : U128) (h : a.val + 1 < 2 ^ 128) : (incr a).val = a.val + 1 := by
  rw [val_incr, Nat.mod_eq_of_lt h]

/-- The bit the division brings down. -/
private theorem bit_down (lhs : U128) (x : UInt8) (hx : x ≠ 0) :
    toBool (andWord (shr lhs (ofWord (x - 1).toUInt64)) 1) = decide (lhs.val / 2 ^ (x.toNat - 1) % 2 = 1) := by
  have hx0 : x.toNat ≠ 0 := fun h => hx (UInt8.toNat_inj.mp h)
  have hlt := x.toNat_lt
  have hs : (ofWord (x - 1).toUInt64).val = x.toNat - 1 := by
    rw [val_ofWord, UInt8.toNat_toUInt64, UInt8.toNat_sub]
    have : (1 : UInt8).toNat = 1 := rfl
    omega
  have ha : (andWord (shr lhs (ofWord (x - 1).toUInt64)) 1).val = (shr lhs (ofWord (x - 1).toUInt64)).val % 2 := by
    have h1 := (shr lhs (ofWord (x - 1).toUInt64)).lower.toNat_lt
    simp only [val, andWord, UInt64.toNat_and]
    have c1 : (1 : UInt64).toNat = 1 := rfl
    have c0 : (0 : UInt64).toNat = 0 := rfl
    rw [c1, c0, Nat.and_one_is_mod]
    omega
  rw [u128_shr, hs] at ha
  rw [Bool.eq_iff_iff, toBool_iff, ha, decide_eq_true_eq]
  omega

private theorem divStep_spec (lhs rhs : U128) (x : UInt8) (q r : U128) (hx : x ≠ 0) (hr : rhs.val ≠ 0)
    (hq : q.val = lhs.val / 2 ^ x.toNat / rhs.val) (hrem : r.val = lhs.val / 2 ^ x.toNat % rhs.val) :
    (divStep lhs rhs x (q, r)).1.val = lhs.val / 2 ^ (x.toNat - 1) / rhs.val
      ∧ (divStep lhs rhs x (q, r)).2.val = lhs.val / 2 ^ (x.toNat - 1) % rhs.val := by
  have hx0 : x.toNat ≠ 0 := fun h => hx (UInt8.toNat_inj.mp h)
  have hl := lhs.val_lt
  have hrl := rhs.val_lt
  have hR : 0 < rhs.val := by omega
  -- the next prefix of the dividend
  have hpre : lhs.val / 2 ^ x.toNat = lhs.val / 2 ^ (x.toNat - 1) / 2 := by
    rw [Nat.div_div_eq_div_mul, ← Nat.pow_succ]; congr 2; omega
  have hle : lhs.val / 2 ^ (x.toNat - 1) < 2 ^ 128 := Nat.lt_of_le_of_lt (Nat.div_le_self _ _) hl
  rw [hpre] at hq hrem
  unfold divStep
  simp only [bit_down lhs x hx]
  generalize lhs.val / 2 ^ (x.toNat - 1) = N at *
  have hdm := Nat.div_add_mod (N / 2) rhs.val
  have hml := Nat.mod_lt (N / 2) hR
  rw [← hq, ← hrem] at hdm
  rw [← hrem] at hml
  have hqN : q.val ≤ N / 2 := by rw [hq]; exact Nat.div_le_self _ _
  have hrN : r.val ≤ N / 2 := by rw [hrem]; exact Nat.mod_le _ _
  have e1 : (shl q one).val = 2 * q.val := dbl q (by omega)
  have e2 : (shl r one).val = 2 * r.val := dbl r (by omega)
  have e3 : (if decide (N % 2 = 1) = true then incr (shl r one) else shl r one).val = 2 * r.val + N % 2 := by
    by_cases hb : N % 2 = 1
    · rw [if_pos (by simpa using hb), inc _ (by omega), e2]; omega
    · rw [if_neg (by simpa using hb), e2]; omega
  have hN : rhs.val * (2 * q.val) + (2 * r.val + N % 2) = N := by
    have : rhs.val * (2 * q.val) = 2 * (rhs.val * q.val) := by ring
    omega
  generalize (if decide (N % 2 = 1) = true then incr (shl r one) else shl r one) = r1 at *
  have hge := (u128_order r1 rhs).2.2.2.2
  by_cases hc : rhs.val ≤ r1.val
  · rw [if_pos (hge.mpr hc)]
    have hs : (sub r1 rhs).val = r1.val - rhs.val := by
      have := r1.val_lt
      rw [u128_sub]; omega
    have hi : (incr (shl q one)).val = 2 * q.val + 1 := by
      rw [inc _ (by omega), e1]
    have hN' : rhs.val * (2 * q.val + 1) + (r1.val - rhs.val) = N := by
      rw [Nat.mul_add, Nat.mul_one]; omega
    have hlt : r1.val - rhs.val < rhs.val := by omega
    rw [hi, hs]
    have := (Nat.div_mod_unique hR (a := N) (c := r1.val - rhs.val) (d := 2 * q.val + 1)).mpr
      ⟨by omega, hlt⟩
    exact ⟨this.1.symm, this.2.symm⟩
  · rw [if_neg (fun h => hc (hge.mp h))]
    have := (Nat.div_mod_unique hR (a := N) (c := r1.val) (d := 2 * q.val)).mpr
      ⟨by omega, by omega⟩
    rw [e1]
    exact ⟨this.1.symm, this.2.symm⟩

private theorem divLoop_spec (lhs rhs : U128) (hr : rhs.val ≠ 0) (n : Nat) : ∀ (x : UInt8) (q r : U128), x.toNat ≤ n →
    q.val = lhs.val / 2 ^ x.toNat / rhs.val → r.val = lhs.val / 2 ^ x.toNat % rhs.val →
    ∃ q' r', divLoop lhs rhs n x (q, r) = .ok (q', r') ∧ q'.val = lhs.val / rhs.val ∧ r'.val = lhs.val % rhs.val := by
  induction n with
  | zero =>
    intro x q r hx hq hrem
    have hz : x.toNat = 0 := by omega
    have hz' : x = 0 := UInt8.toNat_inj.mp hz
    rw [hz, Nat.pow_zero, Nat.div_one] at hq hrem
    exact ⟨q, r, by simp [divLoop, hz'], hq, hrem⟩
  | succ n ih =>
    intro x q r hx hq hrem
    by_cases hz : x = 0
    · have hz' : x.toNat = 0 := by rw [hz]; rfl
      rw [hz', Nat.pow_zero, Nat.div_one] at hq hrem
      exact ⟨q, r, by simp [divLoop, hz], hq, hrem⟩
    · have hx0 : x.toNat ≠ 0 := fun h => hz (UInt8.toNat_inj.mp h)
      have hx1 : (x - 1).toNat = x.toNat - 1 := by
        rw [UInt8.toNat_sub]
        have : (1 : UInt8).toNat = 1 := rfl
        have := x.toNat_lt
        omega
      obtain ⟨h1, h2⟩ := divStep_spec lhs rhs x q r hz hr hq hrem
      rw [← hx1] at h1 h2
      obtain ⟨q', r', e, h3, h4⟩ := ih (x - 1) (divStep lhs rhs x (q, r)).1
        (divStep lhs rhs x (q, r)).2 (by rw [hx1]; clear ih h1 h2 hq hrem; omega) h1 h2
      refine ⟨q', r', ?_, h3, h4⟩
      rw [divLoop, if_neg (by simpa using hz)]
      exact e

/-- Quotient and remainder: for every dividend and every divisor other than zero the code returns, and returns
those of the whole numbers; for the divisor zero it throws. -/
theorem u128_divmod (a b : U128) :
    (b.val = 0 → divmod a b = .throw)
    ∧ (b.val ≠ 0 → ∃ q r, divmod a b = .ok (q, r) ∧ q.val = a.val / b.val ∧ r.val = a.val % b.val) := by
  have ez := (u128_order b zero).1
  have e1 := (u128_order b one).1
  have e2 := (u128_order a b).1
  have e3 := (u128_order a zero).1
  have e4 := (u128_order a b).2.1
  rw [val_zero] at ez e3
  rw [val_one] at e1
  constructor
  · intro h
    rw [divmod, if_pos (ez.mpr h)]
  · intro h
    rw [divmod, if_neg (fun hc => h (ez.mp hc))]
    by_cases h1 : b.val = 1
    · rw [if_pos (e1.mpr h1)]
      exact ⟨a, zero, rfl, by rw [h1, Nat.div_one], by rw [h1, Nat.mod_one]; rfl⟩
    rw [if_neg (fun hc => h1 (e1.mp hc))]
    by_cases h2 : a.val = b.val
    · rw [if_pos (e2.mpr h2)]
      exact ⟨one, zero, rfl, by rw [h2, Nat.div_self (by omega)]; rfl, by rw [h2, Nat.mod_self]; rfl⟩
    rw [if_neg (fun hc => h2 (e2.mp hc))]
    by_cases h3 : a.val < b.val
    · rw [if_pos (by rw [Bool.or_eq_true]; exact Or.inr (e4.mpr h3))]
      exact ⟨zero, a, rfl, by rw [Nat.div_eq_of_lt h3]; rfl, by rw [Nat.mod_eq_of_lt h3]⟩
    rw [if_neg (by rw [Bool.or_eq_true, e3, e4]; omega)]
    obtain ⟨r, hb, hr1, hr2, -, -⟩ := u128_bits a
    rw [hb]
    simp only [Res.ok_bind]
    have hz : a.val / 2 ^ r.toNat = 0 := Nat.div_eq_of_lt hr2
    obtain ⟨q', r', e, h5, h6⟩ := divLoop_spec a b h 255 r zero zero (by have := r.toNat_lt; omega)
      (by rw [hz, Nat.zero_div]; rfl) (by rw [hz, Nat.zero_mod]; rfl)
    exact ⟨q', r', e, h5, h6⟩

/-- `operator/` and `operator%`. -/
theorem u128_div_mod (a b : U128) (h : b.val ≠ 0) :
    (∃ q, div a b = .ok q ∧ q.val = a.val / b.val) ∧ (∃ r, mod a b = .ok r ∧ r.val = a.val % b.val) := by
  obtain ⟨q, r, e, h1, h2⟩ := (u128_divmod a b).2 h
  exact ⟨⟨q, by simp [div, e], h1⟩, ⟨r, by simp [mod, e], h2⟩⟩

/-- The largest difficulty a proof of work can claim: the quotient of the scaled unit and the proof's hash,
capped at the largest 64-bit number, for every scaling and every hash; never an exception. -/
theorem u128_max_difficulty (scaling hash : UInt64) :
    ∃ d : UInt64, maxDifficulty scaling hash = .ok d
      ∧ d.toNat = min (2 ^ 64 - 1) (scaling.toNat * 2 ^ 64 / max 1 hash.toNat) := by
  have hsl := scaling.toNat_lt
  have c1 : (1 : UInt64).toNat = 1 := rfl
  have hv : (shl (ofWord scaling) (ofWord 64)).val = scaling.toNat * 2 ^ 64 := by
    rw [u128_shl, val_ofWord, val_ofWord]
    have : (64 : UInt64).toNat = 64 := rfl
    rw [this]; omega
  have hw : (ofWord (if (1 : UInt64) < hash then hash else 1)).val = max 1 hash.toNat := by
    rw [val_ofWord]
    by_cases h : 1 < hash
    · rw [if_pos h]; rw [UInt64.lt_iff_toNat_lt, c1] at h; omega
    · rw [if_neg h]; rw [UInt64.lt_iff_toNat_lt, c1] at h; omega
  obtain ⟨q, e, hq⟩ := (u128_div_mod (shl (ofWord scaling) (ofWord 64))
    (ofWord (if (1 : UInt64) < hash then hash else 1)) (by rw [hw]; omega)).1
  rw [hv, hw] at hq
  simp only [maxDifficulty, e, Res.ok_bind]
  have cm : (0xffffffffffffffff : UInt64).toNat = 2 ^ 64 - 1 := by simp
  have hlt : ltWord q 0xffffffffffffffff = true ↔ q.val < 2 ^ 64 - 1 := by
    have := q.lower.toNat_lt
    unfold ltWord
    by_cases hu : q.upper = 0
    · simp only [hu, beq_self_eq_true, if_true, decide_eq_true_eq, UInt64.lt_iff_toNat_lt, cm, val]
      have : (0 : UInt64).toNat = 0 := rfl
      omega
    · have hu' : q.upper.toNat ≠ 0 := fun h => hu (UInt64.toNat_inj.mp h)
      simp only [beq_iff_eq, hu, if_false, val]
      simp only [Bool.false_eq_true, false_iff]
      omega
  rw [← hq]
  clear hq e hv hw hsl
  by_cases h : q.val < 2 ^ 64 - 1
  · rw [if_pos (hlt.mpr h)]
    refine ⟨q.lower, rfl, ?_⟩
    have hu : q.upper.toNat = 0 := by
      unfold val at h; omega
    have hl : q.lower.toNat = q.val := by
      unfold val; omega
    rw [hl, Nat.min_eq_right (Nat.le_of_lt h)]
  · rw [if_neg (fun hc => h (hlt.mp hc))]
    refine ⟨0xffffffffffffffff, rfl, ?_⟩
    rw [cm, Nat.min_eq_left (Nat.le_of_not_lt h)]

/-- The value of a list of digits, the most significant one first. -/
def digitsVal (base : Nat) : List UInt8 → Nat
  | [] => 0
  | d :: ds => d.toNat * base ^ ds.length + digitsVal base ds

private theorem digitsVal_append (b : Nat) (xs ys : List UInt8) :
    digitsVal b (xs ++ ys) = digitsVal b xs * b ^ ys.length + digitsVal b ys := by
  induction xs with
  | nil => simp [digitsVal]
  | cons x xs ih =>
    simp only [List.cons_append, digitsVal, ih, List.length_append, Nat.pow_add]
    ring

private theorem strLoop_spec (base : U128) (b : Nat) (hb : base.val = b) (h2 : 2 ≤ b) (h16 : b ≤ 16) (n : Nat) :
    ∀ (a : U128) (out : List UInt8), a.val < 2 ^ n → a.val ≠ 0 →
    ∃ d ds, strLoop base n a out = .ok (d :: ds ++ out) ∧ digitsVal b (d :: ds) = a.val ∧ d ≠ 0
      ∧ ∀ x ∈ d :: ds, x.toNat < b := by
  induction n with
  | zero => intro a out h h0; simp at h; omega
  | succ n ih =>
    intro a out h h0
    obtain ⟨q, r, e, hq, hr⟩ := (u128_divmod a base).2 (by omega)
    rw [hb] at hq hr
    have hrb : r.val < b := by rw [hr]; exact Nat.mod_lt _ (by omega)
    have hrl : r.lower.toUInt8.toNat = r.val := by
      have : r.upper.toNat = 0 := by unfold val at hrb; omega
      rw [UInt64.toNat_toUInt8]
      unfold val at hrb ⊢; omega
    have hdm := Nat.div_add_mod a.val b
    rw [← hq, ← hr] at hdm
    simp only [strLoop, e, Res.ok_bind]
    by_cases hz : q.val = 0
    · rw [if_neg (by rw [toBool_iff]; simpa using hz)]
      rw [hz, Nat.mul_zero, Nat.zero_add] at hdm
      refine ⟨r.lower.toUInt8, [], rfl, ?_, ?_, ?_⟩
      · simp [digitsVal, hrl, hdm]
      · intro hc
        have : r.lower.toUInt8.toNat = 0 := by rw [hc]; rfl
        omega
      · intro x hx
        simp only [List.mem_singleton] at hx
        rw [hx, hrl]; exact hrb
    · rw [if_pos (by rw [toBool_iff]; exact hz)]
      have hqn : q.val < 2 ^ n := by
        rw [hq, Nat.div_lt_iff_lt_mul (by omega)]
        have : 2 ^ n * 2 ≤ 2 ^ n * b := Nat.mul_le_mul_left _ h2
        rw [Nat.pow_succ] at h
        omega
      obtain ⟨d, ds, e2, h3, h4, h5⟩ := ih q (r.lower.toUInt8 :: out) hqn hz
      refine ⟨d, ds ++ [r.lower.toUInt8], ?_, ?_, h4, ?_⟩
      · rw [e2]; simp
      · have : d :: (ds ++ [r.lower.toUInt8]) = (d :: ds) ++ [r.lower.toUInt8] := rfl
        rw [this, digitsVal_append, h3]
        simp only [digitsVal, List.length_cons, List.length_nil, hrl, Nat.zero_add, Nat.pow_one, Nat.pow_zero,
          Nat.mul_one, Nat.add_zero]
        rw [Nat.mul_comm]
        exact hdm
      · intro x hx
        rw [show d :: (ds ++ [r.lower.toUInt8]) = (d :: ds) ++ [r.lower.toUInt8] from rfl, List.mem_append] at hx
        rcases hx with hx | hx
        · exact h5 x hx
        · rw [List.mem_singleton] at hx
          rw [hx, hrl]; exact hrb

/-- The text of a number: its digits in the base asked for, without leading zeros but for the padding to the
length asked for; another base is refused. -/
theorem u128_text (a : U128) (base : UInt8) (len : Nat) :
    (¬ (2 ≤ base.toNat ∧ base.toNat ≤ 16) → str a base len = .throw)
    ∧ (2 ≤ base.toNat ∧ base.toNat ≤ 16 → ∃ d ds, str a base len = .ok (List.replicate (len - (ds.length + 1)) 0 ++ d :: ds)
        ∧ digitsVal base.toNat (d :: ds) = a.val ∧ (d = 0 → ds = []) ∧ ∀ x ∈ d :: ds, x.toNat < base.toNat) := by
  have c2 : (2 : UInt8).toNat = 2 := rfl
  have c16 : (16 : UInt8).toNat = 16 := rfl
  have hcond : (decide (base < 2) || decide (base > 16)) = true ↔ ¬ (2 ≤ base.toNat ∧ base.toNat ≤ 16) := by
    simp only [Bool.or_eq_true, decide_eq_true_eq, UInt8.lt_iff_toNat_lt, gt_iff_lt, c2, c16]; omega
  unfold str
  constructor
  · intro h
    rw [if_pos (hcond.mpr h)]
  · intro h
    rw [if_neg (fun hc => hcond.mp hc h)]
    by_cases hz : a.val = 0
    · have : toBool a = false := by rw [Bool.eq_false_iff, ne_eq, toBool_iff]; simpa using hz
      refine ⟨0, [], ?_, ?_, fun _ => rfl, ?_⟩
      · simp [this]
      · simp [digitsVal, hz]
      · intro x hx
        rw [List.mem_singleton] at hx
        rw [hx]; show 0 < _; omega
    · have ht : toBool a = true := (toBool_iff a).mpr hz
      obtain ⟨d, ds, e, h1, h2, h3⟩ := strLoop_spec (ofWord base.toUInt64) base.toNat
        (by rw [val_ofWord, UInt8.toNat_toUInt64]) h.1 h.2 128 a [] a.val_lt hz
      refine ⟨d, ds, ?_, h1, fun hd => absurd hd h2, h3⟩
      simp [ht, e]

/-- The same number as the header validation of C32 computes with (`maximumDifficulty`). -/
theorem u128_max_difficulty_header (h : Header) (s : Nat) (hs : proofScaling h = .ok s) (hs64 : s < 2 ^ 64)
    (hh : hash64 h.pow < 2 ^ 64) :
    ∃ d, maxDifficulty (UInt64.ofNat s) (UInt64.ofNat (hash64 h.pow)) = .ok d
      ∧ maximumDifficulty h = .ok d.toNat := by
  obtain ⟨d, e, hd⟩ := u128_max_difficulty (UInt64.ofNat s) (UInt64.ofNat (hash64 h.pow))
  refine ⟨d, e, ?_⟩
  rw [UInt64.toNat_ofNat_of_lt' hs64, UInt64.toNat_ofNat_of_lt' hh] at hd
  simp only [maximumDifficulty, hs, Res.ok_bind, Res.pure_eq, hd, U64]
  congr 1
  generalize s * 2 ^ 64 / max 1 (hash64 h.pow) = x
  split <;> omega

/-! Concrete cases: carries, borrows, a division whose quotient needs both words, the cap. -/

example : (add ⟨1, 0xffffffffffffffff⟩ ⟨2, 1⟩) = ⟨4, 0⟩ := by decide +kernel
example : (sub ⟨4, 0⟩ ⟨2, 1⟩) = ⟨1, 0xffffffffffffffff⟩ := by decide +kernel
example : (mul ⟨0, 0xffffffffffffffff⟩ ⟨0, 0xffffffffffffffff⟩) = ⟨0xfffffffffffffffe, 1⟩ := by decide +kernel
example : divmod ⟨0xffffffffffffffff, 0xffffffffffffffff⟩ ⟨0, 10⟩
    = .ok (⟨0x1999999999999999, 0x9999999999999999⟩, ⟨0, 5⟩) := by decide +kernel
example : (⟨0x8000000000000000, 1⟩ : U128).val ≠ 0
    ∧ divmod ⟨0xffffffffffffffff, 0⟩ ⟨0x8000000000000000, 1⟩ = .ok (⟨0, 1⟩, ⟨0x7ffffffffffffffe, 0xffffffffffffffff⟩) := by
  decide +kernel
example : maxDifficulty 1856 0x00000fffffffffff = .ok 1946157056 := by decide +kernel
example : maxDifficulty 1 0 = .ok 0xffffffffffffffff := by decide +kernel
example : str ⟨1, 0⟩ 10 22 = .ok [0, 0, 1, 8, 4, 4, 6, 7, 4, 4, 0, 7, 3, 7, 0, 9, 5, 5, 1, 6, 1, 6] := by decide +kernel

end Verif.PoW.U128
