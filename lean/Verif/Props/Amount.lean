import Verif.Wallet.Amount
import Verif.Props.KeyPath

/-!
# C76: a displayed amount is the amount
-/
namespace Verif.Props
open Verif.Codec Verif.Wallet

/-- The text is a decimal number whose value, in units of 10^-9, is `n`: digits, a point, digits. -/
def ReadsAs (s : Bytes) (n : Nat) : Prop :=
  ∃ whole frac : Bytes, s = whole ++ [46] ++ frac ∧ (∀ c ∈ whole, isDigit c = true) ∧ (∀ c ∈ frac, isDigit c = true) ∧
    (decVal whole * 10 ^ frac.length + decVal frac) * 10 ^ 9 = n * 10 ^ frac.length

private theorem decStr_length (n : Nat) :
    n < 10 ^ (decStr n).length ∧ (n ≠ 0 → 10 ^ (decStr n).length ≤ 10 * n) := by
  induction n using Nat.strongRecOn with
  | _ n ih =>
    by_cases h : n < 10
    · rw [decStr, if_pos h]
      simp only [List.length_singleton, Nat.pow_one]; omega
    · obtain ⟨h1, h2⟩ := ih (n / 10) (by omega)
      rw [decStr, if_neg h, List.length_append, List.length_singleton, Nat.pow_succ]
      have := h2 (by omega)
      omega

private theorem split_point : ∀ {w w' f f' : Bytes}, (∀ c ∈ w, isDigit c = true) → (∀ c ∈ w', isDigit c = true) →
    w ++ 46 :: f = w' ++ 46 :: f' → w = w' ∧ f = f'
  | [], [], _, _, _, _, e => by simpa using e
  | [], y :: w', _, _, _, h', e => by
    simp only [List.nil_append, List.cons_append, List.cons.injEq] at e
    exact absurd (h' y (by simp)) (by rw [← e.1]; decide)
  | x :: w, [], _, _, h, _, e => by
    simp only [List.nil_append, List.cons_append, List.cons.injEq] at e
    exact absurd (h x (by simp)) (by rw [e.1]; decide)
  | x :: w, y :: w', _, _, h, h', e => by
    simp only [List.cons_append, List.cons.injEq] at e
    obtain ⟨r1, r2⟩ := split_point (fun c hc => h c (List.mem_cons_of_mem _ hc))
      (fun c hc => h' c (List.mem_cons_of_mem _ hc)) e.2
    exact ⟨by rw [e.1, r1], r2⟩

/-- **When the displayed amount is right**: exactly if the fraction is zero or has nine digits. -/
theorem format_reads_partial (a : Nat) :
    ReadsAs (formatAmount a) a ↔ a % 1000000000 = 0 ∨ 100000000 ≤ a % 1000000000 := by
  obtain ⟨-, d1, v1⟩ := decStr_facts (a / 1000000000)
  obtain ⟨-, d2, v2⟩ := decStr_facts (a % 1000000000)
  obtain ⟨l1, l2⟩ := decStr_length (a % 1000000000)
  have hfmt : formatAmount a = decStr (a / 1000000000) ++ 46 :: decStr (a % 1000000000) := by
    unfold formatAmount
    rw [show str "." = [46] from by decide, List.append_assoc]; rfl
  have key : (decVal (decStr (a / 1000000000)) * 10 ^ (decStr (a % 1000000000)).length +
      decVal (decStr (a % 1000000000))) * 10 ^ 9 = a * 10 ^ (decStr (a % 1000000000)).length ↔
      a % 1000000000 = 0 ∨ 100000000 ≤ a % 1000000000 := by
    rw [v1, v2]
    have hr : a % 1000000000 < 1000000000 := Nat.mod_lt _ (by decide)
    have ha : a = a / 1000000000 * 1000000000 + a % 1000000000 := by omega
    generalize hq : a / 1000000000 = q at *
    generalize hrr : a % 1000000000 = r at *
    generalize (decStr r).length = n at *
    rw [ha, Nat.add_mul, Nat.add_mul]
    have e1 : q * 10 ^ n * 10 ^ 9 = q * 1000000000 * 10 ^ n := by
      rw [Nat.mul_assoc, Nat.mul_comm (10 ^ n), ← Nat.mul_assoc]
    rw [e1]
    constructor
    · intro h
      have h' : r * 10 ^ 9 = r * 10 ^ n := Nat.add_left_cancel h
      rcases Nat.eq_zero_or_pos r with h0 | h0
      · exact .inl h0
      · have := Nat.eq_of_mul_eq_mul_left h0 h'
        have := l2 (by omega)
        generalize 10 ^ n = t at *
        omega
    · rintro (rfl | h)
      · simp
      · have h9 : n = 9 := by
          rcases Nat.lt_trichotomy n 9 with h1 | h1 | h1
          · have := Nat.pow_le_pow_right (n := 10) (by decide) (show n ≤ 8 by omega)
            omega
          · exact h1
          · have := Nat.pow_le_pow_right (n := 10) (by decide) (show 10 ≤ n by omega)
            have := l2 (by omega)
            omega
        rw [h9]
  constructor
  · rintro ⟨w, f, e, hw, hf, hv⟩
    rw [hfmt, List.append_assoc] at e
    obtain ⟨rfl, rfl⟩ := split_point d1 hw e
    exact key.1 hv
  · intro h
    exact ⟨_, _, by rw [hfmt, List.append_assoc]; rfl, d1, d2, key.2 h⟩

/-- **No two amounts look alike.** -/
theorem format_injective {a b : Nat} (h : formatAmount a = formatAmount b) : a = b := by
  obtain ⟨-, d1, v1⟩ := decStr_facts (a / 1000000000)
  obtain ⟨-, -, v2⟩ := decStr_facts (a % 1000000000)
  obtain ⟨-, d3, v3⟩ := decStr_facts (b / 1000000000)
  obtain ⟨-, -, v4⟩ := decStr_facts (b % 1000000000)
  simp only [formatAmount, show str "." = [46] from by decide, List.append_assoc, List.cons_append,
    List.nil_append] at h
  obtain ⟨e1, e2⟩ := split_point d1 d3 h
  have := congrArg decVal e1
  have := congrArg decVal e2
  omega

/-- **One grin and five nanogrin are displayed as one and a half grin.** -/
theorem format_violated :
    formatAmount 1000000005 = str "1.5" ∧ ReadsAs (formatAmount 1000000005) 1500000000 ∧
      ¬ ReadsAs (formatAmount 1000000005) 1000000005 := by
  have e : formatAmount 1000000005 = str "1.5" := by decide +kernel
  refine ⟨e, ?_, ?_⟩
  · rw [e]; exact ⟨[49], [53], by decide +kernel, by decide, by decide, by decide⟩
  · rw [format_reads_partial]; decide

example : ReadsAs (formatAmount 1500000000) 1500000000 := (format_reads_partial _).2 (by decide)

end Verif.Props
