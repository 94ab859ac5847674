import Verif.Codec.Base58
import Mathlib.Data.Nat.Digits.Lemmas

/-!
# Helper lemmas on Base58: positional notation
-/
namespace Verif.Codec

/-- The digits from index `n` on are zero. -/
def ZeroFrom (ds : List Nat) (n : Nat) : Prop := ∀ i, n ≤ i → ds.getD i 0 = 0

theorem ofDigits_zero {B : Nat} {ds : List Nat} (h : ∀ i, ds.getD i 0 = 0) : Nat.ofDigits B ds = 0 := by
  induction ds with
  | nil => rfl
  | cons d ds ih =>
    have h0 := h 0
    rw [Nat.ofDigits_cons, ih (fun i => h (i + 1))]
    simpa using h0

theorem carryLoop_spec {B M : Nat} (hB : 0 < B) (ds : List Nat) (c i len : Nat)
    (hz : ∀ j, len ≤ i + j → ds.getD j 0 = 0) :
    let r := carryLoop B M ds c i len
    Nat.ofDigits B r.1 + B ^ ds.length * r.2.1 = c + M * Nat.ofDigits B ds ∧
    r.1.length = ds.length ∧ i ≤ r.2.2 ∧ r.2.2 ≤ i + ds.length ∧
    (∀ j, r.2.2 ≤ i + j → r.1.getD j 0 = 0) ∧ ((∀ d ∈ ds, d < B) → ∀ d ∈ r.1, d < B) := by
  induction ds generalizing c i with
  | nil => simp [carryLoop]
  | cons d ds ih =>
    by_cases hc : c ≠ 0 ∨ i < len
    · have ih' := ih ((c + M * d) / B) (i + 1) (by
        intro j hj
        have := hz (j + 1) (by omega)
        simpa using this)
      simp only [carryLoop, if_pos hc]
      generalize carryLoop B M ds ((c + M * d) / B) (i + 1) len = r at ih'
      simp only at ih'
      obtain ⟨h1, h2, h3, h4, h5, h6⟩ := ih'
      refine ⟨?_, by simp [h2], by omega, by simp only [List.length_cons]; omega, ?_, ?_⟩
      · rw [Nat.ofDigits_cons, Nat.ofDigits_cons, List.length_cons, Nat.pow_succ]
        have hd := Nat.mod_add_div (c + M * d) B
        have : B * (Nat.ofDigits B r.1 + B ^ ds.length * r.2.1) =
            B * ((c + M * d) / B + M * Nat.ofDigits B ds) := by rw [h1]
        rw [Nat.mul_add, Nat.mul_add] at this
        have e1 : B ^ ds.length * B * r.2.1 = B * (B ^ ds.length * r.2.1) := by
          rw [Nat.mul_comm (B ^ ds.length) B, Nat.mul_assoc]
        have e2 : M * (d + B * Nat.ofDigits B ds) = M * d + B * (M * Nat.ofDigits B ds) := by
          rw [Nat.mul_add, ← Nat.mul_assoc, ← Nat.mul_assoc, Nat.mul_comm M B]
        simp only at *
        rw [e1, e2]; omega
      · intro j hj
        cases j with
        | zero => omega
        | succ j => simpa using h5 j (by omega)
      · intro hds x hx
        rcases List.mem_cons.mp hx with rfl | hx
        · exact Nat.mod_lt _ hB
        · exact h6 (fun y hy => hds y (List.mem_cons_of_mem _ hy)) x hx
    · simp only [carryLoop, if_neg hc]
      have hc0 : c = 0 := by omega
      have hz0 : Nat.ofDigits B (d :: ds) = 0 := ofDigits_zero (fun j => hz j (by omega))
      refine ⟨by rw [hz0, hc0]; simp, by trivial, Nat.le_refl _, by omega, ?_, fun h => h⟩
      intro j hj
      exact hz j (by omega)

/-- The number written by digits with the most significant first. -/
def msVal (M : Nat) (xs : List Nat) : Nat := xs.foldl (fun a x => a * M + x) 0

theorem foldl_mono {M : Nat} (xs : List Nat) (a : Nat) (hM : 0 < M) :
    a ≤ xs.foldl (fun a x => a * M + x) a := by
  induction xs generalizing a with
  | nil => exact Nat.le_refl _
  | cons x xs ih =>
    refine Nat.le_trans ?_ (ih (a * M + x))
    exact Nat.le_trans (Nat.le_mul_of_pos_right a hM) (Nat.le_add_right ..)

theorem convertLoop_spec {B M : Nat} (hB : 0 < B) (hM : 0 < M) (xs buf : List Nat) (len : Nat)
    (hz : ZeroFrom buf len) (hlen : len ≤ buf.length) (hd : ∀ d ∈ buf, d < B)
    (hfit : xs.foldl (fun a x => a * M + x) (Nat.ofDigits B buf) < B ^ buf.length) :
    ∃ buf' len', convertLoop B M xs (buf, len) = .ok (buf', len') ∧
      Nat.ofDigits B buf' = xs.foldl (fun a x => a * M + x) (Nat.ofDigits B buf) ∧
      ZeroFrom buf' len' ∧ len' ≤ buf'.length ∧ (∀ d ∈ buf', d < B) := by
  induction xs generalizing buf len with
  | nil => exact ⟨buf, len, rfl, rfl, hz, hlen, hd⟩
  | cons x xs ih =>
    have hs := carryLoop_spec (M := M) hB buf x 0 len (fun j hj => hz j (by omega))
    simp only [convertLoop]
    generalize carryLoop B M buf x 0 len = r at hs
    simp only at hs
    obtain ⟨h1, h2, -, h4, h5, h6⟩ := hs
    simp only [List.foldl_cons] at hfit
    have hle := foldl_mono xs (Nat.ofDigits B buf * M + x) hM
    have hval : x + M * Nat.ofDigits B buf = Nat.ofDigits B buf * M + x := by
      rw [Nat.mul_comm]; omega
    have hc : r.2.1 = 0 := by
      rcases Nat.eq_zero_or_pos r.2.1 with h | h
      · exact h
      · have : B ^ buf.length ≤ B ^ buf.length * r.2.1 := Nat.le_mul_of_pos_right _ h
        omega
    rw [if_neg (by omega)]
    have hv : Nat.ofDigits B r.1 = Nat.ofDigits B buf * M + x := by
      rw [hc] at h1; omega
    have := ih r.1 r.2.2 (fun j hj => h5 j (by omega)) (by omega) (h6 hd)
      (by rw [hv, h2]; exact hfit)
    rw [hv] at this
    exact this

theorem msVal_lt {M : Nat} (xs : List Nat) (h : ∀ x ∈ xs, x < M) :
    msVal M xs < M ^ xs.length := by
  have key : ∀ (l : List Nat) (a : Nat), (∀ x ∈ l, x < M) →
      l.foldl (fun a x => a * M + x) a < (a + 1) * M ^ l.length := by
    intro l
    induction l with
    | nil => intro a _; simp
    | cons b l ih =>
      intro a hl
      simp only [List.foldl_cons, List.length_cons]
      refine Nat.lt_of_lt_of_le (ih _ (fun x hx => hl x (List.mem_cons_of_mem _ hx))) ?_
      have hb : b < M := hl b (List.mem_cons_self ..)
      rw [Nat.pow_succ, Nat.mul_comm (M ^ l.length) M, ← Nat.mul_assoc]
      apply Nat.mul_le_mul_right
      rw [Nat.add_mul]; omega
  simpa [msVal] using key xs 0 h

theorem ofDigits_reverse (M : Nat) (xs : List Nat) : Nat.ofDigits M xs.reverse = msVal M xs := by
  induction xs using List.reverseRecOn with
  | nil => rfl
  | append_singleton xs x ih =>
    rw [List.reverse_append, List.reverse_singleton, List.singleton_append, Nat.ofDigits_cons, ih]
    simp [msVal, List.foldl_append, Nat.mul_comm, Nat.add_comm]

/-- Removing leading zeros leaves the digits of the number. -/
theorem dropWhile_digits {B : Nat} (hB : 1 < B) (buf : List Nat) (len : Nat) (hz : ZeroFrom buf len)
    (hd : ∀ d ∈ buf, d < B) :
    ((buf.take len).reverse).dropWhile (· == 0) = (B.digits (Nat.ofDigits B buf)).reverse := by
  have htake : Nat.ofDigits B buf = Nat.ofDigits B (buf.take len) := by
    conv_lhs => rw [← List.take_append_drop len buf]
    rw [Nat.ofDigits_append, ofDigits_zero (ds := buf.drop len)]
    · simp
    · intro i
      rw [List.getD_eq_getElem?_getD, List.getElem?_drop, ← List.getD_eq_getElem?_getD]
      exact hz (len + i) (by omega)
  rw [htake]
  have hd' : ∀ d ∈ buf.take len, d < B := fun d h => hd d (List.mem_of_mem_take h)
  generalize buf.take len = ds at hd'
  clear htake hz hd
  induction ds using List.reverseRecOn with
  | nil => simp
  | append_singleton ds d ih =>
    rw [List.reverse_append, List.reverse_singleton, List.singleton_append, List.dropWhile_cons]
    by_cases h0 : d = 0
    · subst h0
      simp only [beq_self_eq_true, if_true]
      rw [ih (fun x hx => hd' x (by simp [hx])), Nat.ofDigits_append]
      simp
    · rw [if_neg (by simpa using h0)]
      rw [Nat.digits_ofDigits B hB (ds ++ [d]) hd' (by intro h; simpa using h0)]
      simp

theorem size58 (n : Nat) : 256 ^ n ≤ 58 ^ (n * 138 / 100 + 1) := by
  have h : (256 ^ n) ^ 100 ≤ (58 ^ (n * 138 / 100 + 1)) ^ 100 := by
    calc (256 ^ n) ^ 100 = (256 ^ 100) ^ n := by rw [← Nat.pow_mul, ← Nat.pow_mul, Nat.mul_comm]
      _ ≤ (58 ^ 138) ^ n := Nat.pow_le_pow_left (by decide +kernel) n
      _ = 58 ^ (138 * n) := by rw [← Nat.pow_mul]
      _ ≤ 58 ^ ((n * 138 / 100 + 1) * 100) := Nat.pow_le_pow_right (by decide) (by omega)
      _ = (58 ^ (n * 138 / 100 + 1)) ^ 100 := by rw [← Nat.pow_mul]
  exact (Nat.pow_le_pow_iff_left (by decide)).mp h

set_option exponentiation.threshold 2000 in
theorem size256 (n : Nat) : 58 ^ n ≤ 256 ^ (n * 733 / 1000 + 1) := by
  have h : (58 ^ n) ^ 1000 ≤ (256 ^ (n * 733 / 1000 + 1)) ^ 1000 := by
    calc (58 ^ n) ^ 1000 = (58 ^ 1000) ^ n := by rw [← Nat.pow_mul, ← Nat.pow_mul, Nat.mul_comm]
      _ ≤ (256 ^ 733) ^ n := Nat.pow_le_pow_left (by decide +kernel) n
      _ = 256 ^ (733 * n) := by rw [← Nat.pow_mul]
      _ ≤ 256 ^ ((n * 733 / 1000 + 1) * 1000) := Nat.pow_le_pow_right (by decide) (by omega)
      _ = (256 ^ (n * 733 / 1000 + 1)) ^ 1000 := by rw [← Nat.pow_mul]
  exact (Nat.pow_le_pow_iff_left (by decide)).mp h

/-- The conversion loop on a zeroed buffer that is large enough yields the digits of the number. -/
theorem convert_digits {B M : Nat} (hB : 1 < B) (hM : 0 < M) (xs : List Nat) (size : Nat)
    (hx : ∀ x ∈ xs, x < M) (hsize : M ^ xs.length ≤ B ^ size) :
    ∃ buf len, convertLoop B M xs (List.replicate size 0, 0) = .ok (buf, len) ∧
      ((buf.take len).reverse).dropWhile (· == 0) = (B.digits (msVal M xs)).reverse := by
  have h0 : Nat.ofDigits B (List.replicate size 0) = 0 := by
    apply ofDigits_zero; intro i
    rw [List.getD_eq_getElem?_getD, List.getElem?_replicate]; split <;> rfl
  have hfit : xs.foldl (fun a x => a * M + x) (Nat.ofDigits B (List.replicate size 0)) <
      B ^ (List.replicate size 0).length := by
    rw [h0, List.length_replicate]
    exact Nat.lt_of_lt_of_le (msVal_lt xs hx) hsize
  obtain ⟨buf, len, h1, h2, h3, h4, h5⟩ := convertLoop_spec (B := B) (M := M) (by omega) hM xs
    (List.replicate size 0) 0
    (by intro i _; rw [List.getD_eq_getElem?_getD, List.getElem?_replicate]; split <;> rfl)
    (Nat.zero_le _)
    (by intro d hd; rw [(List.mem_replicate.mp hd).2]; omega) hfit
  refine ⟨buf, len, h1, ?_⟩
  rw [dropWhile_digits hB buf len h3 h5, h2, h0]; rfl

theorem msVal_bytes (bs : Bytes) : msVal 256 (bs.map (·.toNat)) = beVal bs := by
  simp [msVal, beVal, List.foldl_map]

theorem alphabet_facts (d : Nat) (h : d < 58) :
    let c := base58Alphabet.getD d 0
    isSpace c = false ∧ c ≠ 0 ∧ mapBase58.getD c.toNat 255 = d ∧ (c = 49 ↔ d = 0) ∧ c ≠ 46 := by
  have : ∀ d : Fin 58,
      let c := base58Alphabet.getD d.1 0
      isSpace c = false ∧ c ≠ 0 ∧ mapBase58.getD c.toNat 255 = d.1 ∧ (c = 49 ↔ d.1 = 0) ∧ c ≠ 46 := by
    decide +kernel
  exact this ⟨d, h⟩

theorem mapDigits_alphabet (ds : List Nat) (h : ∀ d ∈ ds, d < 58) :
    mapDigits (ds.map fun d => base58Alphabet.getD d 0) = .ok ds := by
  induction ds with
  | nil => rfl
  | cons d ds ih =>
    have hd := h d (List.mem_cons_self ..)
    have := (alphabet_facts d hd).2.2.1
    simp only [List.map_cons, mapDigits, this]
    rw [if_neg (by omega), ih (fun x hx => h x (List.mem_cons_of_mem _ hx))]
    rfl

end Verif.Codec
