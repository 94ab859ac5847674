import Verif.Codec.Bech32
import Verif.Codec.Base58Lemmas
import Mathlib.Tactic.IntervalCases

/-!
# Helper lemmas on Bech32: the checksum is linear, groups of 5 and 8 bits write the same number
-/
namespace Verif.Codec

/-! ## The checksum -/

/-- `PolyMod`'s round without the input value. -/
def lin (c : Nat) : Nat :=
  ((((((c &&& 0x1ffffff) <<< 5) ^^^ (if c.testBit 25 then 0x3b6a57b2 else 0)) ^^^
    (if c.testBit 26 then 0x26508e6d else 0)) ^^^ (if c.testBit 27 then 0x1ea119fa else 0)) ^^^
    (if c.testBit 28 then 0x3d4233dd else 0)) ^^^ (if c.testBit 29 then 0x2a1462b3 else 0)

theorem and_pow_ne (x k : Nat) : (x &&& 2 ^ k ≠ 0) ↔ x.testBit k = true := by
  constructor
  · intro h
    by_contra hb
    apply h
    apply Nat.eq_of_testBit_eq
    intro i
    rw [Nat.testBit_and, Nat.testBit_two_pow, Nat.zero_testBit]
    by_cases hk : k = i
    · subst hk; simp at hb; simp [hb]
    · simp [hk]
  · intro h h0
    have := congrArg (Nat.testBit · k) h0
    simp [Nat.testBit_and, Nat.testBit_two_pow, h] at this

theorem bit_c0 (c k : Nat) (hk : k < 8) : ((c >>> 25) % 256 &&& 2 ^ k ≠ 0) ↔ c.testBit (25 + k) = true := by
  rw [and_pow_ne, show (256 : Nat) = 2 ^ 8 from rfl, Nat.testBit_mod_two_pow, Nat.testBit_shiftRight]
  simp [hk]

theorem ite_xor (p : Prop) [Decidable p] (a g : Nat) :
    (if p then a ^^^ g else a) = a ^^^ (if p then g else 0) := by
  split <;> simp

theorem and_mask_lt (c : Nat) : (c &&& 0x1ffffff) <<< 5 < 2 ^ 30 := by
  have : c &&& 0x1ffffff ≤ 0x1ffffff := Nat.and_le_right
  rw [Nat.shiftLeft_eq]; omega

theorem polyStep_eq (c v : Nat) : polyStep c v = lin c ^^^ v := by
  have h0 := bit_c0 c 0 (by decide)
  have h1 := bit_c0 c 1 (by decide)
  have h2 := bit_c0 c 2 (by decide)
  have h3 := bit_c0 c 3 (by decide)
  have h4 := bit_c0 c 4 (by decide)
  simp only [Nat.reducePow, Nat.reduceAdd] at h0 h1 h2 h3 h4
  have hm : ((c &&& 0x1ffffff) <<< 5) % 2 ^ 32 = (c &&& 0x1ffffff) <<< 5 :=
    Nat.mod_eq_of_lt (Nat.lt_of_lt_of_le (and_mask_lt c) (by decide))
  simp only [polyStep, hm, ite_xor, h0, h1, h2, h3, h4, lin]
  generalize (c &&& 0x1ffffff) <<< 5 = a
  generalize (if c.testBit 25 = true then 0x3b6a57b2 else 0) = g0
  generalize (if c.testBit 26 = true then 0x26508e6d else 0) = g1
  generalize (if c.testBit 27 = true then 0x1ea119fa else 0) = g2
  generalize (if c.testBit 28 = true then 0x3d4233dd else 0) = g3
  generalize (if c.testBit 29 = true then 0x2a1462b3 else 0) = g4
  ac_rfl

theorem cond_xor (a b k g : Nat) :
    (if (a ^^^ b).testBit k then g else 0) =
      (if a.testBit k then g else 0) ^^^ (if b.testBit k then g else 0) := by
  rw [Nat.testBit_xor]
  cases a.testBit k <;> cases b.testBit k <;> simp

theorem lin_xor (a b : Nat) : lin (a ^^^ b) = lin a ^^^ lin b := by
  simp only [lin, cond_xor, Nat.and_xor_distrib_right, Nat.shiftLeft_xor_distrib]
  ac_rfl

theorem lin_lt (c : Nat) : lin c < 2 ^ 30 := by
  unfold lin
  have h := and_mask_lt c
  refine Nat.xor_lt_two_pow (Nat.xor_lt_two_pow (Nat.xor_lt_two_pow (Nat.xor_lt_two_pow
    (Nat.xor_lt_two_pow h ?_) ?_) ?_) ?_) ?_ <;> split <;> decide

theorem lin_small {c : Nat} (h : c < 2 ^ 25) : lin c = c <<< 5 := by
  have ht : ∀ k, 25 ≤ k → c.testBit k = false := fun k hk =>
    Nat.testBit_lt_two_pow (Nat.lt_of_lt_of_le h (Nat.pow_le_pow_right (by decide) hk))
  have hm : c &&& 0x1ffffff = c := by
    rw [show (0x1ffffff : Nat) = 2 ^ 25 - 1 from rfl, Nat.and_two_pow_sub_one_eq_mod,
      Nat.mod_eq_of_lt h]
  simp [lin, ht, hm]

/-- The number whose groups of 5 bits are the values. -/
def horner (vs : List Nat) : Nat := vs.foldl (fun a v => (a <<< 5) ^^^ v) 0

theorem horner_lt (vs : List Nat) (h : ∀ v ∈ vs, v < 32) : horner vs < 2 ^ (5 * vs.length) := by
  induction vs using List.reverseRecOn with
  | nil => decide
  | append_singleton vs v ih =>
    have := ih (fun x hx => h x (by simp [hx]))
    simp only [horner, List.foldl_append, List.foldl_cons, List.foldl_nil, List.length_append,
      List.length_singleton] at this ⊢
    apply Nat.xor_lt_two_pow
    · rw [Nat.shiftLeft_eq, Nat.mul_add, Nat.pow_add]
      exact Nat.mul_lt_mul_of_pos_right this (by decide)
    · exact Nat.lt_of_lt_of_le (h v (by simp)) (Nat.pow_le_pow_right (n := 2) (i := 5) (by decide) (by omega))

/-- Up to six values after a state `s`: their effect on the checksum. -/
theorem poly_six (s : Nat) (vs : List Nat) (h : ∀ v ∈ vs, v < 32) (hl : vs.length ≤ 6) :
    vs.foldl polyStep s = (List.replicate vs.length 0).foldl polyStep s ^^^ horner vs := by
  induction vs using List.reverseRecOn with
  | nil => simp [horner]
  | append_singleton vs v ih =>
    have hvs : ∀ x ∈ vs, x < 32 := fun x hx => h x (by simp [hx])
    simp only [List.length_append, List.length_singleton] at hl
    have hg : horner vs < 2 ^ 25 := Nat.lt_of_lt_of_le (horner_lt vs hvs)
      (Nat.pow_le_pow_right (by decide) (by omega))
    have e : horner (vs ++ [v]) = (horner vs <<< 5) ^^^ v := by simp [horner, List.foldl_append]
    rw [List.length_append, List.length_singleton, List.replicate_succ', List.foldl_append,
      List.foldl_append, ih hvs (by omega), e]
    simp only [List.foldl_cons, List.foldl_nil, polyStep_eq, lin_xor, Nat.xor_zero, lin_small hg,
      Nat.xor_assoc]

theorem shift_join (y : Nat) : ((y >>> 5) <<< 5) ^^^ (y &&& 31) = y := by
  apply Nat.eq_of_testBit_eq
  intro j
  have e : (31 : Nat) = 2 ^ 5 - 1 := rfl
  simp only [Nat.testBit_xor, Nat.testBit_shiftLeft, Nat.testBit_and, Nat.testBit_shiftRight, e,
    Nat.testBit_two_pow_sub_one]
  by_cases hj : j < 5
  · have : ¬ 5 ≤ j := by omega
    simp [hj, this]
  · have h5 : 5 ≤ j := by omega
    have : 5 + (j - 5) = j := by omega
    simp [hj, h5, this]

theorem groups30 {x : Nat} (h : x < 2 ^ 30) :
    horner [x >>> 25 &&& 31, x >>> 20 &&& 31, x >>> 15 &&& 31, x >>> 10 &&& 31, x >>> 5 &&& 31,
      x >>> 0 &&& 31] = x := by
  have h25 : x >>> 25 &&& 31 = x >>> 25 := by
    rw [show (31 : Nat) = 2 ^ 5 - 1 from rfl, Nat.and_two_pow_sub_one_eq_mod,
      Nat.shiftRight_eq_div_pow]
    omega
  have e : ∀ k, (x >>> k) >>> 5 = x >>> (k + 5) := fun k => (Nat.shiftRight_add x k 5).symm
  simp only [horner, List.foldl_cons, List.foldl_nil, Nat.zero_shiftLeft, Nat.zero_xor, h25]
  have s20 := shift_join (x >>> 20); rw [e 20] at s20
  have s15 := shift_join (x >>> 15); rw [e 15] at s15
  have s10 := shift_join (x >>> 10); rw [e 10] at s10
  have s5 := shift_join (x >>> 5); rw [e 5] at s5
  have s0 := shift_join (x >>> 0); rw [e 0] at s0
  rw [s20, s15, s10, s5, s0, Nat.shiftRight_zero]

theorem checksum_verifies (hrp : Bytes) (values : List Nat) :
    verifyChecksum hrp (values ++ createChecksum hrp values) = true ∧
      (createChecksum hrp values).length = 6 ∧ ∀ v ∈ createChecksum hrp values, v < 32 := by
  have hlt : ∀ x k : Nat, x >>> k &&& 31 < 32 := fun x k =>
    Nat.lt_succ_of_le (Nat.and_le_right)
  refine ⟨?_, by simp [createChecksum], ?_⟩
  · have hc : createChecksum hrp values =
        (let m := polyMod (expandHRP hrp ++ values ++ List.replicate 6 0) ^^^ 1
         [m >>> 25 &&& 31, m >>> 20 &&& 31, m >>> 15 &&& 31, m >>> 10 &&& 31, m >>> 5 &&& 31,
          m >>> 0 &&& 31]) := rfl
    rw [verifyChecksum, decide_eq_true_eq, hc]
    simp only [polyMod]
    rw [← List.append_assoc, List.foldl_append, List.foldl_append (l := expandHRP hrp ++ values)]
    generalize (expandHRP hrp ++ values).foldl polyStep 1 = s
    have hM : (List.replicate 6 0).foldl polyStep s < 2 ^ 30 := by
      rw [show List.replicate 6 0 = List.replicate 5 0 ++ [0] from rfl, List.foldl_append,
        List.foldl_cons, List.foldl_nil, polyStep_eq, Nat.xor_zero]
      exact lin_lt _
    rw [poly_six s _ (by
      intro v hv
      simp only [List.mem_cons, List.not_mem_nil, or_false] at hv
      rcases hv with rfl | rfl | rfl | rfl | rfl | rfl <;> exact hlt _ _) (by simp)]
    simp only [List.length_cons, List.length_nil, Nat.zero_add, Nat.reduceAdd]
    generalize (List.replicate 6 0).foldl polyStep s = M at hM
    rw [groups30 (Nat.xor_lt_two_pow hM (by decide)), ← Nat.xor_assoc, Nat.xor_self, Nat.zero_xor]
  · intro v hv
    simp only [createChecksum] at hv
    obtain ⟨i, -, rfl⟩ := List.mem_map.mp hv
    exact hlt _ _

/-- The round is one-to-one on checksums. -/
theorem lin_inj {a b : Nat} (ha : a < 2 ^ 30) (hb : b < 2 ^ 30) (h : lin a = lin b) : a = b := by
  have h0 : lin (a ^^^ b) = 0 := by rw [lin_xor, h, Nat.xor_self]
  have hx : a ^^^ b < 2 ^ 30 := Nat.xor_lt_two_pow ha hb
  generalize hc : a ^^^ b = c at h0 hx
  have hmod : lin c % 32 = 0 := by rw [h0]
  have hbits : ∀ k, 25 ≤ k → k < 30 → c.testBit k = false := by
    have hs : ((c &&& 0x1ffffff) <<< 5) % 32 = 0 := by rw [Nat.shiftLeft_eq]; omega
    have e : (32 : Nat) = 2 ^ 5 := rfl
    rw [e] at hs hmod
    simp only [lin, Nat.xor_mod_two_pow, hs, Nat.zero_xor] at hmod
    intro k h1 h2
    cases t25 : c.testBit 25 <;> cases t26 : c.testBit 26 <;> cases t27 : c.testBit 27 <;>
      cases t28 : c.testBit 28 <;> cases t29 : c.testBit 29 <;>
      simp [t25, t26, t27, t28, t29] at hmod <;>
      (interval_cases k <;> assumption)
  have hsmall : c < 2 ^ 25 := by
    apply Nat.lt_pow_two_of_testBit
    intro k hk
    by_cases h30 : k < 30
    · exact hbits k hk h30
    · exact Nat.testBit_lt_two_pow (Nat.lt_of_lt_of_le hx (Nat.pow_le_pow_right (by decide) (by omega)))
  rw [lin_small hsmall, Nat.shiftLeft_eq] at h0
  have hc0 : c = 0 := by omega
  rw [hc0] at hc
  have := congrArg (a ^^^ ·) hc
  simp only [← Nat.xor_assoc, Nat.xor_self, Nat.zero_xor, Nat.xor_zero] at this
  exact this.symm

theorem poly_lt (vs : List Nat) (s : Nat) (hs : s < 2 ^ 30) (h : ∀ v ∈ vs, v < 32) :
    vs.foldl polyStep s < 2 ^ 30 := by
  induction vs generalizing s with
  | nil => exact hs
  | cons v vs ih =>
    rw [List.foldl_cons, polyStep_eq]
    apply ih
    · exact Nat.xor_lt_two_pow (lin_lt s) (Nat.lt_of_lt_of_le (h v (by simp)) (by decide))
    · exact fun x hx => h x (by simp [hx])

theorem poly_inj (vs : List Nat) (s t : Nat) (hs : s < 2 ^ 30) (ht : t < 2 ^ 30)
    (h : ∀ v ∈ vs, v < 32) (he : vs.foldl polyStep s = vs.foldl polyStep t) : s = t := by
  induction vs generalizing s t with
  | nil => exact he
  | cons v vs ih =>
    rw [List.foldl_cons, List.foldl_cons, polyStep_eq, polyStep_eq] at he
    have hv : v < 2 ^ 30 := Nat.lt_of_lt_of_le (h v (by simp)) (by decide)
    have := ih _ _ (Nat.xor_lt_two_pow (lin_lt s) hv) (Nat.xor_lt_two_pow (lin_lt t) hv)
      (fun x hx => h x (by simp [hx])) he
    apply lin_inj hs ht
    have h2 := congrArg (· ^^^ v) this
    simpa [Nat.xor_assoc] using h2

/-! ## Regrouping bits -/

theorem and_f8 (b : Nat) (h : b < 256) : (b &&& 0xf8) >>> 3 = b / 8 := by
  have : ∀ b : Fin 256, (b.1 &&& 0xf8) >>> 3 = b.1 / 8 := by decide +kernel
  exact this ⟨b, h⟩

theorem msVal_snoc (M : Nat) (xs : List Nat) (x : Nat) : msVal M (xs ++ [x]) = msVal M xs * M + x := by
  simp [msVal, List.foldl_append]

/-- The state of `ToBase32` after the bytes `bs`. -/
structure B32 (bs : Bytes) (st : List Nat × Nat × Nat) : Prop where
  bits : st.2.2 ≤ 7
  small : ∀ v ∈ st.1, v < 32
  count : 8 * bs.length = 5 * st.1.length + st.2.2
  val : ∃ p, p < 2 ^ st.2.2 ∧ st.2.1 = p * 2 ^ (8 - st.2.2) ∧
    beVal bs = msVal 32 st.1 * 2 ^ st.2.2 + p

theorem emit5_spec {bs : Bytes} {st : List Nat × Nat × Nat} (h : B32 bs st) :
    B32 bs (emit5 st) ∧ (emit5 st).2.2 ≤ 4 := by
  obtain ⟨ret, buf, k⟩ := st
  obtain ⟨h1, h2, h3, p, h4, h5, h6⟩ := h
  simp only at h1 h2 h3 h4 h5 h6
  by_cases hk : k ≥ 5
  · simp only [emit5, if_pos hk]
    have hb : buf < 256 := by
      rw [h5]; interval_cases k <;> omega
    rw [and_f8 _ hb]
    refine ⟨⟨by simp only; omega, ?_, by simp only [List.length_append, List.length_singleton]; omega,
      p % 2 ^ (k - 5), Nat.mod_lt _ (Nat.two_pow_pos _), ?_, ?_⟩, by omega⟩
    · intro v hv
      rcases List.mem_append.mp hv with hv | hv
      · exact h2 v hv
      · rw [List.mem_singleton.mp hv]; omega
    · simp only [h5, Nat.shiftLeft_eq]
      clear h3 h6
      interval_cases k <;> simp only [Nat.reduceSub, Nat.reducePow] at * <;> omega
    · simp only [msVal_snoc]
      rw [h6, h5]
      clear h3 h6 hb
      generalize msVal 32 ret = V
      interval_cases k <;> simp only [Nat.reduceSub, Nat.reducePow] at * <;> omega
  · simp only [emit5, if_neg hk]
    exact ⟨⟨h1, h2, h3, p, h4, h5, h6⟩, by omega⟩

theorem step32_spec {bs : Bytes} {st : List Nat × Nat × Nat} (h : B32 bs st) (b : UInt8) :
    B32 (bs ++ [b]) (toBase32Step st b) := by
  obtain ⟨h, hk⟩ := emit5_spec h
  unfold toBase32Step
  rcases hst : emit5 st with ⟨ret, buf, k⟩
  rw [hst] at h hk
  obtain ⟨h1, h2, h3, p, h4, h5, h6⟩ := h
  simp only at h1 h2 h3 h4 h5 h6 hk ⊢
  have hb : b.toNat < 256 := b.toNat_lt
  have hor : (buf >>> 3) ||| (b.toNat >>> (3 + k)) = p * 2 ^ (5 - k) + b.toNat / 2 ^ (3 + k) := by
    have e1 : buf >>> 3 = 2 ^ (5 - k) * p := by
      rw [h5, Nat.shiftRight_eq_div_pow]
      clear h3 h6
      interval_cases k <;> simp only [Nat.reduceSub, Nat.reducePow] <;> omega
    have e2 : b.toNat >>> (3 + k) < 2 ^ (5 - k) := by
      rw [Nat.shiftRight_eq_div_pow]
      clear h3 h6 h5 e1
      interval_cases k <;> simp only [Nat.reduceSub, Nat.reducePow, Nat.reduceAdd] <;> omega
    rw [e1, ← Nat.two_pow_add_eq_or_of_lt e2, Nat.shiftRight_eq_div_pow, Nat.mul_comm p]
  rw [hor]
  refine ⟨by simp only; omega, ?_, ?_, b.toNat % 2 ^ (3 + k), Nat.mod_lt _ (Nat.two_pow_pos _), ?_, ?_⟩
  · intro v hv
    rcases List.mem_append.mp hv with hv | hv
    · exact h2 v hv
    · rw [List.mem_singleton.mp hv]
      clear h3 h6 h5 hor
      interval_cases k <;> simp only [Nat.reduceSub, Nat.reducePow, Nat.reduceAdd] at * <;> omega
  · simp only [List.length_append, List.length_singleton]; omega
  · simp only [Nat.shiftLeft_eq]
    clear h3 h6 h5 hor
    interval_cases k <;> simp only [Nat.reduceSub, Nat.reducePow, Nat.reduceAdd] at * <;> omega
  · simp only [beVal_append_single, h6, msVal_snoc]
    clear h3 h6 h5 hor
    generalize msVal 32 ret = V
    interval_cases k <;> simp only [Nat.reduceSub, Nat.reducePow, Nat.reduceAdd] at * <;> omega

theorem fold32_spec (bs pre : Bytes) (st : List Nat × Nat × Nat) (h : B32 pre st) :
    B32 (pre ++ bs) (bs.foldl toBase32Step st) := by
  induction bs generalizing pre st with
  | nil => simpa using h
  | cons b bs ih =>
    have := ih (pre ++ [b]) _ (step32_spec h b)
    simpa using this

/-- What `ToBase32` computes: groups of 5 bits writing the same number, padded with zero bits. -/
theorem toBase32_spec (bs : Bytes) :
    ∃ pad, pad ≤ 4 ∧ 5 * (toBase32 bs).length = 8 * bs.length + pad ∧
      msVal 32 (toBase32 bs) = beVal bs * 2 ^ pad ∧ ∀ v ∈ toBase32 bs, v < 32 := by
  have h0 : B32 [] ([], 0, 0) := ⟨by decide, by simp, rfl, 0, by decide, by decide, rfl⟩
  have h := fold32_spec bs [] ([], 0, 0) h0
  rw [List.nil_append] at h
  obtain ⟨h, hk⟩ := emit5_spec h
  unfold toBase32
  rcases hst : emit5 (bs.foldl toBase32Step ([], 0, 0)) with ⟨ret, buf, k⟩
  rw [hst] at h hk
  obtain ⟨h1, h2, h3, p, h4, h5, h6⟩ := h
  simp only at h1 h2 h3 h4 h5 h6 hk ⊢
  by_cases hz : k ≠ 0
  · rw [if_pos hz]
    refine ⟨5 - k, by omega, ?_, ?_, ?_⟩
    · simp only [List.length_append, List.length_singleton]; omega
    · rw [msVal_snoc, h6, h5, Nat.shiftRight_eq_div_pow]
      clear h3 h6 h5
      generalize msVal 32 ret = V
      interval_cases k <;> simp only [Nat.reduceSub, Nat.reducePow, Nat.reduceAdd] at * <;> omega
    · intro v hv
      rcases List.mem_append.mp hv with hv | hv
      · exact h2 v hv
      · rw [List.mem_singleton.mp hv, h5, Nat.shiftRight_eq_div_pow]
        clear h3 h6 h5
        interval_cases k <;> simp only [Nat.reduceSub, Nat.reducePow, Nat.reduceAdd] at * <;> omega
  · rw [if_neg hz]
    have hk0 : k = 0 := by omega
    subst hk0
    refine ⟨0, by decide, by omega, ?_, h2⟩
    rw [h6]; simp only [Nat.pow_zero] at h4 ⊢; omega

/-- The state of `FromBase32` after the groups `vs`. -/
structure F32 (vs : List Nat) (st : Nat × Nat × Bytes) : Prop where
  bits : st.2.1 ≤ 7
  count : 5 * vs.length = 8 * st.2.2.length + st.2.1
  val : msVal 32 vs = beVal st.2.2 * 2 ^ st.2.1 + st.1 % 2 ^ st.2.1

theorem fromLoop_spec (vs pre : List Nat) (st : Nat × Nat × Bytes) (h : F32 pre st)
    (hv : ∀ v ∈ vs, v < 32) :
    ∃ st', fromBase32Loop vs st = .ok st' ∧ F32 (pre ++ vs) st' := by
  induction vs generalizing pre st with
  | nil => exact ⟨st, rfl, by simpa using h⟩
  | cons v vs ih =>
    obtain ⟨acc, k, ret⟩ := st
    obtain ⟨h1, h2, h3⟩ := h
    simp only at h1 h2 h3
    have hv0 : v < 32 := hv v (by simp)
    have hvs : ∀ x ∈ vs, x < 32 := fun x hx => hv x (by simp [hx])
    have hor : ((acc <<< 5) % 2 ^ 32) ||| v = (acc * 32) % 2 ^ 32 + v := by
      have e : (acc <<< 5) % 2 ^ 32 = 2 ^ 5 * (acc % 2 ^ 27) := by rw [Nat.shiftLeft_eq]; omega
      rw [e, ← Nat.two_pow_add_eq_or_of_lt hv0]; omega
    rw [fromBase32Loop, if_neg (by omega), hor]
    simp only
    have happ : pre ++ v :: vs = (pre ++ [v]) ++ vs := by simp
    rw [happ]
    by_cases hk : k + 5 ≥ 8
    · rw [if_pos hk]
      apply ih _ _ _ hvs
      refine ⟨by simp only; omega, by simp only [List.length_append, List.length_singleton]; omega, ?_⟩
      simp only [msVal_snoc, h3, beVal_append_single, UInt8.toNat_ofNat']
      rw [show (255 : Nat) = 2 ^ 8 - 1 from rfl, Nat.and_two_pow_sub_one_eq_mod,
        Nat.shiftRight_eq_div_pow]
      clear h2 h3 ih happ hor
      generalize beVal ret = V
      interval_cases k <;> simp only [Nat.reduceSub, Nat.reducePow, Nat.reduceAdd] at * <;> omega
    · rw [if_neg hk]
      apply ih _ _ _ hvs
      refine ⟨by simp only; omega, by simp only [List.length_append, List.length_singleton]; omega, ?_⟩
      simp only [msVal_snoc, h3]
      clear h2 h3 ih happ hor
      generalize beVal ret = V
      interval_cases k <;> simp only [Nat.reduceSub, Nat.reducePow, Nat.reduceAdd] at * <;> omega

theorem tail_zero (acc k : Nat) (hk : k ≤ 7) :
    (((acc <<< (8 - k)) % 2 ^ 32) &&& 255 = 0) ↔ acc % 2 ^ k = 0 := by
  rw [show (255 : Nat) = 2 ^ 8 - 1 from rfl, Nat.and_two_pow_sub_one_eq_mod, Nat.shiftLeft_eq]
  interval_cases k <;> simp only [Nat.reduceSub, Nat.reducePow] <;> omega

theorem bytes_ext {a b : Bytes} (hl : a.length = b.length) (hv : beVal a = beVal b) : a = b := by
  rw [← beBytes_beVal a, ← beBytes_beVal b, hl, hv]

theorem fromBase32_toBase32 (bs : Bytes) : fromBase32 (toBase32 bs) = .ok bs := by
  obtain ⟨pad, hp, hl, hv, hs⟩ := toBase32_spec bs
  obtain ⟨⟨acc, k, ret⟩, h1, h2, h3, h4⟩ := fromLoop_spec (toBase32 bs) [] (0, 0, [])
    ⟨by decide, rfl, rfl⟩ hs
  simp only [List.nil_append] at h2 h3 h4
  have hkp : k = pad ∧ ret.length = bs.length := by omega
  obtain ⟨rfl, hlen⟩ := hkp
  rw [hv] at h4
  have hmod : acc % 2 ^ k < 2 ^ k := Nat.mod_lt _ (Nat.two_pow_pos _)
  have hz : acc % 2 ^ k = 0 ∧ beVal ret = beVal bs := by
    clear h1 hv h3 hl
    generalize beVal ret = V at *
    generalize beVal bs = W at *
    interval_cases k <;> simp only [Nat.reducePow] at * <;> omega
  rw [fromBase32, h1, Res.ok_bind]
  simp only
  rw [if_neg, bytes_ext hlen hz.2]
  · rfl
  · rintro (h | h)
    · omega
    · exact h ((tail_zero acc k h2).mpr hz.1)

theorem ms_ext {M : Nat} {a b : List Nat} (ha : ∀ x ∈ a, x < M) (hb : ∀ x ∈ b, x < M)
    (hl : a.length = b.length) (hv : msVal M a = msVal M b) : a = b := by
  induction a using List.reverseRecOn generalizing b with
  | nil => exact (List.eq_nil_of_length_eq_zero (by simpa using hl.symm)).symm
  | append_singleton a x ih =>
    rcases List.eq_nil_or_concat b with rfl | ⟨b', y, rfl⟩
    · simp at hl
    · rw [List.concat_eq_append] at *
      rw [msVal_snoc, msVal_snoc] at hv
      have hx : x < M := ha x (by simp)
      have hy : y < M := hb y (by simp)
      have hM : 0 < M := by omega
      have hxy : x = y := by
        have := congrArg (· % M) hv
        simpa [Nat.mul_add_mod_of_lt, Nat.mod_eq_of_lt hx, Nat.mod_eq_of_lt hy] using this
      subst hxy
      have hval : msVal M a = msVal M b' := Nat.eq_of_mul_eq_mul_right hM (by omega)
      rw [ih (fun z hz => ha z (by simp [hz])) (fun z hz => hb z (by simp [hz])) (by simpa using hl) hval]

theorem fromLoop_small (vs : List Nat) (st st' : Nat × Nat × Bytes)
    (h : fromBase32Loop vs st = .ok st') : ∀ v ∈ vs, v < 32 := by
  induction vs generalizing st with
  | nil => simp
  | cons v vs ih =>
    obtain ⟨acc, k, ret⟩ := st
    rw [fromBase32Loop] at h
    split at h
    · cases h
    · rename_i hv
      simp only at h
      intro x hx
      rcases List.mem_cons.mp hx with rfl | hx
      · omega
      · split at h
        · exact ih _ h x hx
        · exact ih _ h x hx

theorem toBase32_fromBase32 (vs : List Nat) (bs : Bytes) (h : fromBase32 vs = .ok bs) :
    toBase32 bs = vs := by
  simp only [fromBase32] at h
  obtain ⟨st, h1, h⟩ := Res.bind_eq_ok.mp h
  have hsm := fromLoop_small _ _ _ h1
  obtain ⟨⟨acc, k, ret⟩, h1', h2, h3, h4⟩ := fromLoop_spec vs [] (0, 0, [])
    ⟨by decide, rfl, rfl⟩ hsm
  rw [h1'] at h1
  cases h1
  simp only [List.nil_append] at h h2 h3 h4
  split at h
  · cases h
  · rename_i hn
    cases h
    simp only [not_or, not_not] at hn
    obtain ⟨hk, hz⟩ := hn
    have hz' := (tail_zero acc k h2).mp hz
    rw [hz'] at h4
    obtain ⟨pad, hp, hl, hv, hs⟩ := toBase32_spec bs
    have hkp : k = pad := by omega
    subst hkp
    apply ms_ext hs hsm (by omega)
    rw [hv, h4]; omega

end Verif.Codec
