import Verif.Ser.Pow
import Verif.Ser.Reads
import Mathlib.Data.Nat.Bitwise

namespace Verif

/-- Bit `q` of a byte vector, least significant bit of each byte first. -/
def getPackedBit (bits : Bytes) (q : Nat) : Bool := (bits.getD (q / 8) 0).toNat.testBit (q % 8)

theorem and_one_shift_ne_zero (x i : Nat) : (x &&& (1 <<< i) ≠ 0) ↔ x.testBit i = true := by
  rw [Nat.one_shiftLeft, Nat.and_two_pow]
  cases h : x.testBit i <;> simp

theorem setPackedBit_ok {bits : Bytes} {p : Nat} (h : p / 8 < bits.length) :
    ∃ bits', setPackedBit bits p = .ok bits' ∧ bits'.length = bits.length ∧
      ∀ q, getPackedBit bits' q = (getPackedBit bits q || decide (q = p)) := by
  refine ⟨bits.set (p / 8) (bits[p / 8] ||| UInt8.ofNat (1 <<< (p % 8))), ?_, by simp, ?_⟩
  · simp [setPackedBit, List.getElem?_eq_getElem h]
  · intro q
    unfold getPackedBit
    by_cases hq : q / 8 = p / 8
    · have hlt : p % 8 < 8 := Nat.mod_lt _ (by omega)
      have hpow : 2 ^ (p % 8) % 2 ^ 8 = 2 ^ (p % 8) :=
        Nat.mod_eq_of_lt (Nat.pow_lt_pow_right (by omega) hlt)
      rw [hq]
      have h1 : (bits.set (p / 8) (bits[p / 8] ||| UInt8.ofNat (1 <<< (p % 8)))).getD (p / 8) 0
          = bits[p / 8] ||| UInt8.ofNat (1 <<< (p % 8)) := by
        rw [List.getD_eq_getElem _ _ (by simpa using h)]; simp
      have h2 : bits.getD (p / 8) 0 = bits[p / 8] := List.getD_eq_getElem _ _ h
      rw [h1, h2, UInt8.toNat_or, Nat.testBit_or, UInt8.toNat_ofNat', Nat.one_shiftLeft, hpow,
        Nat.testBit_two_pow]
      congr 1
      have : (p % 8 = q % 8) ↔ q = p := by omega
      exact decide_eq_decide.mpr this
    · have h1 : (bits.set (p / 8) (bits[p / 8] ||| UInt8.ofNat (1 <<< (p % 8)))).getD (q / 8) 0
          = bits.getD (q / 8) 0 := by
        simp only [List.getD_eq_getElem?_getD]
        rw [List.getElem?_set_ne (by omega)]
      rw [h1]
      have : q ≠ p := by rintro rfl; exact hq rfl
      simp [this]

theorem packNonce_ok {eb n nonce : Nat} {bits : Bytes} (hb : eb ≤ 64) (he : 0 < eb)
    (h : (n + 1) * eb ≤ 8 * bits.length) :
    ∃ bits', packNonce eb n nonce bits = .ok bits' ∧ bits'.length = bits.length ∧
      ∀ q, getPackedBit bits' q =
        (getPackedBit bits q || (decide (q / eb = n) && nonce.testBit (q % eb))) := by
  have key : ∀ k, k ≤ eb → ∃ bits',
      (List.range k).foldlM (fun bits bit =>
        if bit ≥ 64 then .ub
        else if nonce &&& (1 <<< bit) ≠ 0 then setPackedBit bits (n * eb + bit)
        else .ok bits) bits = Res.ok bits' ∧ bits'.length = bits.length ∧
      ∀ q, getPackedBit bits' q =
        (getPackedBit bits q || (decide (q / eb = n ∧ q % eb < k) && nonce.testBit (q % eb))) := by
    intro k
    induction k with
    | zero => intro _; exact ⟨bits, rfl, rfl, by simp⟩
    | succ k ih =>
      intro hk
      obtain ⟨b1, h1, hl1, hg1⟩ := ih (by omega)
      rw [List.range_succ, List.foldlM_append, h1]
      simp only [Res.ok_bind, List.foldlM_cons, List.foldlM_nil]
      rw [if_neg (by omega : ¬ k ≥ 64)]
      have hpos : ∀ q, (q = n * eb + k) ↔ (q / eb = n ∧ q % eb = k) := by
        intro q
        constructor
        · rintro rfl
          rw [Nat.mul_comm, Nat.mul_add_div he, Nat.mul_add_mod, Nat.div_eq_of_lt (by omega),
            Nat.mod_eq_of_lt (by omega)]
          simp
        · rintro ⟨ha, hb'⟩
          have := Nat.div_add_mod q eb
          rw [ha, hb', Nat.mul_comm] at this
          exact this.symm
      by_cases hbit : nonce.testBit k = true
      · rw [if_pos ((and_one_shift_ne_zero _ _).mpr hbit)]
        have hin : (n * eb + k) / 8 < b1.length := by
          rw [hl1]
          have : (n + 1) * eb = n * eb + eb := by rw [Nat.add_mul, Nat.one_mul]
          omega
        obtain ⟨b2, h2, hl2, hg2⟩ := setPackedBit_ok hin
        refine ⟨b2, by simp [h2], by omega, ?_⟩
        intro q
        rw [hg2, hg1]
        have hq := hpos q
        by_cases hqa : q / eb = n
        · by_cases hqb : q % eb = k
          · have : q = n * eb + k := hq.mpr ⟨hqa, hqb⟩
            simp [hqa, hqb, hbit, this.symm]
          · have hne : ¬ (q = n * eb + k) := fun hh => hqb (hq.mp hh).2
            have : (q % eb < k + 1) ↔ (q % eb < k) := by omega
            simp [hqa, hne, this]
        · have hne : ¬ (q = n * eb + k) := fun hh => hqa (hq.mp hh).1
          simp [hqa, hne]
      · rw [if_neg (fun hh => hbit ((and_one_shift_ne_zero _ _).mp hh))]
        refine ⟨b1, by simp, hl1, ?_⟩
        intro q
        rw [hg1]
        by_cases hqb : q % eb = k
        · have hbf : nonce.testBit k = false := by simpa using hbit
          rw [hqb, hbf]; simp
        · have : (q % eb < k + 1) ↔ (q % eb < k) := by omega
          simp [this]
  obtain ⟨b, h1, h2, h3⟩ := key eb (Nat.le_refl _)
  refine ⟨b, h1, h2, ?_⟩
  intro q
  rw [h3]
  have : q % eb < eb := Nat.mod_lt _ he
  simp [this]

theorem packFrom_ok {eb : Nat} (hb : eb ≤ 64) (he : 0 < eb) (xs : List Nat) (n : Nat) (bits : Bytes)
    (h : (n + xs.length) * eb ≤ 8 * bits.length) :
    ∃ bits', packFrom eb n xs bits = .ok bits' ∧ bits'.length = bits.length ∧
      ∀ q, getPackedBit bits' q =
        (getPackedBit bits q || (decide (n ≤ q / eb) && (xs.getD (q / eb - n) 0).testBit (q % eb))) := by
  induction xs generalizing n bits with
  | nil => exact ⟨bits, rfl, rfl, by simp⟩
  | cons x xs ih =>
    have h1 : (n + 1) * eb ≤ 8 * bits.length := by
      refine Nat.le_trans (Nat.mul_le_mul_right _ ?_) h
      simp
    obtain ⟨b1, hp1, hl1, hg1⟩ := packNonce_ok (nonce := x) hb he h1
    obtain ⟨b2, hp2, hl2, hg2⟩ := ih (n + 1) b1 (by
      rw [hl1]; simpa [Nat.add_assoc, Nat.add_comm 1] using h)
    refine ⟨b2, by simp [packFrom, hp1, hp2], by omega, ?_⟩
    intro q
    rw [hg2, hg1]
    by_cases hq : q / eb = n
    · simp [hq]
    · by_cases hlt : n ≤ q / eb
      · have h3 : n + 1 ≤ q / eb := by omega
        have h4 : q / eb - n = (q / eb - (n + 1)) + 1 := by omega
        rw [h4]
        simp [hq, hlt, h3]
      · have h3 : ¬ n + 1 ≤ q / eb := by omega
        simp [hq, hlt, h3]

theorem getPackedBit_replicate (n q : Nat) : getPackedBit (List.replicate n 0) q = false := by
  unfold getPackedBit
  have : (List.replicate n (0 : UInt8)).getD (q / 8) 0 = 0 := by
    rw [List.getD_eq_getElem?_getD, List.getElem?_replicate]
    split <;> rfl
  rw [this]
  simp

theorem serCycle_ok {eb : Nat} (hb : eb ≤ 64) (he : 0 < eb) (xs : List Nat)
    (h : xs.length ≤ PROOFSIZE) :
    ∃ bits, serCycle eb xs = .ok bits ∧ bits.length = cycleBytes eb ∧
      ∀ q, getPackedBit bits q = (xs.getD (q / eb) 0).testBit (q % eb) := by
  have hh : (0 + xs.length) * eb ≤ 8 * (List.replicate (cycleBytes eb) (0 : UInt8)).length := by
    have : xs.length * eb ≤ PROOFSIZE * eb := Nat.mul_le_mul_right _ h
    simp only [List.length_replicate, cycleBytes, PROOFSIZE, Nat.zero_add] at *
    omega
  obtain ⟨b, h1, h2, h3⟩ := packFrom_ok hb he xs 0 (List.replicate (cycleBytes eb) 0) hh
  refine ⟨b, h1, by simpa using h2, ?_⟩
  intro q
  rw [h3, getPackedBit_replicate]
  simp

theorem unpackNonce_ok {bits : Bytes} {eb n : Nat} (h : (n + 1) * eb ≤ 8 * bits.length) :
    ∃ v, unpackNonce bits eb n = .ok v ∧
      ∀ j, v.testBit j = (decide (j < eb) && getPackedBit bits (n * eb + j)) := by
  have key : ∀ k, k ≤ eb → ∃ v, (List.range k).foldlM (fun acc bit =>
      let p := n * eb + bit
      match bits[p / 8]? with
      | none => Res.ub
      | some b =>
        .ok (if b.toNat &&& (1 <<< ((p % 256) % 8)) ≠ 0 then acc ||| (1 <<< bit) else acc)) 0
        = Res.ok v ∧
      ∀ j, v.testBit j = (decide (j < k) && getPackedBit bits (n * eb + j)) := by
    intro k
    induction k with
    | zero => intro _; exact ⟨0, rfl, by simp⟩
    | succ k ih =>
      intro hk
      obtain ⟨v, h1, h2⟩ := ih (by omega)
      rw [List.range_succ, List.foldlM_append, h1]
      have hin : (n * eb + k) / 8 < bits.length := by
        have : (n + 1) * eb = n * eb + eb := by rw [Nat.add_mul, Nat.one_mul]
        omega
      simp only [Res.ok_bind, List.foldlM_cons, List.foldlM_nil, List.getElem?_eq_getElem hin]
      have hgb : getPackedBit bits (n * eb + k)
          = (bits[(n * eb + k) / 8]).toNat.testBit ((n * eb + k) % 8) := by
        unfold getPackedBit
        rw [List.getD_eq_getElem _ _ hin]
      have hmod : (n * eb + k) % 256 % 8 = (n * eb + k) % 8 := by omega
      rw [hmod]
      refine ⟨_, rfl, ?_⟩
      intro j
      by_cases hbit : getPackedBit bits (n * eb + k) = true
      · rw [if_pos ((and_one_shift_ne_zero _ _).mpr (hgb ▸ hbit)), Nat.testBit_or,
          Nat.one_shiftLeft, Nat.testBit_two_pow, h2]
        by_cases hj : j = k
        · subst hj; simp [hbit]
        · have h5 : ¬ (k = j) := fun hh => hj hh.symm
          have : (j < k + 1) ↔ (j < k) := by omega
          simp [this, h5]
      · rw [if_neg (fun hh => hbit (hgb ▸ (and_one_shift_ne_zero _ _).mp hh)), h2]
        by_cases hj : j = k
        · subst hj; simp [hbit]
        · have : (j < k + 1) ↔ (j < k) := by omega
          simp [this]
  exact key eb (Nat.le_refl _)

theorem mapM_ok {α β : Type} {f : α → Res β} {g : α → β} (l : List α)
    (h : ∀ a ∈ l, f a = .ok (g a)) : l.mapM f = .ok (l.map g) := by
  induction l with
  | nil => rfl
  | cons a l ih =>
    rw [List.mapM_cons, h a (by simp), Res.ok_bind, ih (fun b hb => h b (by simp [hb]))]
    rfl

/-- The nonce that position `n` of a packed vector denotes. -/
noncomputable def packedNonce (bits : Bytes) (eb n : Nat) : Nat :=
  if h : (n + 1) * eb ≤ 8 * bits.length then (unpackNonce_ok (n := n) (eb := eb) h).choose else 0

theorem packedNonce_spec {bits : Bytes} {eb n : Nat} (h : (n + 1) * eb ≤ 8 * bits.length) :
    unpackNonce bits eb n = .ok (packedNonce bits eb n) ∧
      ∀ j, (packedNonce bits eb n).testBit j = (decide (j < eb) && getPackedBit bits (n * eb + j)) := by
  unfold packedNonce
  rw [dif_pos h]
  exact (unpackNonce_ok (n := n) (eb := eb) h).choose_spec

theorem unpackNonces_ok {bits : Bytes} {eb : Nat} (he : 0 < eb) (he2 : eb ≤ 63)
    (h : bits.length = cycleBytes eb) :
    unpackNonces bits eb = .ok ((List.range PROOFSIZE).map (packedNonce bits eb)) := by
  unfold unpackNonces
  rw [if_neg (by omega)]
  apply mapM_ok
  intro n hn
  have hn' : n < PROOFSIZE := by simpa using hn
  have : (n + 1) * eb ≤ 8 * bits.length := by
    have : (n + 1) * eb ≤ PROOFSIZE * eb := Nat.mul_le_mul_right _ hn'
    rw [h]
    simp only [cycleBytes, PROOFSIZE] at *
    omega
  exact (packedNonce_spec this).1

end Verif
