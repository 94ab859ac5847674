import Verif.Codec.Mnemonic
import Verif.Codec.WordList

/-!
# Lemmas about seed phrases
-/
namespace Verif.Codec

theorem topBits_length (x n : Nat) : (topBits x n).length = n := by
  induction n with
  | zero => rfl
  | succ n ih => rw [topBits, List.length_cons, ih]

theorem topBits_get (x n q : Nat) (h : q < n) : (topBits x n).getD q false = x.testBit (n - 1 - q) := by
  induction n generalizing q with
  | zero => omega
  | succ n ih =>
    rw [topBits]
    cases q with
    | zero => simp
    | succ q =>
      rw [List.getD_cons_succ, ih q (by omega)]
      congr 1; omega

theorem orBits_spec (place : Nat → Nat × Nat) (bits : List Bool) (loc : Nat) (v : List Nat)
    (h : ∀ q < bits.length, (place (loc + q)).1 < v.length) :
    ∃ v', orBits place bits loc v = .ok v' ∧ v'.length = v.length ∧
      ∀ i s, (v'.getD i 0).testBit s = true ↔
        ((v.getD i 0).testBit s = true ∨
          ∃ q < bits.length, bits.getD q false = true ∧ place (loc + q) = (i, s)) := by
  induction bits generalizing loc v with
  | nil => exact ⟨v, rfl, rfl, fun i s => by simp⟩
  | cons b bs ih =>
    have h0 := h 0 (by simp)
    rw [Nat.add_zero] at h0
    obtain ⟨v', h1, h2, h3⟩ := ih (loc + 1)
      (v.set (place loc).1 (v.getD (place loc).1 0 ||| (b.toNat <<< (place loc).2)))
      (by
        intro q hq
        rw [List.length_set]
        have := h (q + 1) (by simpa using hq)
        rwa [show loc + (q + 1) = loc + 1 + q by omega] at this)
    refine ⟨v', ?_, by rw [h2, List.length_set], ?_⟩
    · simp only [orBits]; rw [if_pos h0, h1]
    · intro i s
      rw [h3 i s]
      have hset : ((v.set (place loc).1 (v.getD (place loc).1 0 ||| (b.toNat <<< (place loc).2))).getD i 0).testBit s = true
          ↔ ((v.getD i 0).testBit s = true ∨ (b = true ∧ place loc = (i, s))) := by
        by_cases hi : (place loc).1 = i
        · subst hi
          rw [List.getD_eq_getElem?_getD, List.getElem?_set_self h0, Option.getD_some, Nat.testBit_or,
            Nat.testBit_shiftLeft, Bool.or_eq_true]
          have : (decide (s ≥ (place loc).2) && b.toNat.testBit (s - (place loc).2)) = true ↔
              (b = true ∧ place loc = ((place loc).1, s)) := by
            cases b with
            | false => simp
            | true =>
              rw [Bool.toNat_true, Bool.and_eq_true, decide_eq_true_eq]
              constructor
              · intro ⟨hge, ht⟩
                have : s - (place loc).2 = 0 := by
                  by_contra hne
                  obtain ⟨k, hk⟩ := Nat.exists_eq_succ_of_ne_zero hne
                  rw [hk, Nat.testBit_succ] at ht
                  simp at ht
                refine ⟨rfl, Prod.ext rfl ?_⟩
                show (place loc).2 = s
                omega
              · intro ⟨_, he⟩
                have : (place loc).2 = s := by rw [he]
                subst this
                simp
          rw [this]
        · rw [List.getD_eq_getElem?_getD, List.getElem?_set_ne hi, ← List.getD_eq_getElem?_getD]
          constructor
          · exact Or.inl
          · rintro (h | ⟨-, h⟩)
            · exact h
            · exact absurd (by rw [h]) hi
      rw [hset]
      constructor
      · rintro ((h | ⟨hb, hp⟩) | ⟨q, hq, hb, hp⟩)
        · exact Or.inl h
        · exact Or.inr ⟨0, by simp, by simpa using hb, by simpa using hp⟩
        · exact Or.inr ⟨q + 1, by simpa using hq, by simpa using hb, by
            rw [show loc + (q + 1) = loc + 1 + q by omega]; exact hp⟩
      · rintro (h | ⟨q, hq, hb, hp⟩)
        · exact Or.inl (Or.inl h)
        · cases q with
          | zero => exact Or.inl (Or.inr ⟨by simpa using hb, by simpa using hp⟩)
          | succ q => exact Or.inr ⟨q, by simpa using hq, by simpa using hb, by
              rw [show loc + 1 + q = loc + (q + 1) by omega]; exact hp⟩

/-- Bits of equal-sized blocks. -/
theorem flatMap_get {α : Type} (f : α → List Bool) (n : Nat) (l : List α) (hf : ∀ a ∈ l, (f a).length = n)
    (i r : Nat) (hi : i < l.length) (hr : r < n) :
    (l.flatMap f).getD (n * i + r) false = (f (l[i])).getD r false := by
  induction l generalizing i with
  | nil => simp at hi
  | cons a l ih =>
    rw [List.flatMap_cons]
    have ha := hf a (List.mem_cons_self ..)
    cases i with
    | zero =>
      rw [Nat.mul_zero, Nat.zero_add, List.getD_eq_getElem?_getD, List.getElem?_append_left (by omega),
        ← List.getD_eq_getElem?_getD]
      rfl
    | succ i =>
      rw [List.getD_eq_getElem?_getD, List.getElem?_append_right (by rw [ha, Nat.mul_succ]; omega),
        ← List.getD_eq_getElem?_getD, ha, show n * (i + 1) + r - n = n * i + r by rw [Nat.mul_succ]; omega,
        ih (fun b hb => hf b (List.mem_cons_of_mem _ hb)) i (by simpa using hi)]
      rfl

theorem flatMap_length {α : Type} (f : α → List Bool) (n : Nat) (l : List α)
    (hf : ∀ a ∈ l, (f a).length = n) : (l.flatMap f).length = n * l.length := by
  induction l with
  | nil => rfl
  | cons a l ih =>
    rw [List.flatMap_cons, List.length_append, hf a (List.mem_cons_self ..),
      ih (fun b hb => hf b (List.mem_cons_of_mem _ hb)), List.length_cons, Nat.mul_succ]; omega

/-- Bit number `p`, from the first, of a sequence of `w`-bit words, most significant bit first. -/
def bitAt (w : Nat) (v : List Nat) (p : Nat) : Bool := (v.getD (p / w) 0).testBit (w - 1 - p % w)

theorem getD_lt {v : List Nat} {B : Nat} (hB : 0 < B) (h : ∀ x ∈ v, x < B) (i : Nat) : v.getD i 0 < B := by
  rw [List.getD_eq_getElem?_getD]
  cases hi : v[i]? with
  | none => exact hB
  | some x => exact h x (List.mem_of_getElem? hi)

/-- Words with the same bits are the same. -/
theorem bits_ext {w : Nat} (hw : 0 < w) {v v' : List Nat} (hl : v.length = v'.length)
    (h : ∀ x ∈ v, x < 2 ^ w) (h' : ∀ x ∈ v', x < 2 ^ w)
    (hb : ∀ p < w * v.length, bitAt w v p = bitAt w v' p) : v = v' := by
  apply List.ext_getElem hl
  intro i hi hi'
  have e1 : v.getD i 0 = v[i] := by rw [List.getD_eq_getElem?_getD, List.getElem?_eq_getElem hi]; rfl
  have e2 : v'.getD i 0 = v'[i] := by rw [List.getD_eq_getElem?_getD, List.getElem?_eq_getElem hi']; rfl
  rw [← e1, ← e2]
  apply Nat.eq_of_testBit_eq
  intro s
  by_cases hs : s < w
  · have hlt : w * i + (w - 1 - s) < w * v.length := by
      have : w * (i + 1) ≤ w * v.length := Nat.mul_le_mul_left _ hi
      rw [Nat.mul_succ] at this; omega
    have := hb (w * i + (w - 1 - s)) hlt
    simp only [bitAt] at this
    rw [Nat.mul_add_div hw, Nat.div_eq_of_lt (by omega), Nat.add_zero, Nat.mul_add_mod,
      Nat.mod_eq_of_lt (by omega), show w - 1 - (w - 1 - s) = s by omega] at this
    exact this
  · have hp : 2 ^ w ≤ 2 ^ s := Nat.pow_le_pow_right (by decide) (by omega)
    rw [Nat.testBit_lt_two_pow (Nat.lt_of_lt_of_le (getD_lt (Nat.two_pow_pos _) h i) hp),
      Nat.testBit_lt_two_pow (Nat.lt_of_lt_of_le (getD_lt (Nat.two_pow_pos _) h' i) hp)]

/-- A bound on words from their bits. -/
theorem words_lt {w : Nat} {v : List Nat} (h : ∀ i s, w ≤ s → (v.getD i 0).testBit s = false) :
    ∀ x ∈ v, x < 2 ^ w := by
  intro x hx
  obtain ⟨i, hi, rfl⟩ := List.mem_iff_getElem.mp hx
  apply Nat.lt_pow_two_of_testBit
  intro s hs
  have := h i s hs
  rwa [List.getD_eq_getElem?_getD, List.getElem?_eq_getElem hi] at this

theorem word_place (p : Nat) (i s : Nat) :
    wordPlace p = (i, s) ↔ (s ≤ 10 ∧ p = 11 * i + (10 - s)) := by
  simp only [wordPlace, Prod.mk.injEq]
  omega

theorem byte_bits (entropy : Bytes) (p : Nat) (hp : p < 8 * entropy.length) :
    (entropy.flatMap fun b => topBits b.toNat 8).getD p false = bitAt 8 (entropy.map (·.toNat)) p := by
  have hi : p / 8 < entropy.length := by omega
  have := flatMap_get (fun b : UInt8 => topBits b.toNat 8) 8 entropy (fun b _ => topBits_length _ _)
    (p / 8) (p % 8) hi (Nat.mod_lt _ (by decide))
  rw [Nat.div_add_mod] at this
  rw [this, topBits_get _ _ _ (Nat.mod_lt _ (by decide)), bitAt, List.getD_eq_getElem?_getD,
    List.getElem?_map, List.getElem?_eq_getElem hi]
  rfl

/-- The words hold the bits of the entropy followed by those of the checksum. -/
theorem wordIndices_spec (H : Bytes → Bytes) (entropy : Bytes) (k : Nat) (hk : entropy.length = 4 * k)
    (hk8 : k ≤ 8) :
    ∃ v c, wordIndices H entropy = .ok v ∧ seedChecksum H entropy k = .ok c ∧ v.length = 3 * k ∧
      (∀ x ∈ v, x < 2 ^ 11) ∧
      ∀ p < 33 * k, bitAt 11 v p =
        if p < 32 * k then bitAt 8 (entropy.map (·.toNat)) p else c.testBit (33 * k - 1 - p) := by
  have hcb : entropy.length * 8 / 32 = k := by omega
  have hnw : (entropy.length * 8 + k) / 11 = 3 * k := by omega
  have hbl : (entropy.flatMap fun b => topBits b.toNat 8).length = 32 * k := by
    rw [flatMap_length _ 8 _ (fun b _ => topBits_length _ _), hk]; omega
  obtain ⟨v, h1, h2, h3⟩ := orBits_spec wordPlace (entropy.flatMap fun b => topBits b.toNat 8) 0
    (List.replicate (3 * k) 0) (by
      intro q hq
      rw [List.length_replicate]
      simp only [wordPlace]; omega)
  rw [List.length_replicate] at h2
  have hc : seedChecksum H entropy k =
      .ok ((((H entropy).headD 0).toNat >>> (8 - k)) &&& (2 ^ k - 1)) := if_pos hk8
  generalize ((((H entropy).headD 0).toNat >>> (8 - k)) &&& (2 ^ k - 1)) = c at hc
  obtain ⟨v', h1', h2', h3'⟩ := orBits_spec wordPlace (topBits c k) (32 * k) v (by
      intro q hq
      rw [topBits_length] at hq
      rw [h2]
      simp only [wordPlace]; omega)
  have hbit : ∀ i s, (v'.getD i 0).testBit s = true ↔
      ((∃ q < 32 * k, (entropy.flatMap fun b => topBits b.toNat 8).getD q false = true ∧
        wordPlace q = (i, s)) ∨
      ∃ q < k, (topBits c k).getD q false = true ∧ wordPlace (32 * k + q) = (i, s)) := by
    intro i s
    rw [h3' i s, h3 i s, hbl, topBits_length]
    have : (List.replicate (3 * k) 0).getD i 0 = 0 := by
      rw [List.getD_eq_getElem?_getD, List.getElem?_replicate]; split <;> rfl
    rw [this]
    simp only [Nat.zero_testBit, Bool.false_eq_true, false_or, Nat.zero_add]
  refine ⟨v', c, ?_, hc, by rw [h2', h2], ?_, ?_⟩
  · simp only [wordIndices, hcb, hnw, hbl]
    rw [if_neg (by omega), h1, Res.ok_bind, hc, Res.ok_bind, h1']
  · apply words_lt
    intro i s hs
    rw [Bool.eq_false_iff, ne_eq, hbit]
    rintro (⟨q, -, -, hp⟩ | ⟨q, -, -, hp⟩) <;> rw [word_place] at hp <;> omega
  · intro p hp
    rw [Bool.eq_iff_iff, bitAt, hbit]
    have hpl : ∀ q, wordPlace q = (p / 11, 11 - 1 - p % 11) ↔ q = p := by
      intro q; rw [word_place]; omega
    simp only [hpl]
    by_cases hlt : p < 32 * k
    · rw [if_pos hlt, ← byte_bits _ _ (by omega)]
      constructor
      · rintro (⟨q, -, hb, rfl⟩ | ⟨q, -, -, hq⟩)
        · exact hb
        · omega
      · intro h; exact Or.inl ⟨p, hlt, h, rfl⟩
    · rw [if_neg hlt]
      constructor
      · rintro (⟨q, hq, -, rfl⟩ | ⟨q, hq, hb, he⟩)
        · omega
        · rw [topBits_get _ _ _ hq] at hb
          rwa [show 33 * k - 1 - p = k - 1 - q by omega]
      · intro h
        refine Or.inr ⟨p - 32 * k, by omega, ?_, by omega⟩
        rw [topBits_get _ _ _ (by omega)]
        rwa [show k - 1 - (p - 32 * k) = 33 * k - 1 - p by omega]

theorem checksum_lt {H : Bytes → Bytes} {entropy : Bytes} {k c : Nat}
    (h : seedChecksum H entropy k = .ok c) : c < 2 ^ k := by
  simp only [seedChecksum] at h
  split at h
  · cases h
    exact Nat.lt_of_le_of_lt Nat.and_le_right (Nat.sub_lt (Nat.two_pow_pos _) (by decide))
  · cases h

/-- The entropy holds the leading bits of the words, the checksum the last ones. -/
theorem entropyOf_spec (v : List Nat) (k : Nat) (hk : v.length = 3 * k) (h0 : 0 < k) (hk8 : k ≤ 8)
    (hk4 : 4 ≤ k) (hv : ∀ x ∈ v, x < 2 ^ 11) :
    ∃ e c, entropyOf v = .ok (e, c) ∧ e.length = 4 * k ∧ (∀ x ∈ e, x < 2 ^ 8) ∧ c < 2 ^ k ∧
      (∀ p < 32 * k, bitAt 8 e p = bitAt 11 v p) ∧
      (∀ p, 32 * k ≤ p → p < 33 * k → c.testBit (33 * k - 1 - p) = bitAt 11 v p) := by
  have hdl : (11 * v.length - v.length / 3) / 8 - 1 = 4 * k - 1 := by omega
  have hcb : v.length / 3 = k := by omega
  have hne : v ≠ [] := by intro h; rw [h] at hk; simp at hk; omega
  have hlast : v.getLastD 0 = v.getD (3 * k - 1) 0 := by
    rw [List.getLastD_eq_getLast?, List.getLast?_eq_getElem?, hk, List.getD_eq_getElem?_getD]
  have hll : v.getLastD 0 < 2 ^ 11 := by rw [hlast]; exact getD_lt (by decide) hv _
  have hdrop : v.dropLast.length = 3 * k - 1 := by rw [List.length_dropLast, hk]
  have hbl : (v.dropLast.reverse.flatMap fun w => (topBits w 11).reverse).length = 11 * (3 * k - 1) := by
    rw [flatMap_length _ 11 _ (fun b _ => by rw [List.length_reverse, topBits_length]),
      List.length_reverse, hdrop]
  obtain ⟨e, h1, h2, h3⟩ := orBits_spec (bytePlace (4 * k - 1))
    (v.dropLast.reverse.flatMap fun w => (topBits w 11).reverse) (11 - k)
    ((List.replicate (4 * k - 1 + 1) 0).set (4 * k - 1) ((v.getLastD 0 >>> k) % 256)) (by
      intro q hq
      rw [hbl] at hq
      rw [List.length_set, List.length_replicate]
      simp only [bytePlace]
      split <;> omega)
  rw [List.length_set, List.length_replicate] at h2
  -- the bits read from the other words
  have hq : ∀ q < 11 * (3 * k - 1),
      (v.dropLast.reverse.flatMap fun w => (topBits w 11).reverse).getD q false =
        bitAt 11 v (32 * k - 1 - (11 - k + q)) := by
    intro q hq
    have hi : q / 11 < v.dropLast.reverse.length := by rw [List.length_reverse, hdrop]; omega
    have := flatMap_get (fun w : Nat => (topBits w 11).reverse) 11 v.dropLast.reverse
      (fun b _ => by rw [List.length_reverse, topBits_length]) (q / 11) (q % 11) hi
      (Nat.mod_lt _ (by decide))
    rw [Nat.div_add_mod] at this
    have hr : ∀ w r, r < 11 → (topBits w 11).reverse.getD r false = w.testBit r := by
      intro w r hr
      rw [List.getD_eq_getElem?_getD, List.getElem?_reverse (by rw [topBits_length]; exact hr),
        topBits_length, ← List.getD_eq_getElem?_getD, topBits_get _ _ _ (by omega)]
      congr 1; omega
    rw [this, hr _ _ (Nat.mod_lt _ (by decide)), bitAt]
    have hidx : (32 * k - 1 - (11 - k + q)) / 11 = 3 * k - 1 - 1 - q / 11 := by omega
    have hmod : 11 - 1 - (32 * k - 1 - (11 - k + q)) % 11 = q % 11 := by omega
    rw [hidx, hmod]
    congr 1
    rw [List.getElem_reverse, List.getElem_dropLast, List.getD_eq_getElem?_getD,
      List.getElem?_eq_getElem (by omega)]
    simp only [Option.getD_some, hdrop]
  have hstart : ∀ i s, (((List.replicate (4 * k - 1 + 1) 0).set (4 * k - 1)
      ((v.getLastD 0 >>> k) % 256)).getD i 0).testBit s = true ↔
      (i = 4 * k - 1 ∧ s < 8 ∧ (v.getLastD 0).testBit (k + s) = true) := by
    intro i s
    by_cases hi : i = 4 * k - 1
    · subst hi
      rw [List.getD_eq_getElem?_getD, List.getElem?_set_self (by rw [List.length_replicate]; omega),
        Option.getD_some, show (256 : Nat) = 2 ^ 8 by rfl, Nat.testBit_mod_two_pow, Nat.testBit_shiftRight]
      simp
    · rw [List.getD_eq_getElem?_getD, List.getElem?_set_ne (fun h => hi h.symm), List.getElem?_replicate]
      constructor
      · intro h; split at h <;> simp at h
      · intro h; exact absurd h.1 hi
  have hplace : ∀ q i s, q < 11 * (3 * k - 1) →
      (bytePlace (4 * k - 1) (11 - k + q) = (i, s) ↔
        (s ≤ 7 ∧ i ≤ 4 * k - 1 ∧ 11 - k + q = 8 * (4 * k - 1 - i) + s)) := by
    intro q i s hq
    simp only [bytePlace]
    rw [if_pos (by omega), Prod.mk.injEq]
    omega
  refine ⟨e, ((v.getLastD 0) % 256) &&& (2 ^ k - 1), ?_, by omega, ?_, ?_, ?_, ?_⟩
  · simp only [entropyOf, hcb, hdl, hk]
    rw [show (11 * (3 * k) - 3 * k / 3) / 8 - 1 = 4 * k - 1 by omega, show 3 * k / 3 = k by omega, h1, Res.ok_bind]
    rfl
  · apply words_lt
    intro i s hs
    rw [Bool.eq_false_iff, ne_eq, h3, hstart]
    rintro (⟨-, h, -⟩ | ⟨q, hq', -, hp⟩)
    · omega
    · rw [hbl] at hq'; rw [hplace _ _ _ hq'] at hp; omega
  · exact Nat.lt_of_le_of_lt Nat.and_le_right (Nat.sub_lt (Nat.two_pow_pos _) (by decide))
  · intro p hp
    rw [Bool.eq_iff_iff]
    conv_lhs => rw [bitAt]
    rw [h3, hstart]
    by_cases hlast' : 32 * k - 1 - p < 11 - k
    · have hb : bitAt 11 v p = (v.getLastD 0).testBit (k + (32 * k - 1 - p)) := by
        rw [hlast, bitAt]
        rw [show p / 11 = 3 * k - 1 by omega, show 11 - 1 - p % 11 = k + (32 * k - 1 - p) by omega]
      rw [hb]
      constructor
      · rintro (⟨h1, h2, h⟩ | ⟨q, hq', -, hp'⟩)
        · rwa [show 8 - 1 - p % 8 = 32 * k - 1 - p by omega] at h
        · rw [hbl] at hq'; rw [hplace _ _ _ hq'] at hp'; omega
      · intro h
        refine Or.inl ⟨by omega, by omega, ?_⟩
        rwa [show 8 - 1 - p % 8 = 32 * k - 1 - p by omega]
    · constructor
      · rintro (⟨h1, h2, h⟩ | ⟨q, hq', hb, hp'⟩)
        · -- past the last word there is nothing
          exfalso
          have : (v.getLastD 0).testBit (k + (8 - 1 - p % 8)) = false :=
            Nat.testBit_lt_two_pow (Nat.lt_of_lt_of_le hll
              (Nat.pow_le_pow_right (by decide) (by omega)))
          rw [this] at h; cases h
        · rw [hbl] at hq'; rw [hplace _ _ _ hq'] at hp'
          rw [hq q hq'] at hb
          rwa [show 32 * k - 1 - (11 - k + q) = p by omega] at hb
      · intro h
        refine Or.inr ⟨32 * k - 1 - p - (11 - k), by rw [hbl]; omega, ?_, ?_⟩
        · rw [hq _ (by omega)]
          rwa [show 32 * k - 1 - (11 - k + (32 * k - 1 - p - (11 - k))) = p by omega]
        · rw [hplace _ _ _ (by omega)]; omega
  · intro p h1 h2
    rw [Nat.testBit_and, show (256 : Nat) = 2 ^ 8 by rfl, Nat.testBit_mod_two_pow,
      Nat.testBit_two_pow_sub_one, bitAt, hlast]
    rw [show p / 11 = 3 * k - 1 by omega, show 11 - 1 - p % 11 = 33 * k - 1 - p by omega]
    simp only [show 33 * k - 1 - p < 8 by omega, show 33 * k - 1 - p < k by omega, decide_true,
      Bool.true_and, Bool.and_true]

end Verif.Codec
