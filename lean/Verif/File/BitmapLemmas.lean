import Verif.File.Bitmap
import Mathlib.Data.List.Basic

/-!
# Helper lemmas on bitmap files
-/
namespace Verif.File

/-- Keys are strictly increasing. -/
def Increasing (m : ByteMap) : Prop := m.Pairwise (fun a b => a.1 < b.1)

theorem find_none {m : ByteMap} {k : Nat} : m.find k = none ↔ ∀ kv ∈ m, kv.1 ≠ k := by
  induction m with
  | nil => simp [ByteMap.find]
  | cons a m ih =>
    obtain ⟨k', v'⟩ := a
    simp only [ByteMap.find]
    split <;> simp_all

theorem find_put (m : ByteMap) (k : Nat) (v : UInt8) (k2 : Nat) :
    Increasing m → (m.put k v).find k2 = if k2 = k then some v else m.find k2 := by
  induction m with
  | nil => intro _; simp only [ByteMap.put, ByteMap.find]; split <;> split <;> simp_all
  | cons a m ih =>
    intro h
    obtain ⟨k', v'⟩ := a
    have h' := List.pairwise_cons.mp h
    simp only [ByteMap.put]
    by_cases h1 : k < k'
    · rw [if_pos h1]
      simp only [ByteMap.find]
      by_cases h2 : k2 = k
      · simp [h2]
      · rw [if_neg (fun e => h2 e.symm), if_neg h2]
    · rw [if_neg h1]
      by_cases h2 : k = k'
      · rw [if_pos h2]
        simp only [ByteMap.find]
        by_cases h3 : k2 = k
        · simp [h3]
        · rw [if_neg (fun e => h3 e.symm), if_neg h3, if_neg (fun e => h3 (by omega))]
      · rw [if_neg h2]
        simp only [ByteMap.find]
        by_cases h3 : k' = k2
        · rw [if_pos h3, if_neg (by omega)]
          simp [h3]
        · rw [if_neg h3, ih h'.2]
          split <;> simp [h3]

theorem mem_put {m : ByteMap} {k : Nat} {v : UInt8} {x : Nat × UInt8} (h : x ∈ m.put k v) :
    x = (k, v) ∨ x ∈ m := by
  induction m with
  | nil => simpa [ByteMap.put] using h
  | cons a m ih =>
    obtain ⟨k', v'⟩ := a
    simp only [ByteMap.put] at h
    split at h
    · simpa using h
    · split at h
      · rcases List.mem_cons.mp h with h | h
        · exact Or.inl h
        · exact Or.inr (by simp [h])
      · rcases List.mem_cons.mp h with h | h
        · exact Or.inr (by simp [h])
        · rcases ih h with h | h
          · exact Or.inl h
          · exact Or.inr (by simp [h])

theorem increasing_put {m : ByteMap} (k : Nat) (v : UInt8) (h : Increasing m) :
    Increasing (m.put k v) := by
  induction m with
  | nil => simp [ByteMap.put, Increasing]
  | cons a m ih =>
    obtain ⟨k', v'⟩ := a
    have h' := List.pairwise_cons.mp h
    simp only [ByteMap.put]
    by_cases h1 : k < k'
    · rw [if_pos h1]
      refine List.pairwise_cons.mpr ⟨?_, h⟩
      intro x hx
      rcases List.mem_cons.mp hx with rfl | hx
      · exact h1
      · exact Nat.lt_trans h1 (h'.1 x hx)
    · rw [if_neg h1]
      by_cases h2 : k = k'
      · rw [if_pos h2]
        refine List.pairwise_cons.mpr ⟨?_, h'.2⟩
        intro x hx
        have := h'.1 x hx
        simp only at this ⊢; omega
      · rw [if_neg h2]
        refine List.pairwise_cons.mpr ⟨?_, ih h'.2⟩
        intro x hx
        rcases mem_put hx with rfl | hx
        · show k' < k; omega
        · exact h'.1 x hx

/-- A key of an increasing map is at most the last key. -/
theorem key_le_last {m : ByteMap} (h : Increasing m) {k : Nat} {v : UInt8} (hl : m.getLast? = some (k, v))
    {x : Nat × UInt8} (hx : x ∈ m) : x.1 ≤ k := by
  match m with
  | [] => simp at hx
  | a :: m =>
    have h' := List.pairwise_cons.mp h
    cases m with
    | nil =>
      simp at hl hx
      subst hx; simp [hl]
    | cons b m =>
      rw [List.getLast?_cons_cons] at hl
      rcases List.mem_cons.mp hx with rfl | hx
      · have := @key_le_last (b :: m) h'.2 k v hl b (List.mem_cons_self)
        have := h'.1 b (List.mem_cons_self)
        omega
      · exact key_le_last h'.2 hl hx

theorem find_some_mem {m : ByteMap} {k : Nat} {v : UInt8} (h : m.find k = some v) : (k, v) ∈ m := by
  induction m with
  | nil => simp [ByteMap.find] at h
  | cons a m ih =>
    obtain ⟨k', v'⟩ := a
    simp only [ByteMap.find] at h
    split at h
    · simp_all
    · exact List.mem_cons_of_mem _ (ih h)

/-- Bytes at or above `numBytes` are zero. -/
theorem getByte_eq_zero {f : BFile} (h : Increasing f.mods) {i : Nat} (hi : f.numBytes ≤ i) :
    f.getByte i = 0 := by
  unfold BFile.getByte
  cases hf : f.mods.find i with
  | some b =>
    exfalso
    have hm := find_some_mem hf
    cases hl : f.mods.getLast? with
    | none => rw [List.getLast?_eq_none_iff] at hl; rw [hl] at hm; simp at hm
    | some kv =>
      obtain ⟨k, v⟩ := kv
      have := key_le_last h hl hm
      simp only [BFile.numBytes, hl] at hi
      split at hi <;> simp only at this <;> omega
  | none =>
    simp only
    rw [dif_neg]
    intro hlt
    have hne : f.disk ≠ [] := by intro e; rw [e] at hlt; simp at hlt
    unfold BFile.numBytes at hi
    simp only [if_pos hne] at hi
    omega

/-! ## Bits -/

theorem bitToByte_toNat : ∀ j : Fin 8, (bitToByte j).toNat = 2 ^ (7 - j.val) := by decide +kernel

theorem bit_eq_testBit (b : UInt8) (j : Fin 8) :
    (b &&& bitToByte j != 0) = b.toNat.testBit (7 - j.val) := by
  have h : (b &&& bitToByte j = 0) ↔ b.toNat.testBit (7 - j.val) = false := by
    rw [← UInt8.toNat_inj, UInt8.toNat_and, bitToByte_toNat]
    constructor
    · intro h
      have := congrArg (fun x => Nat.testBit x (7 - j.val)) h
      simpa [Nat.testBit_and, Nat.testBit_two_pow_self] using this
    · intro h
      apply Nat.eq_of_testBit_eq
      intro k
      rw [Nat.testBit_and, Nat.testBit_two_pow]
      by_cases hk : 7 - j.val = k
      · rw [← hk, h]; simp
      · simp [hk]
  cases hb : b.toNat.testBit (7 - j.val)
  · rw [hb] at h; simpa using h
  · rw [hb] at h; simpa using h

theorem bit_or (b : UInt8) (i j : Fin 8) :
    ((b ||| bitToByte i) &&& bitToByte j != 0) = (decide (i = j) || (b &&& bitToByte j != 0)) := by
  rw [bit_eq_testBit, bit_eq_testBit, UInt8.toNat_or, bitToByte_toNat, Nat.testBit_or,
    Nat.testBit_two_pow, Bool.or_comm]
  congr 1
  rw [decide_eq_decide, Fin.ext_iff]
  omega

theorem bit_clear (b : UInt8) (i j : Fin 8) :
    ((b &&& (0xff ^^^ bitToByte i)) &&& bitToByte j != 0) = (!decide (i = j) && (b &&& bitToByte j != 0)) := by
  rw [bit_eq_testBit, bit_eq_testBit, UInt8.toNat_and, UInt8.toNat_xor, bitToByte_toNat, Nat.testBit_and,
    Nat.testBit_xor, Nat.testBit_two_pow, Bool.and_comm]
  congr 1
  have h1 : ∀ j : Fin 8, (0xff : UInt8).toNat.testBit (7 - j.val) = true := by decide +kernel
  rw [h1, Bool.true_xor]
  congr 1
  rw [decide_eq_decide, Fin.ext_iff]
  omega

theorem getByte_put (f : BFile) (h : Increasing f.mods) (k : Nat) (v : UInt8) (i : Nat) :
    ({ f with mods := f.mods.put k v } : BFile).getByte i = if i = k then v else f.getByte i := by
  unfold BFile.getByte
  simp only [find_put _ _ _ _ h]
  by_cases hi : i = k
  · simp [hi]
  · simp [hi]

theorem isSet_set (f : BFile) (h : Increasing f.mods) (n m : Nat) :
    (f.set n).isSet m = (decide (m = n) || f.isSet m) := by
  unfold BFile.isSet BFile.set
  rw [getByte_put f h]
  by_cases hi : m / 8 = n / 8
  · rw [if_pos hi, hi]
    have := bit_or (f.getByte (n / 8)) ⟨n % 8, Nat.mod_lt _ (by decide)⟩ ⟨m % 8, Nat.mod_lt _ (by decide)⟩
    simp only at this
    rw [this]
    congr 1
    rw [decide_eq_decide, Fin.mk.injEq]
    constructor <;> intro e <;> omega
  · rw [if_neg hi]
    have : m ≠ n := by intro e; exact hi (by rw [e])
    simp [this]

theorem isSet_unset (f : BFile) (h : Increasing f.mods) (n m : Nat) :
    (f.unset n).isSet m = (!decide (m = n) && f.isSet m) := by
  unfold BFile.isSet BFile.unset
  rw [getByte_put f h]
  by_cases hi : m / 8 = n / 8
  · rw [if_pos hi, hi]
    have := bit_clear (f.getByte (n / 8)) ⟨n % 8, Nat.mod_lt _ (by decide)⟩ ⟨m % 8, Nat.mod_lt _ (by decide)⟩
    simp only at this
    rw [this]
    congr 2
    rw [decide_eq_decide, Fin.mk.injEq]
    constructor <;> intro e <;> omega
  · rw [if_neg hi]
    have : m ≠ n := by intro e; exact hi (by rw [e])
    simp [this]

theorem increasing_set {f : BFile} (h : Increasing f.mods) (n : Nat) : Increasing (f.set n).mods :=
  increasing_put _ _ h

theorem increasing_unset {f : BFile} (h : Increasing f.mods) (n : Nat) : Increasing (f.unset n).mods :=
  increasing_put _ _ h

theorem foldl_set (l : List Nat) : ∀ (f : BFile), Increasing f.mods →
    Increasing (l.foldl BFile.set f).mods ∧ (l.foldl BFile.set f).disk = f.disk ∧
    ∀ m, (l.foldl BFile.set f).isSet m = (decide (m ∈ l) || f.isSet m) := by
  induction l with
  | nil => intro f h; exact ⟨h, rfl, by simp⟩
  | cons a l ih =>
    intro f h
    obtain ⟨h1, h2, h3⟩ := ih (f.set a) (increasing_set h a)
    refine ⟨h1, h2, fun m => ?_⟩
    rw [List.foldl_cons, h3, isSet_set f h]
    by_cases hm : m = a <;> simp [hm]

theorem foldl_unset (l : List Nat) : ∀ (f : BFile), Increasing f.mods →
    Increasing (l.foldl BFile.unset f).mods ∧ (l.foldl BFile.unset f).disk = f.disk ∧
    ∀ m, (l.foldl BFile.unset f).isSet m = (!decide (m ∈ l) && f.isSet m) := by
  induction l with
  | nil => intro f h; exact ⟨h, rfl, by simp⟩
  | cons a l ih =>
    intro f h
    obtain ⟨h1, h2, h3⟩ := ih (f.unset a) (increasing_unset h a)
    refine ⟨h1, h2, fun m => ?_⟩
    rw [List.foldl_cons, h3, isSet_unset f h]
    by_cases hm : m = a <;> simp [hm]

theorem foldl_filterMap_elim {α β σ : Type} (g : σ → β → σ) (r : α → Option β) (vs : List α) : ∀ f : σ,
    vs.foldl (fun f v => (r v).elim f (g f)) f = (vs.filterMap r).foldl g f := by
  induction vs with
  | nil => intro f; rfl
  | cons v vs ih =>
    intro f
    rw [List.foldl_cons, ih, List.filterMap_cons]
    cases r v <;> rfl

theorem setAll_eq (vs : List Nat) (f : BFile) :
    f.setAll vs = (vs.filterMap roaringLeaf).foldl BFile.set f :=
  foldl_filterMap_elim BFile.set roaringLeaf vs f

theorem unsetAll_eq (vs : List Nat) (f : BFile) :
    f.unsetAll vs = (vs.filterMap roaringLeaf).foldl BFile.unset f :=
  foldl_filterMap_elim BFile.unset roaringLeaf vs f

theorem isSet_rewind (f : BFile) (h : Increasing f.mods) (n : Nat) (add : List Nat) :
    Increasing (f.rewind n add).mods ∧ (f.rewind n add).disk = f.disk ∧
    ∀ m, (f.rewind n add).isSet m = ((decide (m ∈ add) || f.isSet m) && decide (m < n)) := by
  unfold BFile.rewind
  simp only
  obtain ⟨h1, h2, h3⟩ := foldl_set add f h
  obtain ⟨g1, g2, g3⟩ := foldl_unset (List.range' n ((add.foldl BFile.set f).numBytes * 8 - n)) _ h1
  refine ⟨g1, g2.trans h2, fun m => ?_⟩
  rw [g3, ← h3]
  by_cases hm : m < n
  · have : m ∉ List.range' n ((add.foldl BFile.set f).numBytes * 8 - n) := by
      simp only [List.mem_range'_1]; omega
    simp [hm, this]
  · by_cases hb : m < (add.foldl BFile.set f).numBytes * 8
    · have : m ∈ List.range' n ((add.foldl BFile.set f).numBytes * 8 - n) := by
        simp only [List.mem_range'_1]; omega
      simp [hm, this]
    · have : (add.foldl BFile.set f).isSet m = false := by
        unfold BFile.isSet
        rw [getByte_eq_zero h1 (by omega)]
        simp
      simp [this]

/-! ## Commit -/

/-- Byte `i` of the disk, zero beyond the end. -/
def diskByte (d : Bytes) (i : Nat) : UInt8 := d.getD i 0

theorem diskByte_writeByte (d : Bytes) (k : Nat) (v : UInt8) (i : Nat) :
    diskByte (writeByte d k v) i = if i = k then v else diskByte d i := by
  unfold diskByte writeByte
  simp only [List.getD_eq_getElem?_getD, List.append_assoc]
  by_cases h1 : i < k
  · rw [if_neg (by omega)]
    by_cases h2 : i < d.length
    · rw [List.getElem?_append_left (by rw [List.length_take]; omega), List.getElem?_take_of_lt h1]
    · rw [List.getElem?_append_right (by rw [List.length_take]; omega), List.length_take,
        List.getElem?_append_left (by rw [List.length_replicate]; omega),
        List.getElem?_replicate, if_pos (by omega), List.getElem?_eq_none (by omega)]
      rfl
  · have hl : (d.take k).length + (List.replicate (k - d.length) (0 : UInt8)).length = k := by
      rw [List.length_take, List.length_replicate]; omega
    rw [← List.append_assoc, List.getElem?_append_right (by rw [List.length_append]; omega),
      List.length_append, hl]
    by_cases h2 : i = k
    · rw [if_pos h2, h2, Nat.sub_self]; rfl
    · rw [if_neg h2, show i - k = (i - k - 1) + 1 by omega, List.getElem?_cons_succ,
        List.getElem?_drop]
      congr 2; omega

theorem diskByte_foldl (m : ByteMap) : ∀ (d : Bytes), Increasing m → ∀ i,
    diskByte (m.foldl (fun d kv => writeByte d kv.1 kv.2) d) i = (m.find i).getD (diskByte d i) := by
  induction m with
  | nil => intro d _ i; rfl
  | cons a m ih =>
    intro d h i
    obtain ⟨k, v⟩ := a
    have h' := List.pairwise_cons.mp h
    rw [List.foldl_cons, ih _ h'.2, diskByte_writeByte]
    simp only [ByteMap.find]
    by_cases hi : i = k
    · have : ByteMap.find m i = none := find_none.mpr (fun kv hkv => by
        have := h'.1 kv hkv; simp only at this; omega)
      rw [this, if_pos hi, if_pos hi.symm]; rfl
    · rw [if_neg hi, if_neg (fun e => hi e.symm)]

theorem getByte_eq (f : BFile) (i : Nat) : f.getByte i = (f.mods.find i).getD (diskByte f.disk i) := by
  unfold BFile.getByte diskByte
  cases f.mods.find i with
  | some b => rfl
  | none =>
    simp only [Option.getD_none]
    by_cases h : i < f.disk.length
    · rw [dif_pos h, List.getD_eq_getElem?_getD, List.getElem?_eq_getElem h]; rfl
    · rw [dif_neg h, List.getD_eq_getElem?_getD, List.getElem?_eq_none (by omega)]; rfl

/-- The bit of the committed content. -/
def diskBit (d : Bytes) (n : Nat) : Bool := diskByte d (n / 8) &&& bitToByte (n % 8) != 0

theorem isSet_clean (d : Bytes) (n : Nat) : (BFile.mk d []).isSet n = diskBit d n := by
  unfold BFile.isSet diskBit
  rw [getByte_eq]; rfl

theorem diskBit_commit (f : BFile) (h : Increasing f.mods) (n : Nat) :
    diskBit f.commit.disk n = f.isSet n := by
  unfold diskBit BFile.isSet BFile.commit
  rw [getByte_eq]
  simp only
  rw [diskByte_foldl _ _ h]

end Verif.File
