import Verif.File.BitmapLemmas
import Verif.Props.DataFile
import Verif.Props.MMRIndex

/-!
# C24: bitmap files

The specification is a pair of a committed and a working set of leaves, as functions to `Bool`.
-/
namespace Verif.Props

open Verif Verif.File

/-- Operations on a bitmap file. -/
inductive BOp
  | set (n : Nat)
  | unset (n : Nat)
  | setPositions (vs : List Nat)
  | unsetPositions (vs : List Nat)
  | rewind (numLeaves : Nat) (leavesToAdd : List Nat)
  | commit
  | rollback
  | reload
deriving DecidableEq

/-- Spec: the sets after an operation.  `setPositions` and `unsetPositions` take MMR positions counted
from one, and disregard those that are not leaves. -/
def bSpec : (Nat → Bool) × (Nat → Bool) → BOp → (Nat → Bool) × (Nat → Bool)
  | (c, w), .set n => (c, fun m => w m || decide (m = n))
  | (c, w), .unset n => (c, fun m => w m && decide (m ≠ n))
  | (c, w), .setPositions vs => (c, fun m => w m || decide (MMR.leafPos m + 1 ∈ vs))
  | (c, w), .unsetPositions vs => (c, fun m => w m && decide (MMR.leafPos m + 1 ∉ vs))
  | (c, w), .rewind k add => (c, fun m => (w m || decide (m ∈ add)) && decide (m < k))
  | (_, w), .commit => (w, w)
  | (c, _), .rollback => (c, c)
  | (c, _), .reload => (c, c)

/-- The modelled class; `reload` is a restart of the process. -/
def bStep (f : BFile) : BOp → BFile
  | .set n => f.set n
  | .unset n => f.unset n
  | .setPositions vs => f.setAll vs
  | .unsetPositions vs => f.unsetAll vs
  | .rewind k add => f.rewind k add
  | .commit => f.commit
  | .rollback => f.rollback
  | .reload => BFile.load f.disk

/-- Position arguments are 32-bit and counted from one. -/
def LegalB : BOp → Prop
  | .setPositions vs => ∀ v ∈ vs, 0 < v ∧ v < 2 ^ 32
  | .unsetPositions vs => ∀ v ∈ vs, 0 < v ∧ v < 2 ^ 32
  | _ => True

theorem mem_roaringLeaf {vs : List Nat} (h : ∀ v ∈ vs, 0 < v ∧ v < 2 ^ 32) (m : Nat) :
    m ∈ vs.filterMap roaringLeaf ↔ MMR.leafPos m + 1 ∈ vs := by
  rw [List.mem_filterMap]
  have key : ∀ v, 0 < v → v < 2 ^ 32 → (roaringLeaf v = some m ↔ v = MMR.leafPos m + 1) := by
    intro v h0 h1
    have e : (v + 2 ^ 32 - 1) % 2 ^ 32 = v - 1 := by
      rw [show v + 2 ^ 32 - 1 = (v - 1) + 2 ^ 32 by omega, Nat.add_mod_right,
        Nat.mod_eq_of_lt (by omega)]
    unfold roaringLeaf
    simp only [e, MMR.Index.at, MMR.Index.isLeaf, beq_iff_eq]
    have hlt : v - 1 < 2 ^ 64 := by omega
    split
    · rename_i hz
      have := leafIndex_roundtrip' (v - 1) hlt hz
      rw [Option.some.injEq]
      constructor
      · intro hm; rw [hm] at this; omega
      · intro hm
        have e2 : v - 1 = MMR.leafPos m := by omega
        rw [e2, leafIndex_roundtrip m (by omega)]
    · rename_i hz
      constructor
      · intro hm; cases hm
      · intro hm
        exact absurd ((leafPos_iff_leaf (v - 1) hlt).mpr ⟨m, by omega⟩) hz
  constructor
  · rintro ⟨v, hv, hm⟩
    rw [key v (h v hv).1 (h v hv).2] at hm
    rwa [← hm]
  · intro hm
    exact ⟨_, hm, (key _ (h _ hm).1 (h _ hm).2).mpr rfl⟩

theorem bStep_increasing {f : BFile} (h : Increasing f.mods) (op : BOp) : Increasing (bStep f op).mods := by
  cases op with
  | set n => exact increasing_set h n
  | unset n => exact increasing_unset h n
  | setPositions vs => simp only [bStep, setAll_eq]; exact (foldl_set _ f h).1
  | unsetPositions vs => simp only [bStep, unsetAll_eq]; exact (foldl_unset _ f h).1
  | rewind k add => exact (isSet_rewind f h k add).1
  | commit => exact List.Pairwise.nil
  | rollback => exact List.Pairwise.nil
  | reload => exact List.Pairwise.nil

/-- The object shows the working set `w` over the committed set `c`. -/
structure BFile.Shows (f : BFile) (c w : Nat → Bool) : Prop where
  inc : Increasing f.mods
  disk : ∀ n, diskBit f.disk n = c n
  work : ∀ n, f.isSet n = w n

theorem bStep_shows {f : BFile} {c w : Nat → Bool} (h : BFile.Shows f c w) (op : BOp) (hl : LegalB op) :
    BFile.Shows (bStep f op) (bSpec (c, w) op).1 (bSpec (c, w) op).2 := by
  cases op with
  | set n =>
    refine ⟨increasing_set h.inc n, h.disk, fun m => ?_⟩
    simp only [bStep, bSpec]
    rw [isSet_set f h.inc, h.work, Bool.or_comm]
  | unset n =>
    refine ⟨increasing_unset h.inc n, h.disk, fun m => ?_⟩
    simp only [bStep, bSpec]
    rw [isSet_unset f h.inc, h.work, Bool.and_comm, decide_not]
  | setPositions vs =>
    have hl' : ∀ v ∈ vs, 0 < v ∧ v < 2 ^ 32 := hl
    obtain ⟨h1, h2, h3⟩ := foldl_set (vs.filterMap roaringLeaf) f h.inc
    simp only [bStep, bSpec, setAll_eq]
    refine ⟨h1, fun n => by rw [h2, h.disk], fun m => ?_⟩
    rw [h3, h.work, Bool.or_comm]
    congr 1
    rw [decide_eq_decide, mem_roaringLeaf hl']
  | unsetPositions vs =>
    have hl' : ∀ v ∈ vs, 0 < v ∧ v < 2 ^ 32 := hl
    obtain ⟨h1, h2, h3⟩ := foldl_unset (vs.filterMap roaringLeaf) f h.inc
    simp only [bStep, bSpec, unsetAll_eq]
    refine ⟨h1, fun n => by rw [h2, h.disk], fun m => ?_⟩
    rw [h3, h.work, Bool.and_comm, decide_not]
    congr 2
    rw [decide_eq_decide, mem_roaringLeaf hl']
  | rewind k add =>
    obtain ⟨h1, h2, h3⟩ := isSet_rewind f h.inc k add
    simp only [bStep, bSpec]
    refine ⟨h1, fun n => by rw [h2, h.disk], fun m => ?_⟩
    rw [h3, h.work, Bool.or_comm]
  | commit =>
    refine ⟨List.Pairwise.nil, fun n => ?_, fun n => ?_⟩
    · simp only [bStep, bSpec]; rw [diskBit_commit f h.inc, h.work]
    · simp only [bStep, bSpec]
      rw [← h.work, ← diskBit_commit f h.inc, ← isSet_clean]; rfl
  | rollback =>
    refine ⟨List.Pairwise.nil, h.disk, fun n => ?_⟩
    simp only [bStep, bSpec]
    rw [← h.disk, ← isSet_clean]; rfl
  | reload =>
    refine ⟨List.Pairwise.nil, h.disk, fun n => ?_⟩
    simp only [bStep, bSpec]
    rw [← h.disk, ← isSet_clean]; rfl

/-- Byte `n/8` of the file has its bit `n%8`, counted from the left, set: the spec of a stored bit. -/
def bitOfFile (disk : Bytes) (n : Nat) : Bool := (disk.getD (n / 8) 0).toNat.testBit (7 - n % 8)

theorem diskBit_eq (d : Bytes) (n : Nat) : diskBit d n = bitOfFile d n := by
  have := bit_eq_testBit (diskByte d (n / 8)) ⟨n % 8, Nat.mod_lt _ (by decide)⟩
  exact this

/-- **C24.** Through any sequence of set, unset (by leaf or by position), rewind, commit, rollback and
restart, `IsSet` returns membership in the working set, and the file holds exactly the committed
set.  Missing for the full claim: the query operator `[]`, see `bitmap_index_violated`. -/
theorem bitmap_refines_partial (start : Bytes) (ops : List BOp) (hl : ∀ op ∈ ops, LegalB op) :
    let s := ops.foldl bSpec (bitOfFile start, bitOfFile start)
    let f := ops.foldl bStep (BFile.load start)
    (∀ n, f.isSet n = s.2 n) ∧ (∀ n, bitOfFile f.disk n = s.1 n) := by
  have key : ∀ (ops : List BOp) (f : BFile) (s : (Nat → Bool) × (Nat → Bool)),
      BFile.Shows f s.1 s.2 → (∀ op ∈ ops, LegalB op) →
      BFile.Shows (ops.foldl bStep f) (ops.foldl bSpec s).1 (ops.foldl bSpec s).2 := by
    intro ops
    induction ops with
    | nil => intro f s h _; exact h
    | cons op ops ih =>
      intro f s h hl
      rw [List.foldl_cons, List.foldl_cons]
      exact ih _ _ (bStep_shows h op (hl op (by simp))) (fun o ho => hl o (by simp [ho]))
  have h0 : BFile.Shows (BFile.load start) (bitOfFile start) (bitOfFile start) :=
    ⟨List.Pairwise.nil, fun n => diskBit_eq start n, fun n => by rw [← diskBit_eq, ← isSet_clean]; rfl⟩
  have := key ops (BFile.load start) (bitOfFile start, bitOfFile start) h0 hl
  exact ⟨this.work, fun n => by rw [← diskBit_eq]; exact this.disk n⟩

/-- **C24, negation for `operator[]`.** A leaf that was set reads as unset through `operator[]`. -/
theorem bitmap_index_violated :
    let f := bStep (BFile.load []) (.set 3)
    f.isSet 3 = true ∧ f.index 3 = false := by
  decide +kernel

/-- `operator[]` is false whatever the bitmap holds. -/
theorem bitmap_index_always_false (f : BFile) (n : Nat) : f.index n = false := by
  unfold BFile.index; split <;> rfl

/-- **C24.** Exporting the working set: as long as its positions fit into 32 bits, `ToRoaring` yields
exactly the 1-based positions of the leaves in the set. -/
theorem bitmap_export (start : Bytes) (ops : List BOp)
    (hn : (ops.foldl bStep (BFile.load start)).numBytes * 8 ≤ 2 ^ 31) (v : Nat) :
    let f := ops.foldl bStep (BFile.load start)
    v ∈ f.toRoaring ↔ ∃ n, f.isSet n = true ∧ v = MMR.leafPos n + 1 := by
  have inc : Increasing (ops.foldl bStep (BFile.load start)).mods := by
    have : ∀ (ops : List BOp) (f : BFile), Increasing f.mods → Increasing (ops.foldl bStep f).mods := by
      intro ops
      induction ops with
      | nil => intro f h; exact h
      | cons op ops ih =>
        intro f h
        rw [List.foldl_cons]
        exact ih _ (bStep_increasing h op)
    exact this ops _ List.Pairwise.nil
  intro f
  have hf : f.numBytes * 8 ≤ 2 ^ 31 := hn
  have hinc : Increasing f.mods := inc
  clear_value f
  clear inc hn
  have hlp : ∀ n, MMR.leafPos n ≤ 2 * n := fun n => by unfold MMR.leafPos; omega
  unfold BFile.toRoaring
  rw [Nat.mod_eq_of_lt (by omega)]
  simp only [List.mem_flatMap, List.mem_range, List.mem_filterMap, Option.ite_none_right_eq_some,
    Option.some.injEq]
  constructor
  · rintro ⟨i, hi, j, hj, hb, rfl⟩
    refine ⟨i * 8 + j, ?_, ?_⟩
    · unfold BFile.isSet
      rw [show (i * 8 + j) / 8 = i by omega, show (i * 8 + j) % 8 = j by omega]
      exact hb
    · have := hlp (i * 8 + j)
      rw [Nat.mod_eq_of_lt (a := i * 8) (by omega), Nat.mod_eq_of_lt (a := i * 8 + j) (by omega),
        Nat.mod_eq_of_lt (by omega)]
  · rintro ⟨n, hs, rfl⟩
    have hlt : n / 8 < f.numBytes := by
      apply Nat.lt_of_not_le
      intro hle
      unfold BFile.isSet at hs
      rw [getByte_eq_zero hinc hle] at hs
      simp at hs
    refine ⟨n / 8, hlt, n % 8, Nat.mod_lt _ (by decide), hs, ?_⟩
    have := hlp n
    rw [Nat.mod_eq_of_lt (a := n / 8 * 8) (by omega), show n / 8 * 8 + n % 8 = n by omega,
      Nat.mod_eq_of_lt (a := n) (by omega), Nat.mod_eq_of_lt (by omega)]

/-- A history that exercises every operation, including a rewind that adds a leaf back. -/
example :
    let ops : List BOp := [.set 3, .set 9, .commit, .unset 3, .rollback, .set 12, .rewind 9 [5],
      .setPositions [1, 3], .commit, .reload]
    (∀ op ∈ ops, LegalB op) ∧
    (List.range 16).filter (ops.foldl bStep (BFile.load [])).isSet = [0, 3, 5] := by
  refine ⟨?_, by decide +kernel⟩
  intro op h
  simp only [List.mem_cons, List.not_mem_nil, or_false] at h
  rcases h with rfl | rfl | rfl | rfl | rfl | rfl | rfl | rfl | rfl | rfl <;> simp [LegalB]

end Verif.Props
