import Verif.File.AppendOnly

/-!
# Helper lemmas on append-only files
-/
namespace Verif.File

/-- The file shows the working bytes `w` and has the bytes `c` on disk. -/
structure AFile.Shows (f : AFile) (c w : Bytes) : Prop where
  disk : f.disk = c
  fileSize : f.fileSize = c.length
  le : f.bufferIndex ≤ c.length
  work : w = c.take f.bufferIndex ++ f.buffer

theorem AFile.Shows.len {f : AFile} {c w : Bytes} (h : f.Shows c w) :
    w.length = f.bufferIndex + f.buffer.length := by
  rw [h.work, List.length_append, List.length_take]
  have := h.le; omega

theorem AFile.shows_load (c : Bytes) : (AFile.load c).Shows c c :=
  ⟨rfl, rfl, Nat.le_refl _, by simp [AFile.load]⟩

theorem AFile.shows_append {f : AFile} {c w : Bytes} (h : f.Shows c w) (x : Bytes) :
    (f.append x).Shows c (w ++ x) :=
  ⟨h.disk, h.fileSize, h.le, by rw [h.work]; simp [AFile.append]⟩

theorem AFile.shows_discard {f : AFile} {c w : Bytes} (h : f.Shows c w) : f.discard.Shows c c :=
  ⟨h.disk, h.fileSize, by simp [AFile.discard, h.fileSize], by simp [AFile.discard, h.fileSize]⟩

theorem AFile.shows_flush {f : AFile} {c w : Bytes} (h : f.Shows c w) :
    f.flush.1 = true ∧ f.flush.2.Shows w w := by
  have hs := h.fileSize
  have hle := h.le
  unfold AFile.flush
  by_cases h0 : f.fileSize = f.bufferIndex ∧ f.buffer = []
  · rw [if_pos h0]
    have : w = c := by rw [h.work, h0.2, ← h0.1, hs]; simp
    subst this
    exact ⟨rfl, h⟩
  · rw [if_neg h0, if_neg (by omega)]
    refine ⟨rfl, ?_, ?_, ?_, ?_⟩
    · show mappedWrite f.disk f.bufferIndex f.buffer = w
      rw [mappedWrite, h.disk, h.work, show f.bufferIndex - c.length = 0 by omega]; simp
    · show f.bufferIndex + f.buffer.length = _; rw [h.len]
    · show f.bufferIndex + f.buffer.length ≤ _; rw [h.len]; omega
    · show w = w.take (f.bufferIndex + f.buffer.length) ++ []
      rw [← h.len]; simp

theorem AFile.shows_rewind {f : AFile} {c w : Bytes} (h : f.Shows c w) (n : Nat) :
    (f.rewind n).1 = decide (n ≤ w.length) ∧
    (f.rewind n).2.Shows c (if n ≤ w.length then w.take n else w) := by
  have hl := h.len
  have hle := h.le
  unfold AFile.rewind
  by_cases h1 : n > f.bufferIndex + f.buffer.length
  · rw [if_pos h1]
    refine ⟨by simp only; rw [eq_comm, decide_eq_false_iff_not]; omega, ?_⟩
    rw [if_neg (by omega)]; exact h
  · rw [if_neg h1]
    have hn : n ≤ w.length := by omega
    rw [if_pos hn]
    by_cases h2 : n ≤ f.bufferIndex
    · rw [if_pos h2]
      refine ⟨by simp [hn], h.disk, h.fileSize, by show n ≤ _; omega, ?_⟩
      show w.take n = c.take n ++ []
      rw [h.work, List.take_append_of_le_length (by rw [List.length_take]; omega), List.take_take]
      simp [Nat.min_eq_left h2]
    · rw [if_neg h2]
      refine ⟨by simp [hn], h.disk, h.fileSize, hle, ?_⟩
      show w.take n = c.take f.bufferIndex ++ f.buffer.take (n - f.bufferIndex)
      have : (c.take f.bufferIndex).length = f.bufferIndex := by rw [List.length_take]; omega
      rw [h.work, List.take_append, this, List.take_of_length_le (by omega)]

theorem AFile.shows_size {f : AFile} {c w : Bytes} (h : f.Shows c w) : f.size = w.length := by
  rw [h.len]; rfl

theorem AFile.shows_read {f : AFile} {c w : Bytes} (h : f.Shows c w) (pos n : Nat)
    (hr : pos + n ≤ w.length) (hs : pos + n ≤ f.bufferIndex ∨ f.bufferIndex ≤ pos) :
    f.read pos n = .ok ((w.drop pos).take n) := by
  have hl := h.len
  have hle := h.le
  have htk : (c.take f.bufferIndex).length = f.bufferIndex := by rw [List.length_take]; omega
  unfold AFile.read
  rcases hs with hs | hs
  · by_cases hp : pos < f.bufferIndex
    · rw [if_pos hp, mappedRead, h.disk, if_pos (by omega)]
      congr 1
      rw [h.work, List.drop_append_of_le_length (by omega),
        List.take_append_of_le_length (by rw [List.length_drop]; omega), List.drop_take,
        List.take_take, Nat.min_eq_left (by omega)]
    · have hn : n = 0 := by omega
      subst hn
      rw [if_neg hp]; simp only
      rw [if_pos (by omega)]; simp
  · rw [if_neg (by omega)]
    simp only
    rw [if_pos (by omega)]
    congr 2
    have h0 : (c.take f.bufferIndex).drop pos = [] := List.drop_eq_nil_of_le (by omega)
    rw [h.work, List.drop_append, htk, h0]; rfl

end Verif.File
