import Verif.File.AppendOnlyLemmas

/-!
# C23: append-only files

The specification is a pair of a committed and a working byte string (or list of records).
-/
namespace Verif.Props

open Verif Verif.File

/-- Operations on an append-only file. -/
inductive AOp
  | append (data : Bytes)
  | rewind (next : Nat)
  | flush
  | discard
  | reload
deriving DecidableEq

/-- Spec: what each operation does to (committed, working), and the returned flag. -/
def aSpec : Bytes × Bytes → AOp → (Bytes × Bytes) × Bool
  | (c, w), .append d => ((c, w ++ d), true)
  | (c, w), .rewind n => ((c, if n ≤ w.length then w.take n else w), n ≤ w.length)
  | (_, w), .flush => ((w, w), true)
  | (c, _), .discard => ((c, c), true)
  | (c, _), .reload => ((c, c), true)

/-- The modelled class; `reload` is a restart of the process. -/
def aStep (f : AFile) : AOp → AFile × Bool
  | .append d => (f.append d, true)
  | .rewind n => ((f.rewind n).2, (f.rewind n).1)
  | .flush => (f.flush.2, f.flush.1)
  | .discard => (f.discard, true)
  | .reload => (AFile.load f.disk, true)

/-- Run operations, collecting the results. -/
def runOps {σ α β : Type} (step : σ → α → σ × β) : σ → List α → σ × List β
  | s, [] => (s, [])
  | s, o :: os => ((runOps step (step s o).1 os).1, (step s o).2 :: (runOps step (step s o).1 os).2)

theorem aRun_shows : ∀ (ops : List AOp) {f : AFile} {c w : Bytes}, f.Shows c w →
    (runOps aStep f ops).2 = (runOps aSpec (c, w) ops).2 ∧
    (runOps aStep f ops).1.Shows (runOps aSpec (c, w) ops).1.1 (runOps aSpec (c, w) ops).1.2 := by
  intro ops
  induction ops with
  | nil => intro f c w h; exact ⟨rfl, h⟩
  | cons op ops ih =>
    intro f c w h
    have key : (aStep f op).2 = (aSpec (c, w) op).2 ∧
        (aStep f op).1.Shows (aSpec (c, w) op).1.1 (aSpec (c, w) op).1.2 := by
      cases op with
      | append d => exact ⟨rfl, AFile.shows_append h d⟩
      | rewind n => exact AFile.shows_rewind h n
      | flush => exact AFile.shows_flush h
      | discard => exact ⟨rfl, AFile.shows_discard h⟩
      | reload => exact ⟨rfl, by have := AFile.shows_load f.disk; rw [h.disk] at this; simpa [aStep, aSpec, h.disk] using this⟩
    obtain ⟨h1, h2⟩ := ih key.2
    simp only [runOps]
    exact ⟨by rw [key.1, h1], h2⟩

/-- **C23, bytes.** Through any sequence of append, rewind, flush, discard and restart, an
append-only file returns the flags of the specification, its size is that of the working string, its
disk content is the committed string, and every read inside the working string that does not straddle
the boundary between disk and buffer returns the bytes of the working string.  Missing for the full
claim: reads across that boundary, see `straddling_read_violated`. -/
theorem append_only_refines_partial (start : Bytes) (ops : List AOp) :
    let s := (runOps aSpec (start, start) ops).1
    let f := (runOps aStep (AFile.load start) ops).1
    (runOps aStep (AFile.load start) ops).2 = (runOps aSpec (start, start) ops).2 ∧
    f.size = s.2.length ∧ f.disk = s.1 ∧
    ∀ pos n, pos + n ≤ s.2.length → (pos + n ≤ f.bufferIndex ∨ f.bufferIndex ≤ pos) →
      f.read pos n = .ok ((s.2.drop pos).take n) := by
  obtain ⟨h1, h2⟩ := aRun_shows ops (AFile.shows_load start)
  exact ⟨h1, AFile.shows_size h2, h2.disk, fun pos n hr hs => AFile.shows_read h2 pos n hr hs⟩

/-- **C23, negation for byte reads.** A read that begins on disk and ends in the buffer returns stale
bytes of the disk instead of the working string, or runs past the end of the file. -/
theorem straddling_read_violated :
    (let f := (runOps aStep (AFile.load [1, 2, 3]) [.rewind 1, .append [9, 9]]).1
     f.read 0 2 = .ok [1, 2] ∧ (runOps aSpec ([1, 2, 3], [1, 2, 3]) [.rewind 1, .append [9, 9]]).1.2 = [1, 9, 9]) ∧
    (let f := (runOps aStep (AFile.load [1, 2, 3]) [.append [9]]).1
     f.read 2 2 = .ub) := by
  decide +kernel

/-! ## Record files -/

/-- Operations on a file of fixed-size records. -/
inductive DOp
  | add (rec : Bytes)
  | rewind (n : Nat)
  | commit
  | rollback
  | reload
deriving DecidableEq

/-- Spec on lists of records: (committed, working) and whether the call returned normally. -/
def dSpec : List Bytes × List Bytes → DOp → (List Bytes × List Bytes) × Bool
  | (c, w), .add r => ((c, w ++ [r]), true)
  | (c, w), .rewind n => ((c, if n ≤ w.length then w.take n else w), n ≤ w.length)
  | (_, w), .commit => ((w, w), true)
  | (c, _), .rollback => ((c, c), true)
  | (c, _), .reload => ((c, c), true)

/-- The modelled class; a thrown exception leaves the object as it is. -/
def dStep (N : Nat) (d : DFile) : DOp → DFile × Bool
  | .add r => (d.add r, true)
  | .rewind n => ((d.rewind N n).2, (d.rewind N n).1)
  | .commit => match d.commit with
    | .ok d' => (d', true)
    | _ => (d, false)
  | .rollback => (d.rollback, true)
  | .reload => (DFile.load d.file.disk, true)

/-- The operation is one the record size and 64-bit offsets allow. -/
def LegalD (N : Nat) : DOp → Prop
  | .add r => r.length = N
  | .rewind n => n * N < U64
  | _ => True

/-- The object shows the records `w` and has the records `c` on disk. -/
structure DFile.Shows (N : Nat) (d : DFile) (c w : List Bytes) : Prop where
  file : d.file.Shows c.flatten w.flatten
  csize : ∀ r ∈ c, r.length = N
  wsize : ∀ r ∈ w, r.length = N
  aligned : ∃ k, d.file.bufferIndex = k * N
  clean : d.dirty = false → w = c ∧ d.file.discard = d.file

theorem flatten_len {N : Nat} : ∀ {w : List Bytes}, (∀ r ∈ w, r.length = N) →
    w.flatten.length = w.length * N := by
  intro w
  induction w with
  | nil => intro _; simp
  | cons r w ih =>
    intro h
    rw [List.flatten_cons, List.length_append, ih (fun x hx => h x (by simp [hx])), h r (by simp),
      List.length_cons, Nat.add_mul]
    omega

theorem flatten_take {N : Nat} : ∀ {w : List Bytes} (n : Nat), (∀ r ∈ w, r.length = N) →
    (w.take n).flatten = w.flatten.take (n * N) := by
  intro w
  induction w with
  | nil => intro n _; simp
  | cons r w ih =>
    intro n h
    cases n with
    | zero => simp
    | succ n =>
      have hr := h r (by simp)
      have hm : (n + 1) * N = n * N + N := Nat.succ_mul n N
      rw [List.take_succ_cons, List.flatten_cons, List.flatten_cons, ih n (fun x hx => h x (by simp [hx])),
        List.take_append, hr, List.take_of_length_le (l := r) (by omega)]
      congr 2
      omega

theorem flatten_drop {N : Nat} : ∀ {w : List Bytes} (n : Nat), (∀ r ∈ w, r.length = N) →
    (w.drop n).flatten = w.flatten.drop (n * N) := by
  intro w
  induction w with
  | nil => intro n _; simp
  | cons r w ih =>
    intro n h
    cases n with
    | zero => simp
    | succ n =>
      have hr := h r (by simp)
      have hm : (n + 1) * N = n * N + N := Nat.succ_mul n N
      rw [List.drop_succ_cons, List.flatten_cons, ih n (fun x hx => h x (by simp [hx])),
        List.drop_append, hr, List.drop_eq_nil_of_le (as := r) (by omega)]
      rw [List.nil_append]
      congr 1
      omega

theorem DFile.Shows.size {N : Nat} {d : DFile} {c w : List Bytes} (h : DFile.Shows N d c w) (hN : 0 < N) :
    d.size N = w.length := by
  unfold DFile.size
  rw [AFile.shows_size h.file, flatten_len h.wsize, Nat.mul_div_cancel _ hN]

theorem DFile.Shows.get {N : Nat} {d : DFile} {c w : List Bytes} (h : DFile.Shows N d c w)
    (i : Nat) (hi : i < w.length) (hb : i * N < U64) : d.get N i = .ok w[i] := by
  unfold DFile.get
  rw [Nat.mod_eq_of_lt hb]
  obtain ⟨k, hk⟩ := h.aligned
  have hl := flatten_len h.wsize
  have h1 : (i + 1) * N ≤ w.length * N := Nat.mul_le_mul_right _ hi
  have h2 : (i + 1) * N = i * N + N := Nat.succ_mul i N
  rw [AFile.shows_read h.file _ _ (by omega)]
  · congr 1
    rw [← flatten_drop i h.wsize, List.drop_eq_getElem_cons hi, List.flatten_cons,
      List.take_append, List.take_of_length_le (Nat.le_of_eq (h.wsize _ (List.getElem_mem hi)))]
    rw [h.wsize _ (List.getElem_mem hi)]
    simp
  · rw [hk]
    rcases Nat.lt_or_ge i k with hlt | hge
    · left
      have := Nat.mul_le_mul_right N hlt
      rw [← h2]; exact this
    · right; exact Nat.mul_le_mul_right N hge

theorem dStep_shows {N : Nat} (hN : 0 < N) {d : DFile} {c w : List Bytes} (h : DFile.Shows N d c w)
    (op : DOp) (hl : LegalD N op) :
    (dStep N d op).2 = (dSpec (c, w) op).2 ∧
    DFile.Shows N (dStep N d op).1 (dSpec (c, w) op).1.1 (dSpec (c, w) op).1.2 := by
  have hcl := flatten_len h.csize
  have hwl := flatten_len h.wsize
  cases op with
  | add r =>
    refine ⟨rfl, ?_, h.csize, ?_, h.aligned, by simp [dStep, DFile.add]⟩
    · have := AFile.shows_append h.file r
      simpa [dStep, dSpec, DFile.add] using this
    · intro x hx
      simp only [dSpec, List.mem_append, List.mem_singleton] at hx
      rcases hx with hx | rfl
      · exact h.wsize x hx
      · exact hl
  | rewind n =>
    have hm : n * N % U64 = n * N := Nat.mod_eq_of_lt hl
    obtain ⟨h1, h2⟩ := AFile.shows_rewind h.file (n * N)
    have hiff : n * N ≤ w.flatten.length ↔ n ≤ w.length := by
      rw [hwl]
      exact Nat.mul_le_mul_right_iff hN
    have hdec : decide (n * N ≤ w.flatten.length) = decide (n ≤ w.length) := by
      simp only [hiff]
    simp only [dStep, dSpec, DFile.rewind, hm]
    refine ⟨by rw [h1, hdec], ?_, h.csize, ?_, ?_, by simp⟩
    · show AFile.Shows (d.file.rewind (n * N)).2 _ _
      by_cases hn : n ≤ w.length
      · rw [if_pos hn, flatten_take n h.wsize]
        rw [if_pos (hiff.mpr hn)] at h2
        exact h2
      · rw [if_neg hn]
        rw [if_neg (fun h => hn (hiff.mp h))] at h2
        exact h2
    · intro x hx
      split at hx
      · exact h.wsize x (List.mem_of_mem_take hx)
      · exact h.wsize x hx
    · show ∃ k, (d.file.rewind (n * N)).2.bufferIndex = k * N
      unfold AFile.rewind
      split
      · exact h.aligned
      · split
        · exact ⟨n, rfl⟩
        · exact h.aligned
  | commit =>
    simp only [dStep, dSpec, DFile.commit]
    by_cases hd : d.dirty
    · rw [if_pos hd]
      obtain ⟨h1, h2⟩ := AFile.shows_flush h.file
      have he : d.file.flush = (true, d.file.flush.2) := by rw [← h1]
      rw [he]
      refine ⟨rfl, h2, h.wsize, h.wsize, ?_, ?_⟩
      · show ∃ k, d.file.flush.2.bufferIndex = k * N
        unfold AFile.flush
        split
        · exact h.aligned
        · split
          · exact h.aligned
          · refine ⟨w.length, ?_⟩
            show d.file.bufferIndex + d.file.buffer.length = _
            rw [← h.file.len, hwl]
      · intro _
        refine ⟨rfl, ?_⟩
        have hs := h2.fileSize
        have hw2 := h2.len
        have hle2 := h2.le
        simp only [AFile.discard]
        have hb : d.file.flush.2.buffer = [] := List.length_eq_zero_iff.mp (by
          unfold AFile.flush
          split
          · rename_i h0; rw [h0.2]; rfl
          · split
            · rename_i h0; have := h.file.le; have := h.file.fileSize; omega
            · rfl)
        have hbi : d.file.flush.2.bufferIndex = d.file.flush.2.fileSize := by
          rw [hb] at hw2; simp only [List.length_nil] at hw2; omega
        generalize d.file.flush.2 = g at *
        cases g; simp_all
    · rw [if_neg hd]
      have hd' : d.dirty = false := by simpa using hd
      obtain ⟨e1, e2⟩ := h.clean hd'
      subst e1
      exact ⟨rfl, h.file, h.csize, h.wsize, h.aligned, fun _ => ⟨rfl, e2⟩⟩
  | rollback =>
    simp only [dStep, dSpec, DFile.rollback]
    by_cases hd : d.dirty
    · rw [if_pos hd]
      refine ⟨trivial, AFile.shows_discard h.file, h.csize, h.csize, ⟨c.length, ?_⟩, fun _ => ⟨rfl, rfl⟩⟩
      show d.file.fileSize = _
      rw [h.file.fileSize, hcl]
    · rw [if_neg hd]
      have hd' : d.dirty = false := by simpa using hd
      obtain ⟨e1, e2⟩ := h.clean hd'
      subst e1
      exact ⟨trivial, h.file, h.csize, h.csize, h.aligned, fun _ => ⟨rfl, e2⟩⟩
  | reload =>
    simp only [dStep, dSpec, DFile.load]
    refine ⟨trivial, ?_, h.csize, h.csize, ⟨c.length, ?_⟩, fun _ => ⟨rfl, rfl⟩⟩
    · rw [h.file.disk]; exact AFile.shows_load _
    · show d.file.disk.length = _
      rw [h.file.disk, hcl]

/-- **C23, records.** Through any sequence of add, rewind, commit, rollback and restart, a record file
behaves as a committed and a working list of records: calls succeed or throw as specified, the size is
the length of the working list, every record of the working list is read back exactly, and the disk
holds exactly the committed records. -/
theorem data_file_refines (N : Nat) (hN : 0 < N) (start : List Bytes)
    (hs : ∀ r ∈ start, r.length = N) (ops : List DOp) (hl : ∀ op ∈ ops, LegalD N op) :
    let s := (runOps dSpec (start, start) ops).1
    let d := (runOps (dStep N) (DFile.load start.flatten) ops).1
    (runOps (dStep N) (DFile.load start.flatten) ops).2 = (runOps dSpec (start, start) ops).2 ∧
    d.size N = s.2.length ∧
    (∀ i (h : i < s.2.length), i * N < U64 → d.get N i = .ok s.2[i]) ∧
    d.file.disk = s.1.flatten := by
  have key : ∀ (ops : List DOp) (d : DFile) (c w : List Bytes), DFile.Shows N d c w →
      (∀ op ∈ ops, LegalD N op) →
      (runOps (dStep N) d ops).2 = (runOps dSpec (c, w) ops).2 ∧
      DFile.Shows N (runOps (dStep N) d ops).1 (runOps dSpec (c, w) ops).1.1
        (runOps dSpec (c, w) ops).1.2 := by
    intro ops
    induction ops with
    | nil => intro d c w h _; exact ⟨rfl, h⟩
    | cons op ops ih =>
      intro d c w h hl
      obtain ⟨k1, k2⟩ := dStep_shows hN h op (hl op (by simp))
      obtain ⟨h1, h2⟩ := ih _ _ _ k2 (fun o ho => hl o (by simp [ho]))
      simp only [runOps]
      exact ⟨by rw [k1, h1], h2⟩
  have h0 : DFile.Shows N (DFile.load start.flatten) start start :=
    ⟨AFile.shows_load _, hs, hs, ⟨start.length, by simp only [DFile.load, AFile.load]; exact flatten_len hs⟩,
      fun _ => ⟨rfl, rfl⟩⟩
  obtain ⟨h1, h2⟩ := key ops _ _ _ h0 hl
  exact ⟨h1, h2.size hN, fun i h hb => h2.get i h hb, h2.file.disk⟩

/-- A history with a rewind below the committed size, an append, a refused rewind, a rollback and a
commit. -/
example :
    (∀ op ∈ [DOp.rewind 1, .add [7, 7], .rewind 9, .rollback, .add [8, 8], .commit], LegalD 2 op) ∧
    (runOps dSpec ([[1, 1], [2, 2]], [[1, 1], [2, 2]])
      [.rewind 1, .add [7, 7], .rewind 9, .rollback, .add [8, 8], .commit]).1.1
      = [[1, 1], [2, 2], [8, 8]] := by
  refine ⟨?_, rfl⟩
  intro op h
  simp only [List.mem_cons, List.not_mem_nil, or_false] at h
  rcases h with rfl | rfl | rfl | rfl | rfl | rfl <;> simp [LegalD, U64]

end Verif.Props
