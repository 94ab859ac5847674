import Verif.File.Crash
import Verif.Props.DataFile
import Verif.Props.Bitmap

/-!
# C25: a process stop during a commit

The full claim (the disk is as before or as after) is false for data files after a rewind, for bitmap
files, for `SafeWriteToFile` and for the chain state as a whole: the theorems `…_violated` give
witnesses.  What does hold is stated beside them.
-/
namespace Verif.Props

open Verif Verif.File

theorem applyAll_append (d : Disk) (a b : List Effect) : applyAll d (a ++ b) = applyAll (applyAll d a) b :=
  List.foldl_append ..

theorem applyAll_appendBytes (p : Path) : ∀ (bs : Bytes) (d : Disk) (c : Bytes), d p = some c →
    applyAll d (bs.map (.appendByte p)) p = some (c ++ bs) ∧
    ∀ q, q ≠ p → applyAll d (bs.map (.appendByte p)) q = d q := by
  intro bs
  induction bs with
  | nil => intro d c h; simp [applyAll, h]
  | cons b bs ih =>
    intro d c h
    have h1 : Effect.apply d (.appendByte p b) p = some (c ++ [b]) := by
      simp [Effect.apply, Disk.put, h]
    obtain ⟨i1, i2⟩ := ih (Effect.apply d (.appendByte p b)) (c ++ [b]) h1
    rw [List.map_cons]
    refine ⟨?_, fun q hq => ?_⟩
    · show applyAll (Effect.apply d _) _ p = _
      rw [i1]; simp
    · show applyAll (Effect.apply d _) _ q = _
      rw [i2 q hq]; simp [Effect.apply, Disk.put, hq]

theorem flush_crash {f : AFile} {c w : Bytes} (h : f.Shows c w) (p : Path) (d : Disk) (hd : d p = some c)
    (n : Nat) :
    (applyAll d ((flushEffects p f).take n) p = some c ∨
      ∃ k, f.bufferIndex ≤ k ∧ applyAll d ((flushEffects p f).take n) p = some (w.take k)) ∧
    ∀ q, q ≠ p → applyAll d ((flushEffects p f).take n) q = d q := by
  unfold flushEffects
  have hs := h.fileSize
  have hle := h.le
  split
  · simp [applyAll, hd]
  · rw [if_neg (by omega)]
    cases n with
    | zero => simp [applyAll, hd]
    | succ n =>
      rw [List.take_succ_cons, ← List.map_take]
      have h1 : Effect.apply d (.truncate p f.bufferIndex) p = some (c.take f.bufferIndex) := by
        simp [Effect.apply, Disk.put, hd, Nat.sub_eq_zero_of_le hle]
      obtain ⟨i1, i2⟩ := applyAll_appendBytes p (f.buffer.take n) _ _ h1
      refine ⟨Or.inr ⟨f.bufferIndex + n, by omega, ?_⟩, fun q hq => ?_⟩
      · show applyAll (Effect.apply d _) _ p = _
        rw [i1, h.work]
        have htk : (c.take f.bufferIndex).length = f.bufferIndex := by rw [List.length_take]; omega
        rw [List.take_append, htk, List.take_of_length_le (l := c.take f.bufferIndex) (by omega),
          show f.bufferIndex + n - f.bufferIndex = n by omega]
      · show applyAll (Effect.apply d _) _ q = _
        rw [i2 q hq]; simp [Effect.apply, Disk.put, hq]

/-- The writes listed for a flush are those of the flush: after all of them the file is as the model of
`Flush` leaves it. -/
theorem flush_effects_complete {f : AFile} {c w : Bytes} (h : f.Shows c w) (p : Path) (d : Disk)
    (hd : d p = some c) : applyAll d (flushEffects p f) p = some f.flush.2.disk := by
  unfold flushEffects AFile.flush
  have hs := h.fileSize
  have hle := h.le
  split
  · simp [applyAll, hd, h.disk]
  · rw [if_neg (by omega), if_neg (by omega)]
    have h1 : Effect.apply d (.truncate p f.bufferIndex) p = some (c.take f.bufferIndex) := by
      simp [Effect.apply, Disk.put, hd, Nat.sub_eq_zero_of_le hle]
    obtain ⟨i1, _⟩ := applyAll_appendBytes p f.buffer _ _ h1
    show applyAll (Effect.apply d _) _ p = _
    rw [i1]
    simp [mappedWrite, h.disk, Nat.sub_eq_zero_of_le hle]

/-- **C25, data files.** After any history of an append-only file, a stop at any point of the next
flush leaves either the committed bytes or a prefix of the working bytes: nothing that was in neither
is ever on disk, and no other file is touched. -/
theorem data_crash_partial (start : Bytes) (ops : List AOp) (p : Path) (d d' : Disk) :
    let s := (runOps aSpec (start, start) ops).1
    let f := (runOps aStep (AFile.load start) ops).1
    d p = some s.1 → CrashStates d (flushEffects p f) d' →
    (d' p = some s.1 ∨ ∃ k, d' p = some (s.2.take k)) ∧ ∀ q, q ≠ p → d' q = d q := by
  intro s f hd hc
  obtain ⟨n, rfl⟩ := hc
  have hsh := (aRun_shows ops (AFile.shows_load start)).2
  obtain ⟨h1, h2⟩ := flush_crash hsh p d hd n
  refine ⟨?_, h2⟩
  rcases h1 with h1 | ⟨k, _, h1⟩
  · exact Or.inl h1
  · exact Or.inr ⟨k, h1⟩

/-- **C25, data files without rewind.** If the pending change only appends, a stop at any point of the
flush keeps all committed bytes, followed by a prefix of the appended ones. -/
theorem append_crash_keeps (c x : Bytes) (p : Path) (d d' : Disk) (hd : d p = some c)
    (hc : CrashStates d (flushEffects p ((AFile.load c).append x)) d') :
    ∃ k, d' p = some (c ++ x.take k) := by
  obtain ⟨n, rfl⟩ := hc
  have hsh := AFile.shows_append (AFile.shows_load c) x
  obtain ⟨h1, _⟩ := flush_crash hsh p d hd n
  rcases h1 with h1 | ⟨k, hk, h1⟩
  · exact ⟨0, by simp [h1]⟩
  · have hk' : c.length ≤ k := hk
    refine ⟨k - c.length, ?_⟩
    rw [h1, List.take_append, List.take_of_length_le hk']

/-- **C25, negation for data files.** After a rewind, a stop between the truncation and the write of
the new records leaves neither the state before nor the state after the commit: a committed record is
lost. -/
theorem data_crash_violated :
    let f := (runOps (dStep 2) (DFile.load [1, 1, 2, 2]) [.rewind 1, .add [7, 7]]).1
    let d : Disk := fun p => if p = "f" then some [1, 1, 2, 2] else none
    ∃ d', CrashStates d (dataEffects "f" f) d' ∧ d' "f" = some [1, 1] ∧
      d "f" = some [1, 1, 2, 2] ∧ applyAll d (dataEffects "f" f) "f" = some [1, 1, 7, 7] := by
  exact ⟨_, ⟨1, rfl⟩, rfl, rfl, rfl⟩

/-- **C25, negation for records.** A stop in the middle of a record leaves part of a record on disk;
after the restart the next record added is not read back. -/
theorem record_crash_violated :
    let f := (runOps (dStep 2) (DFile.load [1, 1]) [.add [7, 8]]).1
    let d : Disk := fun p => if p = "f" then some [1, 1] else none
    ∃ d', CrashStates d (dataEffects "f" f) d' ∧ d' "f" = some [1, 1, 7] ∧
      (let g := (runOps (dStep 2) (DFile.load [1, 1, 7]) [.add [9, 9]]).1
       g.size 2 = 2 ∧ g.get 2 1 = .ub) ∧
      (let g := (runOps (dStep 2) (DFile.load [1, 1, 7]) [.add [9, 9], .commit]).1
       g.get 2 1 = .ok [7, 9]) := by
  exact ⟨_, ⟨2, rfl⟩, rfl, by decide +kernel, by decide +kernel⟩

/-! ## Bitmap files -/

theorem applyAll_putBytes (p : Path) : ∀ (m : ByteMap) (d : Disk) (c : Bytes), d p = some c →
    applyAll d (m.map fun kv => .putByte p kv.1 kv.2) p
      = some (m.foldl (fun d kv => writeByte d kv.1 kv.2) c) ∧
    ∀ q, q ≠ p → applyAll d (m.map fun kv => .putByte p kv.1 kv.2) q = d q := by
  intro m
  induction m with
  | nil => intro d c h; simp [applyAll, h]
  | cons kv m ih =>
    intro d c h
    have h1 : Effect.apply d (.putByte p kv.1 kv.2) p = some (writeByte c kv.1 kv.2) := by
      simp [Effect.apply, Disk.put, h]
    obtain ⟨i1, i2⟩ := ih _ _ h1
    rw [List.map_cons]
    refine ⟨i1, fun q hq => ?_⟩
    show applyAll (Effect.apply d _) _ q = _
    rw [i2 q hq]; simp [Effect.apply, Disk.put, hq]

theorem find_take {m : ByteMap} (h : Increasing m) (n i : Nat) :
    ByteMap.find (m.take n) i = none ∨ ByteMap.find (m.take n) i = ByteMap.find m i := by
  induction m generalizing n with
  | nil => simp
  | cons a m ih =>
    obtain ⟨k, v⟩ := a
    have h' := List.pairwise_cons.mp h
    cases n with
    | zero => left; rfl
    | succ n =>
      rw [List.take_succ_cons]
      simp only [ByteMap.find]
      split
      · exact Or.inr rfl
      · exact ih h'.2 n

/-- **C25, bitmap files.** After any history of a bitmap file, a stop at any point of the next commit
leaves every single bit either as committed before or as in the working set. -/
theorem bitmap_crash_partial (start : Bytes) (ops : List BOp) (hl : ∀ op ∈ ops, LegalB op)
    (p : Path) (d d' : Disk) :
    let s := ops.foldl bSpec (bitOfFile start, bitOfFile start)
    let f := ops.foldl bStep (BFile.load start)
    d p = some f.disk → CrashStates d (bitmapEffects p f) d' →
    ∃ c, d' p = some c ∧ ∀ n, bitOfFile c n = s.1 n ∨ bitOfFile c n = s.2 n := by
  intro s f hd hc
  obtain ⟨n, rfl⟩ := hc
  obtain ⟨hw, hdk⟩ := bitmap_refines_partial start ops hl
  have inc : Increasing f.mods := by
    have : ∀ (ops : List BOp) (f : BFile), Increasing f.mods → Increasing (ops.foldl bStep f).mods := by
      intro ops
      induction ops with
      | nil => intro f h; exact h
      | cons op ops ih =>
        intro f h
        rw [List.foldl_cons]
        exact ih _ (bStep_increasing h op)
    exact this ops _ List.Pairwise.nil
  unfold bitmapEffects
  rw [← List.map_take]
  obtain ⟨h1, _⟩ := applyAll_putBytes p (f.mods.take n) d _ hd
  refine ⟨_, h1, fun m => ?_⟩
  have incT : Increasing (f.mods.take n) := List.Pairwise.sublist (List.take_sublist _ _) inc
  have e : bitOfFile ((f.mods.take n).foldl (fun d kv => writeByte d kv.1 kv.2) f.disk) m
      = (BFile.mk f.disk (f.mods.take n)).isSet m := by
    rw [← diskBit_eq]
    exact diskBit_commit (BFile.mk f.disk (f.mods.take n)) incT m
  rw [e]
  rcases find_take inc n (m / 8) with hf | hf
  · left
    rw [← hdk m, ← diskBit_eq]
    unfold BFile.isSet diskBit
    rw [getByte_eq, hf]; rfl
  · right
    rw [← hw m]
    show _ = f.isSet m
    unfold BFile.isSet
    rw [getByte_eq, getByte_eq, hf]

/-- **C25, negation for bitmap files.** Two leaves in different bytes are set in one batch; a stop
between the two writes leaves only one of them set. -/
theorem bitmap_crash_violated :
    let f := [BOp.set 0, .set 8].foldl bStep (BFile.load [0, 0])
    let d : Disk := fun p => if p = "f" then some [0, 0] else none
    ∃ d', CrashStates d (bitmapEffects "f" f) d' ∧ d' "f" = some [128, 0] ∧
      applyAll d (bitmapEffects "f" f) "f" = some [128, 128] := by
  refine ⟨_, ⟨1, rfl⟩, ?_, ?_⟩ <;> decide +kernel

/-! ## Replacing a whole file -/

/-- **C25, `SafeWriteToFile`.** A stop at any point leaves the old content, the new content, or no file
at all; in the last case the temporary file holds the complete new content.  Partly written content is
never found under the file's name. -/
theorem safe_write_crash_partial (p : Path) (data : Bytes) (d d' : Disk)
    (hc : CrashStates d (safeWriteEffects p data) d') :
    d' p = d p ∨ d' p = some data ∨ (d' p = none ∧ d' (p ++ ".tmp") = some data) := by
  obtain ⟨n, rfl⟩ := hc
  have hne : p ≠ p ++ ".tmp" := by
    intro h
    have := congrArg String.length h
    rw [String.length_append] at this
    have h4 : ".tmp".length = 4 := by decide
    omega
  have hne' : p ++ ".tmp" ≠ p := fun h => hne h.symm
  have hcreate : Effect.apply d (.create (p ++ ".tmp")) (p ++ ".tmp") = some [] := by
    simp [Effect.apply, Disk.put]
  have hcreate' : Effect.apply d (.create (p ++ ".tmp")) p = d p := by
    simp [Effect.apply, Disk.put, hne]
  unfold safeWriteEffects
  cases n with
  | zero => left; rfl
  | succ n =>
    have he : (Effect.create (p ++ ".tmp") :: data.map (.appendByte (p ++ ".tmp")) ++
        [Effect.remove p, Effect.rename (p ++ ".tmp") p]).take (n + 1)
        = .create (p ++ ".tmp") :: ((data.take n).map (.appendByte (p ++ ".tmp")) ++
          [Effect.remove p, Effect.rename (p ++ ".tmp") p].take (n - data.length)) := by
      rw [List.cons_append, List.take_succ_cons, List.take_append, List.length_map, List.map_take]
    rw [he]
    show applyAll (Effect.apply d _) _ p = _ ∨ applyAll (Effect.apply d _) _ p = _ ∨
      (applyAll (Effect.apply d _) _ p = _ ∧ applyAll (Effect.apply d _) _ (p ++ ".tmp") = _)
    rw [applyAll_append]
    obtain ⟨i1, i2⟩ := applyAll_appendBytes (p ++ ".tmp") (data.take n) _ _ hcreate
    have i3 := i2 p hne
    rw [hcreate'] at i3
    generalize hD : applyAll (Effect.apply d (.create (p ++ ".tmp")))
      ((data.take n).map (.appendByte (p ++ ".tmp"))) = D at *
    rcases Nat.lt_or_ge data.length n with hlt | hge
    · rw [List.take_of_length_le (by omega)] at i1
      rcases Nat.eq_or_lt_of_le hlt with h1 | h1
      · rw [show n - data.length = 1 by omega]
        right; right
        refine ⟨?_, ?_⟩
        · simp [applyAll, Effect.apply, Disk.put]
        · simp [applyAll, Effect.apply, Disk.put, hne', i1]
      · rw [List.take_of_length_le (i := n - data.length) (by simp only [List.length_cons, List.length_nil]; omega)]
        right; left
        simp [applyAll, Effect.apply, Disk.put, hne, hne', i1]
    · rw [show n - data.length = 0 by omega]
      left
      exact i3

/-- **C25, negation for `SafeWriteToFile`.** The old file is removed before the new one takes its
place: a stop in between leaves no file under the name. -/
theorem safe_write_crash_violated :
    let d : Disk := fun p => if p = "f" then some [1] else none
    ∃ d', CrashStates d (safeWriteEffects "f" [2]) d' ∧ d' "f" = none ∧ d "f" = some [1] ∧
      applyAll d (safeWriteEffects "f" [2]) "f" = some [2] := by
  refine ⟨_, ⟨3, rfl⟩, ?_, ?_, ?_⟩ <;> decide +kernel

/-! ## The chain state as a whole -/

/-- The file an elementary write concerns (for a rename, the destination). -/
def Effect.file : Effect → Path
  | .truncate p _ => p
  | .appendByte p _ => p
  | .putByte p _ _ => p
  | .create p => p
  | .remove p => p
  | .rename _ t => t
  | .replace p _ => p

/-- An effect other than a rename changes only its own file. -/
theorem apply_other (d : Disk) (e : Effect) (q : Path) (h : q ≠ Effect.file e)
    (hr : ∀ s t, e ≠ .rename s t) : Effect.apply d e q = d q := by
  cases e <;> simp_all [Effect.apply, Disk.put, Effect.file]

theorem dataEffects_file {p : Path} {f : DFile} {e : Effect} (h : e ∈ dataEffects p f) :
    Effect.file e = p ∧ ∀ s t, e ≠ .rename s t := by
  unfold dataEffects flushEffects at h
  split at h
  · split at h
    · simp at h
    · split at h
      · simp at h
      · simp only [List.mem_cons, List.mem_map] at h
        rcases h with rfl | ⟨b, _, rfl⟩
        · exact ⟨rfl, by simp⟩
        · exact ⟨rfl, by simp⟩
  · simp at h

theorem bitmapEffects_file {p : Path} {f : BFile} {e : Effect} (h : e ∈ bitmapEffects p f) :
    Effect.file e = p ∧ ∀ s t, e ≠ .rename s t := by
  unfold bitmapEffects at h
  simp only [List.mem_map] at h
  obtain ⟨kv, _, rfl⟩ := h
  exact ⟨rfl, by simp⟩

theorem applyAll_other (q : Path) : ∀ (es : List Effect) (d : Disk),
    (∀ e ∈ es, Effect.file e ≠ q ∧ ∀ s t, e ≠ .rename s t) → applyAll d es q = d q := by
  intro es
  induction es with
  | nil => intro d _; rfl
  | cons e es ih =>
    intro d h
    show applyAll (Effect.apply d e) es q = _
    rw [ih _ (fun x hx => h x (by simp [hx]))]
    exact apply_other d e q (fun h' => (h e (by simp)).1 h'.symm) (h e (by simp)).2

/-- Files written after the database. -/
def laterFiles : List Path :=
  ["header_mmr.bin", "kernel/pmmr_hash.bin", "kernel/pmmr_data.bin", "output/pmmr_hash.bin",
    "output/pmmr_data.bin", "output/pmmr_leafset.bin", "rangeproof/pmmr_hash.bin",
    "rangeproof/pmmr_data.bin", "rangeproof/pmmr_leafset.bin"]

/-- The writes before the database's and after it. -/
theorem stateEffects_split (s : StateFiles) : ∃ a b, stateEffects s = a ++ .replace "db" s.database :: b ∧
    (∀ e ∈ a, (Effect.file e = "candidate.chain" ∨ Effect.file e = "confirmed.chain") ∧ ∀ x t, e ≠ .rename x t) ∧
    (∀ e ∈ b, Effect.file e ∈ laterFiles ∧ ∀ x t, e ≠ .rename x t) := by
  refine ⟨dataEffects "candidate.chain" s.candidate ++ dataEffects "confirmed.chain" s.confirmed,
    dataEffects "header_mmr.bin" s.headers ++
    (dataEffects "kernel/pmmr_hash.bin" s.kernelHashes ++ dataEffects "kernel/pmmr_data.bin" s.kernels) ++
    prunedEffects "output" s.outputs ++ prunedEffects "rangeproof" s.proofs, ?_, ?_, ?_⟩
  · simp [stateEffects]
  · intro e he
    rcases List.mem_append.mp he with he | he
    · exact ⟨Or.inl (dataEffects_file he).1, (dataEffects_file he).2⟩
    · exact ⟨Or.inr (dataEffects_file he).1, (dataEffects_file he).2⟩
  · intro e he
    simp only [prunedEffects, List.mem_append] at he
    have hd : ∀ p f, e ∈ dataEffects p f → p ∈ laterFiles → Effect.file e ∈ laterFiles ∧ ∀ x t, e ≠ .rename x t :=
      fun p f h hp => ⟨by rw [(dataEffects_file h).1]; exact hp, (dataEffects_file h).2⟩
    have hb : ∀ p f, e ∈ bitmapEffects p f → p ∈ laterFiles → Effect.file e ∈ laterFiles ∧ ∀ x t, e ≠ .rename x t :=
      fun p f h hp => ⟨by rw [(bitmapEffects_file h).1]; exact hp, (bitmapEffects_file h).2⟩
    rcases he with ((he | he | he) | (he | he) | he) | (he | he) | he
    · exact hd _ _ he (by decide)
    · exact hd _ _ he (by decide)
    · exact hd _ _ he (by decide)
    · exact hd _ _ he (by decide)
    · exact hd _ _ he (by decide)
    · exact hb _ _ he (by decide)
    · exact hd _ _ he (by decide)
    · exact hd _ _ he (by decide)
    · exact hb _ _ he (by decide)

/-- **C25, chain state.** Whatever the pending changes and wherever the commit of the chain state
stops: if the header or any of the kernel, output and range proof files has changed, the database
transaction is complete and both chain files are fully written.  So a stored header, kernel or output
never lacks its database entries.  Missing for the full claim: see `state_crash_violated`. -/
theorem state_crash_order_partial (s : StateFiles) (d d' : Disk) (hc : CrashStates d (stateEffects s) d')
    (q : Path) (hq : q ∈ laterFiles) (hch : d' q ≠ d q) :
    d' "db" = some s.database ∧
    d' "candidate.chain" = applyAll d (stateEffects s) "candidate.chain" ∧
    d' "confirmed.chain" = applyAll d (stateEffects s) "confirmed.chain" := by
  obtain ⟨n, rfl⟩ := hc
  obtain ⟨a, b, he, ha, hb⟩ := stateEffects_split s
  have hnl : ∀ r ∈ laterFiles, r ≠ "candidate.chain" ∧ r ≠ "confirmed.chain" ∧ r ≠ "db" := by decide
  rw [he] at hch ⊢
  rw [List.take_append] at hch ⊢
  have hn : a.length < n := by
    apply Nat.lt_of_not_le
    intro hle
    apply hch
    rw [show n - a.length = 0 by omega, List.take_zero, List.append_nil]
    apply applyAll_other
    intro e he
    have := ha e (List.mem_of_mem_take he)
    refine ⟨?_, this.2⟩
    have := hnl q hq
    rcases (ha e (List.mem_of_mem_take he)).1 with h | h <;> rw [h] <;> tauto
  obtain ⟨k, hk⟩ : ∃ k, n - a.length = k + 1 := ⟨n - a.length - 1, by omega⟩
  rw [hk, List.take_succ_cons, List.take_of_length_le (by omega), applyAll_append, applyAll_append]
  have hlater : ∀ r, r ∉ laterFiles → ∀ (D : Disk) (l : List Effect), (∀ e ∈ l, e ∈ b) →
      applyAll D l r = D r := by
    intro r hr D l hl
    apply applyAll_other
    intro e he
    refine ⟨fun h => hr ?_, (hb e (hl e he)).2⟩
    rw [← h]; exact (hb e (hl e he)).1
  have hsub : ∀ e ∈ b.take k, e ∈ b := fun e he => List.mem_of_mem_take he
  refine ⟨?_, ?_, ?_⟩
  · show applyAll (Effect.apply _ _) _ _ = _
    rw [hlater _ (by decide) _ _ hsub]
    simp [Effect.apply, Disk.put]
  · show applyAll (Effect.apply _ _) _ _ = applyAll (Effect.apply _ _) _ _
    rw [hlater _ (by decide) _ _ hsub, hlater _ (by decide) _ _ (fun _ h => h)]
  · show applyAll (Effect.apply _ _) _ _ = applyAll (Effect.apply _ _) _ _
    rw [hlater _ (by decide) _ _ hsub, hlater _ (by decide) _ _ (fun _ h => h)]

/-- A chain state with one new header: 32-byte records in the candidate chain and the header file. -/
def oneHeader : StateFiles where
  candidate := (DFile.load (List.replicate 32 0)).add (List.replicate 32 1)
  confirmed := DFile.load (List.replicate 32 0)
  database := [1]
  headers := (DFile.load (List.replicate 32 2)).add (List.replicate 32 3)
  kernelHashes := DFile.load []
  kernels := DFile.load []
  outputs := ⟨DFile.load [], DFile.load [], BFile.load []⟩
  proofs := ⟨DFile.load [], DFile.load [], BFile.load []⟩

/-- The disk before that header is committed. -/
def oneHeaderDisk : Disk := fun p =>
  if p = "candidate.chain" then some (List.replicate 32 0)
  else if p = "confirmed.chain" then some (List.replicate 32 0)
  else if p = "db" then some [0]
  else if p = "header_mmr.bin" then some (List.replicate 32 2)
  else some []

/-- **C25, negation for the chain state.** A stop after the chain files are written and before the
database commits leaves the candidate chain naming a block of which the database holds nothing: the
disk is neither as before (the chain file changed) nor as after (the database did not). -/
theorem state_crash_violated :
    ∃ d', CrashStates oneHeaderDisk (stateEffects oneHeader) d' ∧
      d' "candidate.chain" = some (List.replicate 32 0 ++ List.replicate 32 1) ∧
      d' "candidate.chain" ≠ oneHeaderDisk "candidate.chain" ∧
      d' "db" = some [0] ∧ applyAll oneHeaderDisk (stateEffects oneHeader) "db" = some [1] := by
  refine ⟨_, ⟨33, rfl⟩, ?_, ?_, ?_, ?_⟩ <;> decide +kernel

end Verif.Props
