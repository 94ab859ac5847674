import Verif.P2P.Archive

/-!
# C93, C94: chain snapshots on the wire and in use
-/
namespace Verif.Props

open Verif.Codec Verif.P2P

/-! ## C93: the transfer -/

private theorem toInt32_small {n : Nat} (h : n < 2 ^ 31) : toInt32 n = n := by
  unfold toInt32
  have e : n % 2 ^ 32 = n := Nat.mod_eq_of_lt (by omega)
  rw [e, if_pos h]

private theorem bytesToRead_small {z r : Nat} (h : z - r < 2 ^ 31) :
    bytesToRead z r = (min (z - r) 131072 : Nat) := by
  unfold bytesToRead
  rw [toInt32_small h]
  show min ((z - r : Nat) : Int) ((131072 : Nat) : Int) = _
  omega

private theorem bytesToRead_bounds {z r : Nat} (h : 0 ≤ bytesToRead z r) :
    (bytesToRead z r).toNat ≤ (z - r) ∧ (2 ^ 31 ≤ z - r → 2 ^ 31 ≤ z - r - (bytesToRead z r).toNat) := by
  unfold bytesToRead toInt32 at *
  split at h <;> rename_i hm
  · rw [if_pos hm]
    have h1 := Nat.mod_le (z - r) (2 ^ 32)
    have h2 := Nat.div_add_mod (z - r) (2 ^ 32)
    omega
  · exfalso
    have := Nat.mod_lt (z - r) (show 0 < 2 ^ 32 by omega)
    omega

private theorem recv_sound (z fuel : Nat) : ∀ (r : Nat) (input file : Bytes) (f rest : Bytes), r ≤ z →
    recvLoop z fuel r input file = .complete f rest →
    ∃ mid, f = file ++ mid ∧ input = mid ++ rest ∧ mid.length = z - r ∧ z - r < 2 ^ 31 := by
  induction fuel with
  | zero => intro r input file f rest hr h; simp [recvLoop] at h
  | succ fuel ih =>
    intro r input file f rest hr h
    unfold recvLoop at h
    by_cases h1 : r < z
    · rw [if_pos h1] at h
      by_cases h2 : bytesToRead z r < 0
      · rw [if_pos h2] at h; cases h
      · rw [if_neg h2] at h
        simp only at h
        have hb := bytesToRead_bounds (z := z) (r := r) (by omega)
        generalize (bytesToRead z r).toNat = n at *
        by_cases h3 : input.length < n
        · rw [if_pos h3] at h; cases h
        · rw [if_neg h3] at h
          obtain ⟨mid, a, b, c, d⟩ := ih _ _ _ _ _ (by omega) h
          refine ⟨input.take n ++ mid, by rw [a, List.append_assoc], ?_, ?_, ?_⟩
          · rw [List.append_assoc, ← b, List.take_append_drop]
          · rw [List.length_append, List.length_take, c]; omega
          · omega
    · rw [if_neg h1] at h
      cases h
      exact ⟨[], by simp, rfl, by simp; omega, by omega⟩

/-- **C93.** A download that completes has written exactly the announced number of bytes, those the peer sent first, in order,
and left what follows to the messages after it. -/
theorem archive_received_exact (size fuel : Nat) (input file rest : Bytes)
    (h : recvLoop size fuel 0 input [] = .complete file rest) :
    input = file ++ rest ∧ file.length = size := by
  obtain ⟨mid, a, b, c, _⟩ := recv_sound size fuel 0 input [] file rest (Nat.zero_le _) h
  simp at a c
  exact ⟨by rw [a]; exact b, by rw [a]; exact c⟩

private theorem recv_progress (z : Nat) (hz : z < 2 ^ 31) (fuel : Nat) : ∀ (r : Nat) (input file : Bytes), r ≤ z →
    z - r < fuel →
    (z - r ≤ input.length → recvLoop z fuel r input file = .complete (file ++ input.take (z - r)) (input.drop (z - r))) ∧
    (input.length < z - r → recvLoop z fuel r input file = .failed) := by
  induction fuel with
  | zero => intro r input file _ h; omega
  | succ fuel ih =>
    intro r input file hr hf
    unfold recvLoop
    by_cases h1 : r < z
    · rw [if_pos h1]
      have e := bytesToRead_small (z := z) (r := r) (by omega)
      rw [if_neg (by rw [e]; omega)]
      simp only [e, Int.toNat_natCast]
      obtain ⟨n, hn⟩ : ∃ n, n = min (z - r) 131072 := ⟨_, rfl⟩
      rw [← hn]
      by_cases h3 : input.length < n
      · rw [if_pos h3]
        exact ⟨fun h => by omega, fun _ => rfl⟩
      · rw [if_neg h3]
        have := ih (r + n) (input.drop n) (file ++ input.take n) (by omega) (by omega)
        have hs : z - (r + n) = z - r - n := by omega
        rw [hs, List.length_drop] at this
        refine ⟨fun h => ?_, fun h => this.2 (by omega)⟩
        rw [this.1 (by omega), List.drop_drop, List.append_assoc]
        have hnr : n + (z - r - n) = z - r := by omega
        have : input.take (z - r) = input.take n ++ (input.drop n).take (z - r - n) := by
          rw [← List.take_add, hnr]
        rw [this, hnr]
    · rw [if_neg h1]
      have : z - r = 0 := by omega
      rw [this]
      exact ⟨fun _ => by simp, fun h => by omega⟩

/-- **C93.** A snapshot of less than 2^31 bytes is downloaded whenever the peer sends that many bytes; if the peer falls silent
before, the download fails.  Missing: larger snapshots, see `archive_large_violated`. -/
theorem archive_received_partial (size : Nat) (hz : size < 2 ^ 31) (input : Bytes) :
    (size ≤ input.length → recvLoop size (size + 1) 0 input [] = .complete (input.take size) (input.drop size)) ∧
    (input.length < size → recvLoop size (size + 1) 0 input [] = .failed) := by
  have := recv_progress size hz (size + 1) 0 input [] (Nat.zero_le _) (by omega)
  simpa using this

example : recvLoop 3 4 0 [1, 2, 3, 4] [] = .complete [1, 2, 3] [4] ∧ recvLoop 3 4 0 [1, 2] [] = .failed := by decide

/-- **C93, violated.** No snapshot of 2^31 bytes or more can be downloaded, whatever the peer sends and however long it takes. -/
theorem archive_large_violated (size : Nat) (hz : 2 ^ 31 ≤ size) (fuel : Nat) (input file rest : Bytes) :
    recvLoop size fuel 0 input [] ≠ .complete file rest := by
  intro h
  obtain ⟨_, _, _, _, d⟩ := recv_sound size fuel 0 input [] file rest (Nat.zero_le _) h
  omega

/-- **C93, violated.** An announced size that is a multiple of 2^32 keeps the download running for ever, even from a peer that
sends nothing: no other snapshot is accepted again. -/
theorem archive_never_ends_violated (size : Nat) (h0 : 0 < size) (hz : size % 2 ^ 32 = 0) (fuel : Nat) (input file : Bytes) :
    recvLoop size fuel 0 input file = .running := by
  induction fuel with
  | zero => rfl
  | succ fuel ih =>
    have e : bytesToRead size 0 = 0 := by
      unfold bytesToRead toInt32
      rw [Nat.sub_zero, hz]
      decide
    unfold recvLoop
    rw [if_pos h0, e]
    simpa using ih

example : 0 < 2 ^ 32 ∧ 2 ^ 32 % 2 ^ 32 = 0 := by decide

private theorem sendLoop_eq (fuel : Nat) : ∀ file : Bytes, file.length < fuel →
    archiveSend fuel file = file.take (file.length / 131072 * 131072) := by
  induction fuel with
  | zero => intro file h; omega
  | succ fuel ih =>
    intro file h
    unfold archiveSend
    have hb : archiveBuffer = 131072 := rfl
    rw [hb]
    by_cases h1 : file.length < 131072
    · rw [if_pos h1, Nat.div_eq_of_lt h1]; simp
    · rw [if_neg h1, ih _ (by rw [List.length_drop]; omega), List.length_drop]
      have e : file.length / 131072 * 131072 = 131072 + (file.length - 131072) / 131072 * 131072 := by omega
      rw [e, List.take_add]

/-- **C93.** A node that serves a snapshot sends the whole blocks of 131072 bytes of the file and nothing of what remains. -/
theorem snapshot_sent (file : Bytes) : sentBytes file = file.take (file.length / 131072 * 131072) :=
  sendLoop_eq _ file (Nat.lt_succ_self _)

/-- **C93.** A snapshot whose size is a multiple of 131072 and below 2^31 arrives complete.  Missing: every other size, see
`snapshot_transfer_violated`. -/
theorem snapshot_transfer_partial (file : Bytes) (hl : file.length < 2 ^ 31) (hd : 131072 ∣ file.length) :
    recvLoop file.length (file.length + 1) 0 (sentBytes file) [] = .complete file [] := by
  have e : sentBytes file = file := by
    rw [snapshot_sent, Nat.div_mul_cancel hd, List.take_length]
  rw [e, (archive_received_partial _ hl file).1 (Nat.le_refl _)]
  simp

example : 131072 ∣ (List.replicate 262144 (0 : UInt8)).length := by rw [List.length_replicate]; decide

/-- **C93, violated.** A snapshot of any other size is not received: the download fails and the peer that served it
is banned. -/
theorem snapshot_transfer_violated (file : Bytes) (hl : file.length < 2 ^ 31) (hd : ¬ 131072 ∣ file.length)
    (short : Bytes → Bytes) (valid : Bytes → Files → Bool) (unzip : Bytes → Option Zip) (s : NodeState) (hash : Bytes) :
    recvLoop file.length (file.length + 1) 0 (sentBytes file) [] = .failed ∧
    receiveArchive short valid unzip (file.length + 1) true false s hash file.length (sentBytes file) =
      .ok (some (.banned, s)) := by
  have h : recvLoop file.length (file.length + 1) 0 (sentBytes file) [] = .failed := by
    apply (archive_received_partial _ hl _).2
    rw [snapshot_sent, List.length_take]
    have : file.length % 131072 ≠ 0 := fun h => hd (Nat.dvd_of_mod_eq_zero h)
    omega
  refine ⟨h, ?_⟩
  unfold receiveArchive
  rw [h]
  rfl

example : ¬ 131072 ∣ (List.replicate 5 (0 : UInt8)).length := by decide

/-- **C93.** While one snapshot is handled, a peer that announces another is banned and nothing else changes. -/
theorem archive_one_at_a_time (short : Bytes → Bytes) (valid : Bytes → Files → Bool) (unzip : Bytes → Option Zip) (fuel : Nat)
    (syncing : Bool) (s : NodeState) (hash : Bytes) (size : Nat) (input : Bytes) :
    receiveArchive short valid unzip fuel syncing true s hash size input = .ok (some (.banned, s)) := rfl

/-! ## C94: unpacking -/

/-- The folders of the chain state. -/
def stateFolders : List Bytes := [str "kernel", str "output", str "rangeproof"]

/-- What an archive means: the content of each file of the three folders. -/
def unpacked (zip : Zip) (short : Bytes) (p : Path) : Option Bytes :=
  if p.1 = str "kernel" then
    if p.2 ∈ [str "pmmr_data.bin", str "pmmr_hash.bin"] then zip (str "kernel/" ++ p.2) else none
  else if p.2 ∈ [str "pmmr_data.bin", str "pmmr_hash.bin", str "pmmr_prun.bin"] then zip (p.1 ++ str "/" ++ p.2)
  else if p.2 = str "pmmr_leaf.bin" then zip (p.1 ++ str "/" ++ (str "pmmr_leaf.bin." ++ short))
  else none

/-- The names an archive must hold. -/
def archiveNames (short : Bytes) : List Bytes :=
  [str "kernel/pmmr_data.bin", str "kernel/pmmr_hash.bin",
   str "output/pmmr_data.bin", str "output/pmmr_hash.bin", str "output/pmmr_prun.bin", str "output/pmmr_leaf.bin." ++ short,
   str "rangeproof/pmmr_data.bin", str "rangeproof/pmmr_hash.bin", str "rangeproof/pmmr_prun.bin",
   str "rangeproof/pmmr_leaf.bin." ++ short]

private theorem extractFiles_other (zip : Zip) (folder : Bytes) (names : List Bytes) : ∀ (fs : Files) (p : Path),
    p.1 ≠ folder → (extractFiles zip folder names fs).2 p = fs p := by
  induction names with
  | nil => intro fs p _; rfl
  | cons f names ih =>
    intro fs p hp
    unfold extractFiles
    split
    · rfl
    · rw [ih _ _ hp]
      unfold writeFile
      rw [if_neg (by rintro rfl; exact hp rfl)]

private theorem extractFiles_ok (zip : Zip) (folder : Bytes) (names : List Bytes) : ∀ fs : Files,
    (extractFiles zip folder names fs).1 = true ↔ ∀ f ∈ names, (zip (folder ++ str "/" ++ f)).isSome := by
  induction names with
  | nil => intro fs; simp [extractFiles]
  | cons f names ih =>
    intro fs
    unfold extractFiles
    split
    · rename_i h; simp [h, -List.append_assoc]
    · rename_i bs h
      rw [ih]
      simp only [List.mem_cons, forall_eq_or_imp, h, Option.isSome_some, true_and]

private theorem extractFiles_content (zip : Zip) (folder : Bytes) (names : List Bytes) : ∀ (fs : Files) (name : Bytes),
    (extractFiles zip folder names fs).1 = true →
    (extractFiles zip folder names fs).2 (folder, name) =
      if name ∈ names then zip (folder ++ str "/" ++ name) else fs (folder, name) := by
  induction names with
  | nil => intro fs name _; simp [extractFiles]
  | cons f names ih =>
    intro fs name h
    unfold extractFiles at h ⊢
    split at h
    · cases h
    · rename_i bs hz
      rw [ih _ _ h]
      by_cases h1 : name ∈ names
      · rw [if_pos h1, if_pos (List.mem_cons_of_mem _ h1)]
      · rw [if_neg h1]
        unfold writeFile
        by_cases h2 : name = f
        · subst h2; simp [hz, -List.append_assoc]
        · rw [if_neg (by intro e; cases e; exact h2 rfl), if_neg (by simp [h1, h2])]

private theorem extractFolder_other (zip : Zip) (folder short : Bytes) (fs : Files) (p : Path) (hp : p.1 ≠ folder) :
    (extractFolder zip folder short fs).2 p = fs p := by
  unfold extractFolder
  have := extractFiles_other zip folder
    [str "pmmr_data.bin", str "pmmr_hash.bin", str "pmmr_prun.bin", str "pmmr_leaf.bin." ++ short] (emptyFolder fs folder) p hp
  simp only
  split
  · rename_i fs' e
    rw [e] at this
    simp only [renameFile]
    rw [if_neg (by rintro rfl; exact hp rfl), if_neg (by rintro rfl; exact hp rfl)]
    simpa [emptyFolder, hp] using this
  · rename_i fs' e
    rw [e] at this
    simpa [emptyFolder, hp] using this

private theorem extractFolder_ok (zip : Zip) (folder short : Bytes) (fs : Files) :
    (extractFolder zip folder short fs).1 = true ↔
      ∀ f ∈ [str "pmmr_data.bin", str "pmmr_hash.bin", str "pmmr_prun.bin", str "pmmr_leaf.bin." ++ short],
        (zip (folder ++ str "/" ++ f)).isSome := by
  rw [← extractFiles_ok zip folder _ (emptyFolder fs folder)]
  unfold extractFolder
  simp only
  split <;> rename_i e <;> rw [e]

private theorem leaf_ne (short f : Bytes) (h : f.take 8 ≠ str "pmmr_lea") : str "pmmr_leaf.bin." ++ short ≠ f := by
  rintro rfl
  apply h
  rw [List.take_append_of_le_length (by decide)]
  decide

private theorem rename_content {zip : Zip} {folder name a b c leaf target : Bytes} {old : Option Bytes}
    (hleaf : target ≠ leaf) (h1 : target ∉ [a, b, c]) (h2 : leaf ∉ [a, b, c]) (he : old = none) :
    (if name = target then
        if leaf ∈ [a, b, c, leaf] then zip (folder ++ str "/" ++ leaf) else old
      else if name = leaf then none
      else if name ∈ [a, b, c, leaf] then zip (folder ++ str "/" ++ name) else old) =
    if name ∈ [a, b, c] then zip (folder ++ str "/" ++ name)
    else if name = target then zip (folder ++ str "/" ++ leaf) else none := by
  subst he
  by_cases n1 : name = target
  · subst n1
    rw [if_pos rfl, if_pos (by simp), if_neg h1, if_pos rfl]
  · rw [if_neg n1]
    by_cases n2 : name = leaf
    · subst n2
      rw [if_pos rfl, if_neg h2, if_neg n1]
    · rw [if_neg n2]
      by_cases n3 : name ∈ [a, b, c]
      · rw [if_pos n3, if_pos]
        simp only [List.mem_cons, List.not_mem_nil, or_false] at n3 ⊢
        rcases n3 with h | h | h <;> simp [h]
      · rw [if_neg n3, if_neg, if_neg n1]
        simp only [List.mem_cons, List.not_mem_nil, or_false, not_or] at n3 ⊢
        exact ⟨n3.1, n3.2.1, n3.2.2, n2⟩

private theorem extractFolder_content (zip : Zip) (folder short : Bytes) (fs : Files) (name : Bytes)
    (hk : folder ≠ str "kernel")
    (h : (extractFolder zip folder short fs).1 = true) :
    (extractFolder zip folder short fs).2 (folder, name) = unpacked zip short (folder, name) := by
  unfold extractFolder at h ⊢
  simp only at h ⊢
  split at h
  · rename_i fs' e
    have hc := extractFiles_content zip folder
      [str "pmmr_data.bin", str "pmmr_hash.bin", str "pmmr_prun.bin", str "pmmr_leaf.bin." ++ short] (emptyFolder fs folder)
    rw [e] at hc
    simp only [forall_const] at hc
    have hl : str "pmmr_leaf.bin" ≠ str "pmmr_leaf.bin." ++ short := by
      intro e
      have := congrArg List.length e
      rw [List.length_append] at this
      have h1 : (str "pmmr_leaf.bin").length = 13 := by decide
      have h2 : (str "pmmr_leaf.bin.").length = 14 := by decide
      omega
    have m1 : str "pmmr_leaf.bin" ∉ [str "pmmr_data.bin", str "pmmr_hash.bin", str "pmmr_prun.bin"] := by decide
    have m2 : str "pmmr_leaf.bin." ++ short ∉ [str "pmmr_data.bin", str "pmmr_hash.bin", str "pmmr_prun.bin"] := by
      simp only [List.mem_cons, List.not_mem_nil, or_false, not_or]
      exact ⟨leaf_ne _ _ (by decide), leaf_ne _ _ (by decide), leaf_ne _ _ (by decide)⟩
    simp only [renameFile, unpacked, Prod.mk.injEq, true_and, hc, emptyFolder, if_true]
    rw [if_neg hk]
    exact rename_content (hleaf := hl) (h1 := m1) (h2 := m2) (he := rfl)
  · cases h

private theorem extractKernel_content (zip : Zip) (fs : Files) (name short : Bytes) (h : (extractKernel zip fs).1 = true) :
    (extractKernel zip fs).2 (str "kernel", name) = unpacked zip short (str "kernel", name) := by
  unfold extractKernel at h ⊢
  rw [extractFiles_content _ _ _ _ _ h]
  unfold unpacked
  rw [if_pos rfl]
  have e : str "kernel" ++ str "/" = str "kernel/" := by decide
  rw [e]
  simp [emptyFolder]

private theorem extractKernel_other (zip : Zip) (fs : Files) (p : Path) (hp : p.1 ≠ str "kernel") :
    (extractKernel zip fs).2 p = fs p := by
  unfold extractKernel
  rw [extractFiles_other _ _ _ _ _ hp]
  simp [emptyFolder, hp]

/-- **C94.** Whatever an archive holds and however far its extraction gets, no file outside the three folders changes. -/
theorem archive_confined (zip : Option Zip) (short : Bytes) (fs : Files) (p : Path) (hp : p.1 ∉ stateFolders) :
    (extractArchive zip short fs).2 p = fs p := by
  simp only [stateFolders, List.mem_cons, List.not_mem_nil, or_false, not_or] at hp
  obtain ⟨h1, h2, h3⟩ := hp
  unfold extractArchive
  split
  · rfl
  · rename_i z
    have a := extractKernel_other z fs p h1
    split
    · rename_i fs1 e; rw [e] at a; exact a
    · rename_i fs1 e
      rw [e] at a
      have b := extractFolder_other z (str "output") short fs1 p h2
      split
      · rename_i fs2 e2; rw [e2] at b; exact b.trans a
      · rename_i fs2 e2
        rw [e2] at b
        rw [extractFolder_other _ _ _ _ _ h3]
        exact b.trans a

/-- **C94.** An archive is extracted if and only if it opens and holds the ten expected names. -/
theorem archive_extracted (zip : Option Zip) (short : Bytes) (fs : Files) :
    (extractArchive zip short fs).1 = true ↔ ∃ z, zip = some z ∧ ∀ n ∈ archiveNames short, (z n).isSome := by
  cases zip with
  | none => simp [extractArchive]
  | some z =>
    have hk : (extractKernel z fs).1 = true ↔ _ := extractFiles_ok z (str "kernel") [str "pmmr_data.bin", str "pmmr_hash.bin"] _
    have ho := extractFolder_ok z (str "output") short
    have hr := extractFolder_ok z (str "rangeproof") short
    have e1 : str "kernel" ++ str "/" ++ str "pmmr_data.bin" = str "kernel/pmmr_data.bin" := by decide
    have e2 : str "kernel" ++ str "/" ++ str "pmmr_hash.bin" = str "kernel/pmmr_hash.bin" := by decide
    have o1 : str "output" ++ str "/" ++ str "pmmr_data.bin" = str "output/pmmr_data.bin" := by decide
    have o2 : str "output" ++ str "/" ++ str "pmmr_hash.bin" = str "output/pmmr_hash.bin" := by decide
    have o3 : str "output" ++ str "/" ++ str "pmmr_prun.bin" = str "output/pmmr_prun.bin" := by decide
    have o4 : str "output" ++ str "/" ++ (str "pmmr_leaf.bin." ++ short) = str "output/pmmr_leaf.bin." ++ short := by
      rw [← List.append_assoc]; congr 1
    have r1 : str "rangeproof" ++ str "/" ++ str "pmmr_data.bin" = str "rangeproof/pmmr_data.bin" := by decide
    have r2 : str "rangeproof" ++ str "/" ++ str "pmmr_hash.bin" = str "rangeproof/pmmr_hash.bin" := by decide
    have r3 : str "rangeproof" ++ str "/" ++ str "pmmr_prun.bin" = str "rangeproof/pmmr_prun.bin" := by decide
    have r4 : str "rangeproof" ++ str "/" ++ (str "pmmr_leaf.bin." ++ short) = str "rangeproof/pmmr_leaf.bin." ++ short := by
      rw [← List.append_assoc]; congr 1
    simp only [List.mem_cons, List.not_mem_nil, or_false, forall_eq_or_imp, forall_eq, e1, e2, o1, o2, o3, o4, r1, r2, r3, r4]
      at hk ho hr
    unfold extractArchive archiveNames
    simp only [Option.some.injEq, exists_eq_left', List.mem_cons, List.not_mem_nil, or_false, forall_eq_or_imp, forall_eq]
    split
    · rename_i fs1 e
      rw [e] at hk
      simp only [Bool.false_eq_true, false_iff] at hk ⊢
      exact fun h => hk ⟨h.1, h.2.1⟩
    · rename_i fs1 e
      rw [e] at hk
      simp only [true_iff] at hk
      split
      · rename_i fs2 e2
        have := ho fs1
        rw [e2] at this
        simp only [Bool.false_eq_true, false_iff] at this ⊢
        exact fun h => this ⟨h.2.2.1, h.2.2.2.1, h.2.2.2.2.1, h.2.2.2.2.2.1⟩
      · rename_i fs2 e2
        have := ho fs1
        rw [e2] at this
        simp only [true_iff] at this
        rw [hr fs2]
        exact ⟨fun h => ⟨hk.1, hk.2, this.1, this.2.1, this.2.2.1, this.2.2.2, h⟩, fun h => h.2.2.2.2.2.2⟩

/-- **C94.** After an extraction the three folders hold exactly what the archive says, and nothing of what they
held before. -/
theorem archive_content (z : Zip) (short : Bytes) (fs : Files) (h : (extractArchive (some z) short fs).1 = true)
    (p : Path) (hp : p.1 ∈ stateFolders) : (extractArchive (some z) short fs).2 p = unpacked z short p := by
  obtain ⟨folder, name⟩ := p
  unfold extractArchive at h ⊢
  simp only at h ⊢
  split at h
  · cases h
  · rename_i fs1 e1
    split at h
    · cases h
    · rename_i fs2 e2
      have hk := extractKernel_content z fs name short
      rw [e1] at hk
      have ho := extractFolder_content z (str "output") short fs1 name (by decide)
      rw [e2] at ho
      have ho' := extractFolder_other z (str "output") short fs1 (folder, name)
      rw [e2] at ho'
      have hr := extractFolder_content z (str "rangeproof") short fs2 name (by decide) h
      have hr' := extractFolder_other z (str "rangeproof") short fs2 (folder, name)
      simp only [stateFolders, List.mem_cons, List.not_mem_nil, or_false] at hp
      rcases hp with rfl | rfl | rfl
      · have n1 : str "kernel" ≠ str "rangeproof" := by decide
        have n2 : str "kernel" ≠ str "output" := by decide
        exact (hr' n1).trans ((ho' n2).trans (hk rfl))
      · have n1 : str "output" ≠ str "rangeproof" := by decide
        exact (hr' n1).trans (ho rfl)
      · exact hr

/-- An archive with one byte under every name. -/
private def toyZip : Zip := fun _ => some [7]

example : (extractArchive (some toyZip) (str "abc") (fun _ => some [1])).1 = true ∧
    (extractArchive (some toyZip) (str "abc") (fun _ => some [1])).2 (str "output", str "pmmr_leaf.bin") = some [7] ∧
    (extractArchive (some toyZip) (str "abc") (fun _ => some [1])).2 (str "output", str "junk") = none ∧
    (extractArchive (some toyZip) (str "abc") (fun _ => some [1])).2 (str "wallet", str "seed") = some [1] := by
  decide +kernel

/-! ## C94: use -/

/-- Equal hashes have equal ancestors. -/
def SameAncestors (a b : List Bytes) : Prop :=
  ∀ i, i < a.length → i < b.length → a[i]? = b[i]? → ∀ j, j ≤ i → a[j]? = b[j]?

private theorem common_spec (a b : List Bytes) : ∀ h c, h < a.length → h < b.length → commonHeight a b h = .ok c →
    c ≤ h ∧ a[c]? = b[c]? ∧ ∀ i, c < i → i ≤ h → a[i]? ≠ b[i]? := by
  intro h
  induction h with
  | zero =>
    intro c ha hb e
    unfold commonHeight at e
    split at e
    · rename_i hh; cases e; exact ⟨Nat.le_refl _, hh.1, fun i _ _ => by omega⟩
    · cases e
  | succ h ih =>
    intro c ha hb e
    unfold commonHeight at e
    split at e
    · rename_i hh; cases e; exact ⟨Nat.le_refl _, hh, fun i _ _ => by omega⟩
    · rename_i hh
      obtain ⟨x, y, z⟩ := ih c (by omega) (by omega) e
      refine ⟨by omega, y, fun i h1 h2 => ?_⟩
      by_cases h3 : i = h + 1
      · subst h3; exact hh
      · exact z i h1 (by omega)

private theorem common_defined (a b : List Bytes) (g : Bytes) (ga : a[0]? = some g) (gb : b[0]? = some g) : ∀ h,
    ∃ c, commonHeight a b h = .ok c := by
  intro h
  induction h with
  | zero => exact ⟨0, by unfold commonHeight; rw [if_pos ⟨by rw [ga, gb], by rw [ga]; simp⟩]⟩
  | succ h ih =>
    unfold commonHeight
    split
    · exact ⟨_, rfl⟩
    · exact ih

private theorem process_ok {short : Bytes → Bytes} {valid : Bytes → Files → Bool} {s s' : NodeState} {hash : Bytes}
    {zip : Option Zip} {b : Bool} (h : processSnapshot short valid s hash zip = .ok (b, s')) :
    (s.headers hash = none ∧ b = false ∧ s' = s) ∨
    ∃ height, s.headers hash = some height ∧
      s'.files = (extractArchive zip (short hash) s.files).2 ∧ s'.headers = s.headers ∧ s'.candidate = s.candidate ∧
      ((b = false ∧ s' = { s with txHashSet := none, files := (extractArchive zip (short hash) s.files).2 }) ∨
       (b = true ∧ (extractArchive zip (short hash) s.files).1 = true ∧ valid hash s'.files = true ∧
        s'.txHashSet = some hash ∧ s'.sums = hash :: s.sums ∧ s'.positions = some hash ∧ s.candidate[height]? = some hash ∧
        ∃ c, commonHeight s.candidate s.confirmed (min s.candidate.length s.confirmed.length - 1) = .ok c ∧
          s'.confirmed = s.confirmed.take (c + 1) ++ (s.candidate.take (height + 1)).drop (c + 1))) := by
  unfold processSnapshot at h
  split at h
  · rename_i hn
    have := Res.ok.inj h
    cases this
    exact .inl ⟨hn, rfl, rfl⟩
  · rename_i height hh
    refine .inr ⟨height, hh, ?_⟩
    simp only at h
    split at h
    · rename_i fs e
      cases Res.ok.inj h
      rw [e]
      exact ⟨rfl, rfl, rfl, .inl ⟨rfl, rfl⟩⟩
    · rename_i fs e
      rw [e]
      by_cases hv : valid hash fs = false
      · rw [if_pos hv] at h
        cases Res.ok.inj h
        exact ⟨rfl, rfl, rfl, .inl ⟨rfl, rfl⟩⟩
      · rw [if_neg hv] at h
        obtain ⟨c, hc, h⟩ := Res.bind_eq_ok.mp h
        unfold updateConfirmed at hc
        simp only at hc
        split at hc
        · cases hc
        · rename_i x hx
          by_cases hne : x ≠ hash
          · rw [if_pos hne] at hc
            cases Res.ok.inj hc
            cases Res.ok.inj h
            exact ⟨rfl, rfl, rfl, .inl ⟨rfl, rfl⟩⟩
          · rw [if_neg hne] at hc
            obtain ⟨k, hk, hc⟩ := Res.bind_eq_ok.mp hc
            cases Res.ok.inj hc
            cases Res.ok.inj h
            have : x = hash := Classical.not_not.mp hne
            subst this
            exact ⟨rfl, rfl, rfl, .inr ⟨rfl, rfl, by simpa using hv, rfl, rfl, rfl, hx, k, hk, rfl⟩⟩

/-- **C94.** An accepted snapshot belongs to a known header of the candidate chain, holds the expected files and validates;
the node then stands at that header, its sums and output positions are stored, and — provided the two chains do not agree
above the header — the confirmed chain is the candidate chain up to the header.  Missing: a header below the confirmed
blocks, see `snapshot_below_violated`. -/
theorem snapshot_accepted_partial (short : Bytes → Bytes) (valid : Bytes → Files → Bool) (s s' : NodeState) (hash : Bytes)
    (zip : Option Zip) (h : processSnapshot short valid s hash zip = .ok (true, s')) :
    ∃ height z, s.headers hash = some height ∧ s.candidate[height]? = some hash ∧ zip = some z ∧
      (∀ p, p.1 ∈ stateFolders → s'.files p = unpacked z (short hash) p) ∧ valid hash s'.files = true ∧
      s'.txHashSet = some hash ∧ s'.sums = hash :: s.sums ∧ s'.positions = some hash ∧ s'.candidate = s.candidate ∧
      (SameAncestors s.candidate s.confirmed → s.confirmed ≠ [] →
        (∀ i, height < i → i < s.candidate.length → i < s.confirmed.length → s.candidate[i]? ≠ s.confirmed[i]?) →
        s'.confirmed = s.candidate.take (height + 1)) := by
  rcases process_ok h with ⟨_, hb, _⟩ | ⟨height, hh, hf, _, hcand, ⟨hb, _⟩ | ⟨_, he, hv, ht, hs, hp, hx, c, hc, hconf⟩⟩
  · cases hb
  · cases hb
  · obtain ⟨z, rfl, hn⟩ := (archive_extracted zip (short hash) s.files).mp he
    refine ⟨height, z, hh, hx, rfl, fun p hp => ?_, hv, ht, hs, hp, hcand, fun hanc hne hdis => ?_⟩
    · rw [hf]; exact archive_content z (short hash) s.files he p hp
    · have hlt : height < s.candidate.length := (List.getElem?_eq_some_iff.mp hx).1
      have hl : 0 < s.confirmed.length := List.length_pos_iff.mpr hne
      obtain ⟨c1, c2, c3⟩ := common_spec _ _ _ c (by omega) (by omega) hc
      have hch : c ≤ height := by
        by_cases hch : c ≤ height
        · exact hch
        · exact absurd c2 (hdis c (by omega) (by omega) (by omega))
      have hpre : s.confirmed.take (c + 1) = s.candidate.take (c + 1) := by
        apply List.ext_getElem?
        intro j
        by_cases hj : j < c + 1
        · rw [List.getElem?_take_of_lt hj, List.getElem?_take_of_lt hj]
          exact (hanc c (by omega) (by omega) c2 j (by omega)).symm
        · rw [List.getElem?_eq_none (by rw [List.length_take]; omega), List.getElem?_eq_none (by rw [List.length_take]; omega)]
      rw [hconf, hpre]
      have : s.candidate.take (c + 1) = (s.candidate.take (height + 1)).take (c + 1) := by
        rw [List.take_take]; congr 1; omega
      rw [this, List.take_append_drop]

/-- **C94.** A refused snapshot leaves the header and block records and both chains as they were, and every file outside the
three folders.  Missing: the open chain state and the three folders, see `snapshot_refused_violated` and
`snapshot_wipes_violated`. -/
theorem snapshot_refused_partial (short : Bytes → Bytes) (valid : Bytes → Files → Bool) (s s' : NodeState) (hash : Bytes)
    (zip : Option Zip) (h : processSnapshot short valid s hash zip = .ok (false, s')) :
    s'.headers = s.headers ∧ s'.candidate = s.candidate ∧ s'.confirmed = s.confirmed ∧ s'.sums = s.sums ∧
    s'.positions = s.positions ∧ (∀ p, p.1 ∉ stateFolders → s'.files p = s.files p) ∧
    (s.headers hash = none → s' = s) := by
  rcases process_ok h with ⟨_, _, rfl⟩ | ⟨height, hh, hf, _, _, ⟨_, rfl⟩ | ⟨hb, _⟩⟩
  · exact ⟨rfl, rfl, rfl, rfl, rfl, fun _ _ => rfl, fun _ => rfl⟩
  · exact ⟨rfl, rfl, rfl, rfl, rfl, fun p hp => archive_confined _ _ _ p hp, fun hn => by rw [hh] at hn; cases hn⟩
  · cases hb

/-- **C94, violated.** Any file that is not even an archive, sent under the hash of any known header, closes the chain state of
the node, which stays closed. -/
theorem snapshot_refused_violated (short : Bytes → Bytes) (valid : Bytes → Files → Bool) (s : NodeState) (hash : Bytes)
    (height : Nat) (hh : s.headers hash = some height) :
    processSnapshot short valid s hash none = .ok (false, { s with txHashSet := none }) := by
  unfold processSnapshot
  rw [hh]
  rfl

/-- **C94, violated.** An archive without entries removes the files of the kernels from the disk. -/
theorem snapshot_wipes_violated (short : Bytes → Bytes) (valid : Bytes → Files → Bool) (s : NodeState) (hash : Bytes)
    (height : Nat) (hh : s.headers hash = some height) :
    ∃ s', processSnapshot short valid s hash (some fun _ => none) = .ok (false, s') ∧
      ∀ name, s'.files (str "kernel", name) = none := by
  unfold processSnapshot
  rw [hh]
  refine ⟨_, rfl, fun name => ?_⟩
  show emptyFolder s.files (str "kernel") (str "kernel", name) = none
  simp [emptyFolder]

/-- **C94, violated.** Nobody has to have asked for the snapshot: a node in any state of synchronization is brought to close its chain
state by one byte from any peer. -/
theorem snapshot_unsolicited_violated (short : Bytes → Bytes) (valid : Bytes → Files → Bool) (unzip : Bytes → Option Zip)
    (x : UInt8) (hx : unzip [x] = none) (syncing : Bool) (s : NodeState) (hash : Bytes) (height : Nat)
    (hh : s.headers hash = some height) :
    receiveArchive short valid unzip 2 syncing false s hash 1 [x] = .ok (some (.banned, { s with txHashSet := none })) := by
  have e : recvLoop 1 2 0 [x] [] = .complete [x] [] := (archive_received_partial 1 (by decide) [x]).1 (by simp)
  unfold receiveArchive
  rw [e]
  simp only [Bool.false_eq_true, if_false, hx, snapshot_refused_violated short valid s hash height hh, Res.ok_bind]
  rfl

/-- **C94, violated.** A valid snapshot of a header below the confirmed blocks is accepted and leaves confirmed blocks above the
header at which the chain state stands. -/
theorem snapshot_below_violated (short : Bytes → Bytes) (valid : Bytes → Files → Bool) (s s' : NodeState) (hash : Bytes)
    (zip : Option Zip) (height i : Nat) (h : processSnapshot short valid s hash zip = .ok (true, s'))
    (_hh : s.headers hash = some height) (hi : height < i) (hc : i < s.candidate.length) (hd : i < s.confirmed.length)
    (he : s.candidate[i]? = s.confirmed[i]?) :
    s'.txHashSet = some hash ∧ height + 1 < s'.confirmed.length := by
  rcases process_ok h with ⟨_, hb, _⟩ | ⟨height', hh', hf, _, _, ⟨hb, _⟩ | ⟨_, _, _, ht, _, _, _, c, hcc, hconf⟩⟩
  · cases hb
  · cases hb
  · obtain ⟨c1, c2, c3⟩ := common_spec _ _ _ c (by omega) (by omega) hcc
    have : i ≤ c := by
      by_cases hic : i ≤ c
      · exact hic
      · exact absurd he (c3 i (by omega) (by omega))
    refine ⟨ht, ?_⟩
    rw [hconf, List.length_append, List.length_take]
    omega

/-- **C94.** Every snapshot is processed to an end if the header named by the peer is not above the candidate chain.
Missing: headers above it, see `snapshot_defined_violated`. -/
theorem snapshot_defined_partial (short : Bytes → Bytes) (valid : Bytes → Files → Bool) (s : NodeState) (hash : Bytes)
    (zip : Option Zip) (genesis : Bytes) (hc : s.candidate[0]? = some genesis) (hd : s.confirmed[0]? = some genesis)
    (hh : ∀ height, s.headers hash = some height → height < s.candidate.length) :
    ∃ r, processSnapshot short valid s hash zip = .ok r := by
  unfold processSnapshot
  split
  · exact ⟨_, rfl⟩
  · rename_i height e
    have hlt := hh height e
    simp only
    split
    · exact ⟨_, rfl⟩
    · split
      · exact ⟨_, rfl⟩
      · unfold updateConfirmed
        simp only [List.getElem?_eq_getElem hlt]
        split
        · exact ⟨_, rfl⟩
        · obtain ⟨c, hcm⟩ := common_defined s.candidate s.confirmed genesis hc hd (min s.candidate.length s.confirmed.length - 1)
          rw [hcm]
          exact ⟨_, rfl⟩

/-- **C94, violated.** A valid snapshot of a known header above the candidate chain makes the node dereference a null pointer. -/
theorem snapshot_defined_violated (short : Bytes → Bytes) (valid : Bytes → Files → Bool) (s : NodeState) (hash : Bytes)
    (z : Zip) (height : Nat) (hh : s.headers hash = some height) (hc : s.candidate.length ≤ height)
    (hn : ∀ n ∈ archiveNames (short hash), (z n).isSome)
    (hv : ∀ fs, (∀ p, p.1 ∈ stateFolders → fs p = unpacked z (short hash) p) → valid hash fs = true) :
    processSnapshot short valid s hash (some z) = .ub := by
  have he := (archive_extracted (some z) (short hash) s.files).mpr ⟨z, rfl, hn⟩
  have hcont := archive_content z (short hash) s.files he
  unfold processSnapshot
  rw [hh]
  simp only
  split
  · rename_i fs e; rw [e] at he; cases he
  · rename_i fs e
    rw [e] at hcont
    rw [if_neg (by rw [hv fs hcont]; simp)]
    unfold updateConfirmed
    simp only [List.getElem?_eq_none hc]
    rfl

private def toyNode : NodeState where
  headers h := if h = [0] then some 0 else if h = [1] then some 1 else if h = [2] then some 2 else if h = [3] then some 3 else none
  candidate := [[0], [1], [2]]
  confirmed := [[0], [9]]
  txHashSet := some [9]
  files := fun _ => some [1]
  sums := [[9]]
  positions := none

private def toyResult (s : NodeState) (hash : Bytes) (zip : Option Zip) : Option (Bool × List Bytes × Option Bytes) :=
  match processSnapshot id (fun _ _ => true) s hash zip with
  | .ok (b, s') => some (b, s'.confirmed, s'.txHashSet)
  | _ => none

example : toyResult toyNode [2] (some toyZip) = some (true, [[0], [1], [2]], some [2]) := by decide +kernel
example : toyResult toyNode [9] (some toyZip) = some (false, [[0], [9]], some [9]) := by decide +kernel
example : toyResult toyNode [2] none = some (false, [[0], [9]], none) := by decide +kernel
example : toyResult toyNode [3] (some toyZip) = none := by decide +kernel
example : toyResult { toyNode with confirmed := [[0], [1]] } [0] (some toyZip) = some (true, [[0], [1]], some [0]) := by
  decide +kernel

end Verif.Props
