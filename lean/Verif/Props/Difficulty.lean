import Verif.PoW.Difficulty
import Verif.Props.Cuckoo
import Mathlib.Tactic.SplitIfs

/-!
# C27, C28: difficulty adjustment and header versions
-/
namespace Verif.Props
open Verif Verif.PoW

/-! ## C28 -/

/-- The heights at which a new header version begins. -/
def forkHeights : Env → List Nat
  | .floonet => [185040, 298080, 552960, 642240]
  | _ => [262080, 524160, 786240, 1048320]

private theorem count_cons (a h : Nat) (l : List Nat) : ((a :: l).filter (· ≤ h)).length =
    (if a ≤ h then 1 else 0) + (l.filter (· ≤ h)).length := by
  by_cases ha : a ≤ h
  · rw [List.filter_cons_of_pos (by simpa using ha), if_pos ha, List.length_cons]; omega
  · rw [List.filter_cons_of_neg (by simpa using ha), if_neg ha]; omega

private theorem count_four (a b c d h : Nat) (h1 : a ≤ b) (h2 : b ≤ c) (h3 : c ≤ d) :
    (if h < a then 1 else if h < b then 2 else if h < c then 3 else if h < d then 4 else 5) =
      1 + (([a, b, c, d] : List Nat).filter (· ≤ h)).length := by
  rw [count_cons, count_cons, count_cons, count_cons, List.filter_nil, List.length_nil]
  split_ifs <;> omega

/-- **C28.** The version required at a height is one more than the number of forks that have begun. -/
theorem header_version_spec (env : Env) (height : Nat) :
    headerVersion env height = 1 + ((forkHeights env).filter (· ≤ height)).length := by
  cases env
  · exact count_four 262080 524160 786240 1048320 height (by decide) (by decide) (by decide)
  · exact count_four 185040 298080 552960 642240 height (by decide) (by decide) (by decide)
  · exact count_four 262080 524160 786240 1048320 height (by decide) (by decide) (by decide)

/-- **C28, monotone.** -/
theorem header_version_mono (env : Env) (h h' : Nat) (hh : h ≤ h') :
    headerVersion env h ≤ headerVersion env h' := by
  rw [header_version_spec, header_version_spec]
  have : ∀ l : List Nat, (l.filter (· ≤ h)).length ≤ (l.filter (· ≤ h')).length := by
    intro l
    induction l with
    | nil => simp
    | cons a l ih =>
      rw [count_cons, count_cons]
      split <;> split <;> omega
  have := this (forkHeights env)
  omega

/-- **C28, unique.** Header validation accepts a header only with that version, on every network. -/
theorem header_version_unique (env : Env) (ticks : Nat) (now : Int) (ends : Family → Header → Nat → Nat × Nat)
    (db : Bytes → Option Header) (root : Nat → Bytes) (h prev : Header)
    (ha : validateHeader env ticks now ends db root h prev = .ok ()) :
    h.version = 1 + ((forkHeights env).filter (· ≤ h.height)).length := by
  rw [← header_version_spec]
  unfold validateHeader at ha
  by_cases h1 : h.height ≠ (prev.height + 1) % U64
  · rw [if_pos h1] at ha; cases ha
  rw [if_neg h1] at ha
  by_cases h2 : h.timestamp > maxBlockTime ticks now
  · rw [if_pos h2] at ha; cases ha
  rw [if_neg h2] at ha
  by_cases h3 : h.version ≠ headerVersion env h.height
  · rw [if_pos h3] at ha; cases ha
  · simpa using h3

example : headerVersion .mainnet 262079 = 1 ∧ headerVersion .mainnet 262080 = 2 ∧
    headerVersion .floonet 642240 = 5 := by decide

/-! ## C27: helper facts -/

private theorem toU64_lt (i : Int) : toU64 i < U64 := by
  have h1 := Int.emod_lt_of_pos i (show (0 : Int) < (U64 : Int) by decide)
  have h2 := Int.emod_nonneg i (show (U64 : Int) ≠ 0 by decide)
  unfold toU64
  omega

private theorem toU64_of_nonneg (n : Nat) (h : n < U64) : toU64 (n : Int) = n := by
  unfold toU64
  rw [Int.emod_eq_of_lt (by omega) (by exact_mod_cast h)]
  rfl

private theorem toU64_cast (i : Int) : ((toU64 i : Nat) : Int) = i % (U64 : Int) := by
  have h2 := Int.emod_nonneg i (show (U64 : Int) ≠ 0 by decide)
  unfold toU64
  exact Int.toNat_of_nonneg h2

/-- Differences add up, also when they wrap. -/
private theorem subU64_add (a b c s : Nat) (hs : s = subU64 b c) : (subU64 a b + s) % U64 = subU64 a c := by
  subst hs
  have h1 := toU64_cast ((a : Int) - b)
  have h2 := toU64_cast ((b : Int) - c)
  have h3 := toU64_cast ((a : Int) - c)
  unfold subU64
  simp only [U64] at *
  omega

private theorem subU64_of_le {a b : Nat} (h : b ≤ a) (ha : a < U64) : subU64 a b = a - b := by
  unfold subU64
  rw [show (a : Int) - b = ((a - b : Nat) : Int) by omega, toU64_of_nonneg _ (by omega)]

private theorem foldl_mod_sum (f : Info → Nat) (l : List Info) (s : Nat) :
    l.foldl (fun s i => (s + f i) % U64) (s % U64) = (s + (l.map f).sum) % U64 := by
  induction l generalizing s with
  | nil => simp
  | cons a l ih =>
    rw [List.foldl_cons, show (s % U64 + f a) % U64 = (s + f a) % U64 by rw [Nat.mod_add_mod], ih,
      List.map_cons, List.sum_cons, Nat.add_assoc]

private theorem difficultySum_eq (l : List Info) : difficultySum l = (l.map (·.difficulty)).sum % U64 := by
  have := foldl_mod_sum (·.difficulty) l 0
  simpa [difficultySum] using this

private theorem scalingSum_eq (l : List Info) : scalingSum l = (l.map (·.scaling)).sum % U64 := by
  have := foldl_mod_sum (·.scaling) l 0
  simpa [scalingSum] using this

private theorem collect_length (db : Bytes → Option Header) (n : Nat) (o : Option Header) :
    (collect db n o).length ≤ n := by
  induction n generalizing o with
  | zero => simp [collect]
  | succ n ih =>
    cases o with
    | none => simp [collect]
    | some h =>
      unfold collect
      split
      · rename_i p hp
        have := ih (some p)
        simp only [List.length_cons]; omega
      · simp

private theorem padding_length (delta diff n ts : Nat) : (padding delta diff n ts).length = n := by
  induction n generalizing ts with
  | zero => rfl
  | succ n ih => simp [padding, ih]

private theorem padding_scaling (delta diff n ts : Nat) :
    ∀ i ∈ padding delta diff n ts, i.scaling = INITIAL_GRAPH_WEIGHT := by
  induction n generalizing ts with
  | zero => intro i hi; cases hi
  | succ n ih =>
    intro i hi
    rcases List.mem_cons.mp hi with rfl | hi
    · rfl
    · exact ih _ i hi

private theorem padData_ok (data : List Info) (h0 : data ≠ []) (h1 : data.length ≤ 61) :
    ∃ r, padData data = .ok r ∧ r.length = 61 ∧
      ∀ i ∈ r, i ∈ data ∨ i.scaling = INITIAL_GRAPH_WEIGHT := by
  unfold padData
  by_cases h : WINDOW + 1 > data.length
  · rw [if_pos h]
    cases data with
    | nil => exact absurd rfl h0
    | cons first rest =>
      refine ⟨_, rfl, ?_, ?_⟩
      · simp only [List.length_reverse, List.length_append, padding_length, WINDOW] at *
        omega
      · intro i hi
        rw [List.mem_reverse, List.mem_append] at hi
        rcases hi with hi | hi
        · exact .inl hi
        · exact .inr (padding_scaling _ _ _ _ i hi)
  · rw [if_neg h]
    refine ⟨_, rfl, ?_, fun i hi => .inl (List.mem_reverse.mp hi)⟩
    simp only [WINDOW] at h
    rw [List.length_reverse]; omega

private theorem padData_full (data : List Info) (h : data.length = 61) : padData data = .ok data.reverse := by
  unfold padData
  rw [if_neg (by rw [h]; decide)]

private theorem collect_ne_nil (db : Bytes → Option Header) (n : Nat) (h : Header) :
    collect db (n + 1) (some h) ≠ [] := by
  unfold collect
  split <;> simp

private theorem clamp_damp_time (delta : Nat) :
    1800 ≤ clamp (damp delta BLOCK_TIME_WINDOW 3) BLOCK_TIME_WINDOW 2 ∧
      clamp (damp delta BLOCK_TIME_WINDOW 3) BLOCK_TIME_WINDOW 2 ≤ 7200 := by
  simp only [clamp, BLOCK_TIME_WINDOW]
  omega

/-! ## C27: the damped moving average (header versions 1 to 4) -/

/-- **C27, every history.** If the parent is known the calculation ends with a difficulty of at least 3, whatever
the older headers, their timestamps and difficulties are, or however few there are. -/
theorem dma_minimum (db : Bytes → Option Header) (h last : Header) (hl : db h.prevHash = some last) :
    ∃ info, nextDMA db h = .ok info ∧ 3 ≤ info.difficulty ∧ info.difficulty < U64 := by
  obtain ⟨r, hr, -, -⟩ := padData_ok (collect db 61 (some last)) (collect_ne_nil db 60 last)
    (collect_length db 61 _)
  have hload : loadData db h = .ok r := by rw [loadData, hl]; exact hr
  unfold nextDMA
  rw [hload, Res.ok_bind]
  refine ⟨_, rfl, Nat.le_max_left _ _, ?_⟩
  simp only
  rw [Nat.max_lt]
  exact ⟨by decide, Nat.lt_of_le_of_lt (Nat.div_le_self _ _) (Nat.mod_lt _ (by decide))⟩

/-- A chain of headers in the database, newest first, starting with the parent of `h`. -/
structure Window (db : Bytes → Option Header) (h : Header) (hs : Nat → Header) (n : Nat) : Prop where
  parent : db h.prevHash = some (hs 0)
  link : ∀ i, i < n → db (hs i).prevHash = some (hs (i + 1))

private theorem collect_window {db : Bytes → Option Header} {hs : Nat → Header} {n : Nat} (k : Nat)
    (hw : ∀ i, i < k + n → db (hs i).prevHash = some (hs (i + 1))) :
    collect db n (some (hs k)) = (List.range n).map fun i =>
      ⟨toU64 (hs (k + i)).timestamp, subU64 (hs (k + i)).totalDifficulty (hs (k + i + 1)).totalDifficulty,
        (hs (k + i)).scaling, (hs (k + i)).pow.edgeBits == 29⟩ := by
  induction n generalizing k with
  | zero => rfl
  | succ n ih =>
    unfold collect
    rw [hw k (by omega)]
    simp only
    rw [ih (k + 1) (fun i hi => hw i (by omega)), List.range_succ_eq_map, List.map_cons, List.map_map]
    simp only [Nat.add_zero, List.cons.injEq, true_and]
    apply List.map_congr_left
    intro i _
    simp only [Function.comp, Nat.succ_eq_add_one, show k + (i + 1) = k + 1 + i by omega]

private theorem telescope (f : Nat → Nat) (n : Nat) :
    ((List.range n).map fun i => subU64 (f i) (f (i + 1))).sum % U64 = subU64 (f 0) (f n) := by
  induction n with
  | zero =>
    simp [subU64, toU64]
  | succ n ih =>
    rw [List.range_succ, List.map_append, List.sum_append, List.map_singleton, List.sum_singleton,
      ← Nat.mod_add_mod, ih]
    exact subU64_add _ _ _ _ rfl

private theorem pct_le (height : Nat) : secondaryRatio height ≤ 90 := by
  unfold secondaryRatio; exact Nat.sub_le _ _

private theorem sum_bound (l : List Info) (B : Nat) (h : ∀ i ∈ l, i.scaling < B) :
    (l.map (·.scaling)).sum ≤ l.length * B := by
  induction l with
  | nil => simp
  | cons a l ih =>
    have h1 := h a (by simp)
    have h2 := ih (fun i hi => h i (by simp [hi]))
    rw [List.map_cons, List.sum_cons, List.length_cons, Nat.succ_mul]
    omega

/-- The scaling factor by its definition: the sum of the last 60 factors times the target share, over the damped
count of secondary blocks.  The target share is 90 percent at first and one percent less every 11648 blocks, so that it is
none after two years. -/
def scalingSpec (height sum secondaries : Nat) : Nat :=
  let pct := 90 - min 90 (height / 11648)
  max 13 (sum * pct / max 1 (min (120 * pct) ((100 * secondaries + 720 * pct) / 13)))

private theorem scaling_eq (height : Nat) (data : List Info) (hl : data.length = 60)
    (hs : ∀ i ∈ data, i.scaling < 2 ^ 31) :
    secondaryScaling height data =
      scalingSpec height (data.map (·.scaling)).sum (data.filter (·.secondary)).length := by
  have hb := sum_bound data _ hs
  rw [hl] at hb
  have hn : (data.filter (·.secondary)).length ≤ 60 := by rw [← hl]; exact List.length_filter_le _ _
  have hp := pct_le height
  unfold secondaryScaling scalingSpec
  rw [scalingSum_eq, show 90 - min 90 (height / 11648) = secondaryRatio height from rfl]
  simp only [arCount, clamp, damp, WINDOW]
  generalize secondaryRatio height = pct at *
  generalize (data.map (·.scaling)).sum = S at *
  generalize (data.filter (·.secondary)).length = n at *
  have e1 : S % U64 = S := Nat.mod_eq_of_lt (by simp only [U64]; omega)
  have hSp : S * pct ≤ 60 * 2 ^ 31 * 90 := Nat.mul_le_mul hb hp
  have e2 : S * pct % U64 = S * pct := Nat.mod_eq_of_lt (by simp only [U64]; omega)
  have e3 : (n * 100 + (13 - 1) * (60 * pct)) % U64 = n * 100 + 720 * pct := by
    rw [Nat.mod_eq_of_lt (by simp only [U64]; omega)]; omega
  rw [e1, e2, e3]
  have e4 : max (60 * pct / 2) (min ((n * 100 + 720 * pct) / 13) (60 * pct * 2)) =
      min (120 * pct) ((100 * n + 720 * pct) / 13) := by omega
  rw [e4]
  apply Nat.mod_eq_of_lt
  rw [Nat.max_lt]
  refine ⟨by decide, ?_⟩
  rcases Nat.eq_zero_or_pos pct with h0 | h0
  · subst h0; simp
  · have hm : 55 * pct ≤ max 1 (min (120 * pct) ((100 * n + 720 * pct) / 13)) := by omega
    refine Nat.lt_of_le_of_lt (Nat.div_le_div_left hm (by omega)) ?_
    rw [Nat.mul_div_mul_right _ _ h0]
    omega

private theorem time_spec_aux (G T : Nat) (h : (T + 2 * G) % U64 = T + 2 * G) :
    clamp (damp T G 3) G 2 = min (2 * G) ((T + 2 * G) / 3) := by
  simp only [clamp, damp]
  rw [show (3 - 1) * G = 2 * G from rfl, h]
  omega

private theorem time_spec (T : Nat) (h : T < 2 ^ 63) :
    clamp (damp T BLOCK_TIME_WINDOW 3) BLOCK_TIME_WINDOW 2 = min 7200 ((T + 7200) / 3) :=
  time_spec_aux 3600 T (Nat.mod_eq_of_lt (by simp only [U64]; omega))

/-- **C27, exact values with a full window.** With 61 known headers (total difficulty growing, time not running
backwards) the next difficulty is the work of the last 60 blocks times 60 seconds over the damped time they took, kept
between 2400 and 7200 seconds, but at least 3; the secondary scaling follows `scalingSpec` and is at least 13.
Not covered: work or scaling factors so large that the 64-bit products wrap. -/
theorem dma_difficulty_partial (db : Bytes → Option Header) (h : Header) (hs : Nat → Header)
    (hw : Window db h hs 61) (htd : ∀ i, (hs i).totalDifficulty < U64)
    (hgrow : (hs 60).totalDifficulty ≤ (hs 0).totalDifficulty)
    (htime : (hs 60).timestamp ≤ (hs 0).timestamp) (hpos : 0 ≤ (hs 60).timestamp)
    (hmax : (hs 0).timestamp < 2 ^ 63)
    (hwork : ((hs 0).totalDifficulty - (hs 60).totalDifficulty) * 60 < U64)
    (hsc : ∀ i, (hs i).scaling < 2 ^ 31) :
    ∃ info, nextDMA db h = .ok info ∧
      info.difficulty = max 3 (((hs 0).totalDifficulty - (hs 60).totalDifficulty) * 60 /
        min 7200 ((((hs 0).timestamp - (hs 60).timestamp).toNat + 7200) / 3)) ∧
      info.scaling = scalingSpec h.height ((List.range 60).map fun i => (hs i).scaling).sum
        ((List.range 60).filter fun i => (hs i).pow.edgeBits = 29).length := by
  have hc := collect_window (n := 61) 0 (fun i hi => hw.link i (by omega))
  simp only [Nat.zero_add] at hc
  have hdata : loadData db h = .ok (collect db 61 (some (hs 0))).reverse := by
    rw [loadData, hw.parent]
    exact padData_full _ (by rw [show WINDOW + 1 = 61 from rfl, hc, List.length_map, List.length_range])
  generalize hD : (fun i => (⟨toU64 (hs i).timestamp,
    subU64 (hs i).totalDifficulty (hs (i + 1)).totalDifficulty, (hs i).scaling,
      (hs i).pow.edgeBits == 29⟩ : Info)) = D at hc
  rw [hc] at hdata
  have hdrop : ((List.range 61).map D).reverse.drop 1 = ((List.range 60).map D).reverse := by
    rw [List.range_succ, List.map_append, List.reverse_append]; rfl
  have h60 : ((List.range 61).map D).reverse.getD 60 ⟨0, 0, 0, false⟩ = D 0 := by
    rw [List.getD_eq_getElem?_getD, List.getElem?_reverse (by simp)]
    simp
  have h00 : ((List.range 61).map D).reverse.getD 0 ⟨0, 0, 0, false⟩ = D 60 := by
    rw [List.getD_eq_getElem?_getD, List.getElem?_reverse (by simp)]
    simp
  unfold nextDMA
  rw [hdata, Res.ok_bind]
  refine ⟨_, rfl, ?_, ?_⟩
  · simp only [WINDOW]
    rw [hdrop, h60, h00, difficultySum_eq, List.map_reverse, List.sum_reverse, List.map_map]
    have e1 : ((List.range 60).map ((fun x : Info => x.difficulty) ∘ D)).sum % U64 =
        (hs 0).totalDifficulty - (hs 60).totalDifficulty := by
      rw [← hD]
      have := telescope (fun i => (hs i).totalDifficulty) 60
      rw [subU64_of_le hgrow (htd 0)] at this
      exact this
    have e2 : subU64 (D 0).timestamp (D 60).timestamp = ((hs 0).timestamp - (hs 60).timestamp).toNat := by
      rw [← hD]
      simp only
      have t0 : toU64 (hs 0).timestamp = (hs 0).timestamp.toNat := by
        conv => lhs; rw [show (hs 0).timestamp = (((hs 0).timestamp.toNat : Nat) : Int) by omega]
        exact toU64_of_nonneg _ (by simp only [U64]; omega)
      have t60 : toU64 (hs 60).timestamp = (hs 60).timestamp.toNat := by
        conv => lhs; rw [show (hs 60).timestamp = (((hs 60).timestamp.toNat : Nat) : Int) by omega]
        exact toU64_of_nonneg _ (by simp only [U64]; omega)
      rw [t0, t60, subU64_of_le (by omega) (by simp only [U64]; omega)]
      omega
    have e3 := time_spec
    rw [e1, e2, BLOCK_TIME_SEC, Nat.mod_eq_of_lt hwork, e3 _ (by omega)]
  · simp only
    rw [hdrop, scaling_eq _ _ (by simp) (by
      intro i hi
      rw [List.mem_reverse] at hi
      obtain ⟨k, -, rfl⟩ := List.mem_map.mp hi
      rw [← hD]; exact hsc k)]
    rw [List.map_reverse, List.sum_reverse, List.map_map, List.filter_reverse, List.length_reverse,
      List.filter_map, List.length_map, ← hD]
    rfl

/-- **C27, one step with a full window**: at most one and a half times, at least half, of the average of the window. -/
theorem dma_step_partial (db : Bytes → Option Header) (h : Header) (hs : Nat → Header)
    (hw : Window db h hs 61) (htd : ∀ i, (hs i).totalDifficulty < U64)
    (hgrow : (hs 60).totalDifficulty ≤ (hs 0).totalDifficulty)
    (htime : (hs 60).timestamp ≤ (hs 0).timestamp) (hpos : 0 ≤ (hs 60).timestamp)
    (hmax : (hs 0).timestamp < 2 ^ 63)
    (hwork : ((hs 0).totalDifficulty - (hs 60).totalDifficulty) * 60 < U64)
    (hsc : ∀ i, (hs i).scaling < 2 ^ 31) :
    ∃ info, nextDMA db h = .ok info ∧
      ((hs 0).totalDifficulty - (hs 60).totalDifficulty) / 120 ≤ info.difficulty ∧
      info.difficulty ≤ max 3 (((hs 0).totalDifficulty - (hs 60).totalDifficulty) / 40) ∧
      (((hs 0).timestamp - (hs 60).timestamp) = 3600 →
        info.difficulty = max 3 (((hs 0).totalDifficulty - (hs 60).totalDifficulty) / 60)) ∧
      13 ≤ info.scaling := by
  obtain ⟨info, h1, h2, h3⟩ := dma_difficulty_partial db h hs hw htd hgrow htime hpos hmax hwork hsc
  refine ⟨info, h1, ?_, ?_, ?_, ?_⟩
  · rw [h2]
    generalize (hs 0).totalDifficulty - (hs 60).totalDifficulty = W
    generalize ((hs 0).timestamp - (hs 60).timestamp).toNat = T
    have : W * 60 / 7200 ≤ W * 60 / min 7200 ((T + 7200) / 3) :=
      Nat.div_le_div_left (by omega) (by omega)
    omega
  · rw [h2]
    generalize (hs 0).totalDifficulty - (hs 60).totalDifficulty = W
    generalize ((hs 0).timestamp - (hs 60).timestamp).toNat = T
    have : W * 60 / min 7200 ((T + 7200) / 3) ≤ W * 60 / 2400 :=
      Nat.div_le_div_left (by omega) (by omega)
    omega
  · intro ht
    rw [h2, ht]
    generalize (hs 0).totalDifficulty - (hs 60).totalDifficulty = W
    have : min 7200 (((3600 : Int).toNat + 7200) / 3) = 3600 := by decide
    rw [this]
    omega
  · rw [h3]; exact Nat.le_max_left _ _

/-! ## C27: WTEMA (header version 5) -/

/-- **C27, WTEMA.** If the parent is younger than the grandparent and has more total difficulty, and the product fits
64 bits, the next difficulty is the parent's times 14400 over 14340 plus the parent's block time, but at least the
minimum of the network; the secondary scaling is 0. -/
theorem wtema_difficulty_partial (env : Env) (db : Bytes → Option Header) (h last prev : Header)
    (hl : db h.prevHash = some last) (hp : db last.prevHash = some prev)
    (ht : prev.timestamp < last.timestamp) (ht0 : 0 ≤ prev.timestamp) (ht1 : last.timestamp < 2 ^ 63)
    (hd : prev.totalDifficulty ≤ last.totalDifficulty) (hd1 : last.totalDifficulty < U64)
    (hm : (last.totalDifficulty - prev.totalDifficulty) * 14400 < U64) :
    nextWTEMA env db h = .ok ⟨1, max (if env = .mainnet then 16384 else 1856)
      ((last.totalDifficulty - prev.totalDifficulty) * 14400 /
        (14340 + (last.timestamp - prev.timestamp).toNat)), 0, true⟩ := by
  have e1 : toU64 (last.timestamp - prev.timestamp) = (last.timestamp - prev.timestamp).toNat := by
    conv => lhs; rw [show last.timestamp - prev.timestamp =
      (((last.timestamp - prev.timestamp).toNat : Nat) : Int) by omega]
    exact toU64_of_nonneg _ (by simp only [U64]; omega)
  unfold nextWTEMA
  rw [hl]
  simp only [hp]
  rw [if_neg (by omega), e1, subU64_of_le hd hd1, WTEMA_HALF_LIFE, BLOCK_TIME_SEC,
    Nat.mod_eq_of_lt hm, Nat.mod_eq_of_lt (by simp only [U64]; omega), if_neg (by omega)]
  cases env <;> rfl

/-- **C27, WTEMA, one step.** With difficulty `D` and block time `t ≥ 1` of the parent: the next difficulty is never
below the minimum; it grows by at most one part in 243; at 60 seconds it stays; faster blocks never lower it and raise
it when `D ≥ 14399`; slower blocks never raise it. -/
theorem wtema_step_partial (env : Env) (db : Bytes → Option Header) (h last prev : Header)
    (hl : db h.prevHash = some last) (hp : db last.prevHash = some prev)
    (ht : prev.timestamp < last.timestamp) (ht0 : 0 ≤ prev.timestamp) (ht1 : last.timestamp < 2 ^ 63)
    (hd : prev.totalDifficulty ≤ last.totalDifficulty) (hd1 : last.totalDifficulty < U64)
    (hm : (last.totalDifficulty - prev.totalDifficulty) * 14400 < U64) :
    ∃ info, nextWTEMA env db h = .ok info ∧
      (let D := last.totalDifficulty - prev.totalDifficulty
       let t := last.timestamp - prev.timestamp
       let m := if env = .mainnet then 16384 else 1856
       m ≤ info.difficulty ∧
       info.difficulty ≤ max m (D + D / 243) ∧
       (t = 60 → info.difficulty = max m D) ∧
       (t ≤ 60 → D ≤ info.difficulty) ∧
       (t < 60 → 14399 ≤ D → D < info.difficulty) ∧
       (60 ≤ t → info.difficulty ≤ max m D)) := by
  refine ⟨_, wtema_difficulty_partial env db h last prev hl hp ht ht0 ht1 hd hd1 hm, ?_⟩
  simp only
  generalize last.totalDifficulty - prev.totalDifficulty = D at *
  generalize hT : (last.timestamp - prev.timestamp).toNat = T
  generalize hte : last.timestamp - prev.timestamp = t at *
  generalize (if env = .mainnet then 16384 else 1856) = m
  have hTt : (T : Int) = t := by omega
  have hT1 : 1 ≤ T := by omega
  refine ⟨Nat.le_max_left _ _, ?_, ?_, ?_, ?_, ?_⟩
  · have h1 : D * 14400 / (14340 + T) ≤ D * 14400 / 14341 := Nat.div_le_div_left (by omega) (by decide)
    have h2 : D * 14400 / 14341 ≤ D + D / 243 := by omega
    omega
  · intro h60
    have : T = 60 := by omega
    subst this
    have : D * 14400 / (14340 + 60) = D := by omega
    rw [this]
  · intro h60
    have : D ≤ D * 14400 / (14340 + T) := by
      rw [Nat.le_div_iff_mul_le (by omega)]
      exact Nat.mul_le_mul_left _ (by omega)
    omega
  · intro h60 hD
    have : D + 1 ≤ D * 14400 / (14340 + T) := by
      rw [Nat.le_div_iff_mul_le (by omega)]
      have : (D + 1) * (14340 + T) ≤ (D + 1) * 14399 :=
        Nat.mul_le_mul (Nat.le_refl _) (show 14340 + T ≤ 14399 by omega)
      refine Nat.le_trans this ?_
      rw [Nat.add_mul]
      clear this hm
      omega
    omega
  · intro h60
    have h1 : 14400 * D ≤ (14340 + T) * D := Nat.mul_le_mul (show 14400 ≤ 14340 + T by omega) (Nat.le_refl _)
    have : D * 14400 / (14340 + T) ≤ D := Nat.div_le_of_le_mul (by rw [Nat.mul_comm]; exact h1)
    omega

/-- **C27 violated: the difficulty can collapse to the minimum in one step.** A parent dated far enough ahead (which
header validation does not prevent, see `future_header_violated`) makes the next difficulty the minimum, however high
it was. -/
theorem wtema_collapse_violated (env : Env) (db : Bytes → Option Header) (h last prev : Header)
    (hl : db h.prevHash = some last) (hp : db last.prevHash = some prev)
    (ht0 : 0 ≤ prev.timestamp) (ht1 : last.timestamp < 2 ^ 63)
    (hd : prev.totalDifficulty ≤ last.totalDifficulty) (hd1 : last.totalDifficulty < U64)
    (hm : (last.totalDifficulty - prev.totalDifficulty) * 14400 < U64)
    (hfar : ((last.totalDifficulty - prev.totalDifficulty) * 14400 : Nat) < last.timestamp - prev.timestamp) :
    ∃ info, nextWTEMA env db h = .ok info ∧ info.difficulty = if env = .mainnet then 16384 else 1856 := by
  refine ⟨_, wtema_difficulty_partial env db h last prev hl hp (by omega) ht0 ht1 hd hd1 hm, ?_⟩
  have h0 : (last.totalDifficulty - prev.totalDifficulty) * 14400 /
      (14340 + (last.timestamp - prev.timestamp).toNat) = 0 := Nat.div_eq_of_lt (by omega)
  simp only [h0, Nat.max_zero]

/-- A header with the fields the difficulty calculation looks at. -/
def stubHeader (version height : Nat) (timestamp : Int) (prevHash : Bytes) (td scaling edgeBits : Nat) : Header :=
  ⟨version, height, timestamp, prevHash, [], [], [], [], [], 0, 0, td, scaling, 0, ⟨edgeBits, List.range 42, []⟩⟩

/-- Two blocks: the grandparent `[2]` and the parent `[1]`. -/
def twoHeaders (td0 td1 : Nat) (ts0 ts1 : Int) : Bytes → Option Header := fun b =>
  if b = [1] then some (stubHeader 5 1100001 ts1 [2] td1 0 32)
  else if b = [2] then some (stubHeader 5 1100000 ts0 [3] td0 0 32)
  else none

/-- **C27 violated: overflow.** At a difficulty of `2^64 / 14400` the product wraps and a block of 60 seconds drops the
next difficulty to the minimum. -/
theorem wtema_overflow_violated : ∃ db h last prev, db h.prevHash = some last ∧ db last.prevHash = some prev ∧
    last.timestamp - prev.timestamp = 60 ∧ last.totalDifficulty - prev.totalDifficulty = 1281023894007608 ∧
    nextWTEMA .mainnet db h = .ok ⟨1, 16384, 0, true⟩ :=
  ⟨twoHeaders 1000 1281023894008608 1000 1060, stubHeader 5 1100002 2000 [1] 0 0 32, _, _, rfl, rfl,
    by decide, by decide, by decide +kernel⟩

/-- An endless chain of equal blocks, one each minute going back. -/
def evenChain (scaling edgeBits : Nat) : Bytes → Option Header := fun b =>
  match b with
  | [n] => some (stubHeader 1 (1000 - n.toNat) (1000000 - 60 * n.toNat) [n + 1] (1000000 - 1000 * n.toNat) scaling edgeBits)
  | _ => none

/-- **C27 violated: the secondary scaling factor can fall below its minimum**, when the factors of the window are near
`2^32` and the result is cut to 32 bits. -/
theorem dma_scaling_violated : ∃ db h info, nextDMA db h = .ok info ∧ info.scaling < 13 :=
  ⟨evenChain 3964095742 31, stubHeader 1 1 2000000 [0] 0 0 29, ⟨1, 1000, 0, true⟩, by decide +kernel, by decide +kernel⟩

example : ∃ info, nextDMA (evenChain 1856 29) (stubHeader 1 1001 1000060 [0] 0 0 29) = .ok info ∧
    info.difficulty = 1000 :=
  ⟨⟨1, 1000, 1840, true⟩, by decide +kernel, rfl⟩

example : nextWTEMA .mainnet (twoHeaders 1000 101000 1000 1059) (stubHeader 5 1100002 2000 [1] 0 0 32) =
    .ok ⟨1, 100006, 0, true⟩ := by
  exact (wtema_difficulty_partial .mainnet _ _ _ _ rfl rfl (by decide) (by decide) (by decide) (by decide)
    (by decide) (by decide)).trans (by decide +kernel)

end Verif.Props
