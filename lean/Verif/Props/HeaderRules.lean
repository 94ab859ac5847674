import Verif.Props.Difficulty

/-!
# C32, C69: which headers are accepted
-/
namespace Verif.Props
open Verif Verif.PoW

/-! ## The work a proof is worth -/

/-- The weight of a proof: the secondary scaling factor for graphs of 29 bits, else twice the size of the graph
relative to 24 bits, times the bits. -/
def proofWeight (h : Header) : Nat :=
  if h.pow.edgeBits = 29 then h.scaling else 2 ^ (h.pow.edgeBits - 23) * h.pow.edgeBits

private theorem scalingDifficulty_ok {eb : Nat} (h1 : 24 ≤ eb) (h2 : eb ≤ 63) :
    scalingDifficulty eb = .ok (2 ^ (eb - 23) * eb) := by
  unfold scalingDifficulty
  rw [if_neg (by omega)]
  have e : 2 <<< (eb - 24) = 2 ^ (eb - 23) := by
    rw [Nat.shiftLeft_eq, ← Nat.pow_succ']
    congr 1; omega
  have hb : 2 ^ (eb - 23) ≤ 2 ^ 40 := Nat.pow_le_pow_right (by decide) (by omega)
  have hm : 2 ^ (eb - 23) * eb ≤ 2 ^ 40 * 63 := Nat.mul_le_mul hb h2
  rw [e, Nat.mod_eq_of_lt (a := 2 ^ (eb - 23)) (by simp only [U64]; omega),
    Nat.mod_eq_of_lt (by simp only [U64]; omega)]

/-- **C32, the work test.** The proof is worth a target exactly if target times the proof's hash (its first 64 bits, at
least 1) does not exceed the weight times `2^64`. -/
theorem maximum_difficulty_spec (h : Header) (h1 : 24 ≤ h.pow.edgeBits) (h2 : h.pow.edgeBits ≤ 63) :
    ∃ m, maximumDifficulty h = .ok m ∧ ∀ target, target < 2 ^ 64 →
      (target ≤ m ↔ target * max 1 (beVal (h.pow.hash.take 8)) ≤ proofWeight h * 2 ^ 64) := by
  have hs : proofScaling h = .ok (proofWeight h) := by
    unfold proofWeight proofScaling
    by_cases h29 : h.pow.edgeBits = 29
    · rw [if_pos h29, if_pos h29]
    · rw [if_neg h29, if_neg h29, scalingDifficulty_ok h1 h2]
  unfold maximumDifficulty
  rw [hs, Res.ok_bind]
  refine ⟨_, rfl, ?_⟩
  intro target ht
  rw [← Nat.le_div_iff_mul_le (by omega)]
  show target ≤ (if proofWeight h * 2 ^ 64 / max 1 (PoW.hash64 h.pow) < U64 - 1 then _ else _) ↔ _
  unfold PoW.hash64
  generalize proofWeight h * 2 ^ 64 / max 1 (beVal (h.pow.hash.take 8)) = d
  simp only [U64]
  split <;> omega

/-! ## C32 -/

private theorem if_throw_ok {α : Type} {p : Prop} [Decidable p] {r : Res α} {a : α} :
    (if p then .throw else r) = .ok a ↔ ¬ p ∧ r = .ok a := by
  by_cases hp : p
  · rw [if_pos hp]; constructor
    · intro h; cases h
    · intro h; exact absurd hp h.1
  · rw [if_neg hp]; exact ⟨fun h => ⟨hp, h⟩, fun h => h.2⟩

private theorem pow_valid_iff (env : Env) (ends : Family → Header → Nat → Nat × Nat) (db : Bytes → Option Header)
    (h prev : Header) (h1 : 24 ≤ h.pow.edgeBits) (h2 : h.pow.edgeBits ≤ 63) (htd : h.totalDifficulty < 2 ^ 64) :
    isPoWValid env ends db h prev = .ok true ↔
      ∃ next, nextDifficulty env db h = .ok next ∧ 0 < next.difficulty ∧
        h.totalDifficulty = prev.totalDifficulty + next.difficulty ∧ h.scaling = next.scaling ∧
        next.difficulty * max 1 (beVal (h.pow.hash.take 8)) ≤ proofWeight h * 2 ^ 64 ∧
        validateCycle ends h = .ok true := by
  obtain ⟨m, hm, hspec⟩ := maximum_difficulty_spec h h1 h2
  unfold isPoWValid
  by_cases hle : h.totalDifficulty ≤ prev.totalDifficulty
  · rw [if_pos hle]
    constructor
    · intro hh; cases hh
    · rintro ⟨next, -, h3, h4, -⟩; omega
  rw [if_neg hle, hm, Res.ok_bind]
  simp only
  by_cases hmax : m < h.totalDifficulty - prev.totalDifficulty
  · rw [if_pos hmax]
    constructor
    · intro hh; cases hh
    · rintro ⟨next, -, h3, h4, -, h5, -⟩
      have := (hspec next.difficulty (by omega)).mpr h5
      omega
  rw [if_neg hmax]
  cases hn : nextDifficulty env db h with
  | throw => simp [Res.throw_bind]
  | ub => simp [Res.ub_bind]
  | ok next =>
    rw [Res.ok_bind]
    by_cases hd : h.totalDifficulty - prev.totalDifficulty ≠ next.difficulty
    · rw [if_pos hd]
      constructor
      · intro hh; cases hh
      · rintro ⟨n, hn', h3, h4, -⟩
        injection hn' with hn'; subst hn'; omega
    rw [if_neg hd]
    have hd' : h.totalDifficulty - prev.totalDifficulty = next.difficulty := by simpa using hd
    by_cases hs : h.scaling ≠ next.scaling
    · rw [if_pos hs]
      constructor
      · intro hh; cases hh
      · rintro ⟨n, hn', h3, h4, h5, -⟩
        injection hn' with hn'; subst hn'; exact absurd h5 hs
    rw [if_neg hs]
    constructor
    · intro hc
      refine ⟨next, rfl, by omega, by omega, by simpa using hs, ?_, hc⟩
      exact (hspec next.difficulty (by omega)).mp (by omega)
    · rintro ⟨n, -, -, -, -, -, hc⟩
      exact hc

/-- **C32, what is accepted** on the two networks: a header of a graph of 24 to 63 bits is accepted exactly if its height
is one more than its parent's, its time after its parent's and at most the clock reading plus 300 seconds counted in
clock ticks, its version the one of its height, its total difficulty and scaling the required ones, its proof a cycle
worth that difficulty and its previous root the one of the header MMR. -/
theorem header_accepts_iff (env : Env) (henv : env ≠ .testing) (ticks : Nat) (now : Int)
    (ends : Family → Header → Nat → Nat × Nat) (db : Bytes → Option Header) (root : Nat → Bytes) (h prev : Header)
    (h1 : 24 ≤ h.pow.edgeBits) (h2 : h.pow.edgeBits ≤ 63) (htd : h.totalDifficulty < 2 ^ 64)
    (hh : prev.height + 1 < 2 ^ 64) :
    validateHeader env ticks now ends db root h prev = .ok () ↔
      h.height = prev.height + 1 ∧ prev.timestamp < h.timestamp ∧ h.timestamp ≤ now + 300 * ticks ∧
      h.version = 1 + ((forkHeights env).filter (· ≤ h.height)).length ∧
      (∃ next, nextDifficulty env db h = .ok next ∧ 0 < next.difficulty ∧
        h.totalDifficulty = prev.totalDifficulty + next.difficulty ∧ h.scaling = next.scaling ∧
        next.difficulty * max 1 (beVal (h.pow.hash.take 8)) ≤ proofWeight h * 2 ^ 64) ∧
      validateCycle ends h = .ok true ∧ root prev.height = h.prevRoot := by
  have hmod : (prev.height + 1) % U64 = prev.height + 1 := Nat.mod_eq_of_lt hh
  unfold validateHeader
  rw [if_throw_ok, if_throw_ok, if_throw_ok, if_throw_ok, hmod, header_version_spec, headerPoWValid, if_neg henv]
  have key : ((isPoWValid env ends db h prev >>= fun valid =>
      if valid = false then .throw else if root (subU64 h.height 1) ≠ h.prevRoot then .throw else pure ()) = .ok ()) ↔
      isPoWValid env ends db h prev = .ok true ∧ root (subU64 h.height 1) = h.prevRoot := by
    rw [Res.bind_eq_ok]
    constructor
    · rintro ⟨v, hv, hr⟩
      rw [if_throw_ok, if_throw_ok] at hr
      have : v = true := by simpa using hr.1
      subst this
      exact ⟨hv, by simpa using hr.2.1⟩
    · rintro ⟨hv, hr⟩
      refine ⟨true, hv, ?_⟩
      rw [if_throw_ok, if_throw_ok]
      exact ⟨by simp, by simpa using hr, rfl⟩
  have hsub : h.height = prev.height + 1 → subU64 h.height 1 = prev.height := by
    intro e
    rw [e, subU64, show ((prev.height + 1 : Nat) : Int) - (1 : Nat) = (prev.height : Nat) by omega, toU64,
      Int.emod_eq_of_lt (by omega) (by simp only [U64]; omega)]
    rfl
  rw [show (do
      let valid ← isPoWValid env ends db h prev
      if valid = false then Res.throw else if root (subU64 h.height 1) ≠ h.prevRoot then Res.throw else pure ()) =
      (isPoWValid env ends db h prev >>= fun valid =>
      if valid = false then .throw else if root (subU64 h.height 1) ≠ h.prevRoot then .throw else pure ()) from rfl,
    key, pow_valid_iff env ends db h prev h1 h2 htd]
  unfold maxBlockTime
  constructor
  · rintro ⟨a, b, c, d, ⟨next, e1, e2, e3, e4, e5, e6⟩, f⟩
    have a' : h.height = prev.height + 1 := by simpa using a
    rw [hsub a'] at f
    exact ⟨a', by omega, by omega, by simpa using c, ⟨next, e1, e2, e3, e4, e5⟩, e6, f⟩
  · rintro ⟨a, b, c, d, ⟨next, e1, e2, e3, e4, e5⟩, e6, f⟩
    rw [hsub a]
    exact ⟨by simpa using a, by omega, by simpa using d, by omega, ⟨next, e1, e2, e3, e4, e5, e6⟩, f⟩

/-- **C32 when the clock counts seconds**: then, and only then, an accepted header is at most five minutes ahead. -/
theorem header_time_partial (env : Env) (now : Int) (ends : Family → Header → Nat → Nat × Nat)
    (db : Bytes → Option Header) (root : Nat → Bytes) (h prev : Header)
    (ha : validateHeader env 1 now ends db root h prev = .ok ()) :
    h.timestamp ≤ now + 300 ∧ prev.timestamp < h.timestamp := by
  unfold validateHeader at ha
  rw [if_throw_ok, if_throw_ok, if_throw_ok, if_throw_ok] at ha
  obtain ⟨-, b, -, d, -⟩ := ha
  unfold maxBlockTime at b
  constructor <;> omega

/-- A header on top of `twoHeaders`, with a cycle of edges `0 … 41`. -/
def topHeader (edgeBits : Nat) (timestamp : Int) (outputs : Nat) : Header :=
  ⟨5, 1100002, timestamp, [1], [7], [], [], [], [], outputs, 0, 117384, 0, 0,
    ⟨edgeBits, List.range 42, List.replicate 32 0⟩⟩

/-- A graph in which the edges `0 … 41` form a cycle. -/
def ringEnds : Family → Header → Nat → Nat × Nat := fun _ _ n => (n, (n + 1) % 42)

/-- **C32 violated: headers from the far future are accepted.** The library's clock counts nanoseconds but timestamps are
in seconds: on the main network a header dated ten thousand years ahead is accepted, in the year 2021. -/
theorem future_header_violated : ∃ ends db root h prev, db h.prevHash = some prev ∧
    validateHeader .mainnet 1000000000 (1610000000 * 1000000000) ends db root h prev = .ok () ∧
    h.timestamp > 1610000000 + 10000 * 365 * 86400 := by
  refine ⟨ringEnds, twoHeaders 1000 101000 1000 1001000000, fun _ => [7], topHeader 32 400000000000 0, _, rfl, ?_, ?_⟩
  · rw [header_accepts_iff _ (by decide) _ _ _ _ _ _ _ (by decide) (by decide) (by decide) (by decide)]
    refine ⟨rfl, by decide, by decide, by decide +kernel, ⟨⟨1, 16384, 0, true⟩, by decide +kernel, by decide,
      by decide, rfl, by decide +kernel⟩, by decide +kernel, rfl⟩
  · decide

/-- **C32 violated: sizes are not compared with the parent's.** Whether a header is accepted does not depend on the sizes
it claims for the output and kernel MMRs (when the proof of work stays valid). -/
theorem header_sizes_violated (env : Env) (ticks : Nat) (now : Int)
    (db : Bytes → Option Header) (root : Nat → Bytes) (h prev : Header) (o k : Nat)
    (ends ends' : Family → Header → Nat → Nat × Nat)
    (hends : ∀ f e, ends' f { h with outputMMRSize := o, kernelMMRSize := k } e = ends f h e) :
    validateHeader env ticks now ends' db root { h with outputMMRSize := o, kernelMMRSize := k } prev =
      validateHeader env ticks now ends db root h prev := by
  have hfam : familyOf { h with outputMMRSize := o, kernelMMRSize := k } = familyOf h := rfl
  have hv : validateCycle ends' { h with outputMMRSize := o, kernelMMRSize := k } = validateCycle ends h := by
    unfold validateCycle
    have : ends' (familyOf h) { h with outputMMRSize := o, kernelMMRSize := k } = ends (familyOf h) h := by
      funext e; exact hends _ e
    simp only [hfam, this]
  have hp : isPoWValid env ends' db { h with outputMMRSize := o, kernelMMRSize := k } prev =
      isPoWValid env ends db h prev := by
    unfold isPoWValid
    rw [hv]
    rfl
  unfold validateHeader headerPoWValid
  rw [hp]

/-! ## C69: graph sizes -/

/-- **C69, defined outcomes.** For graphs of 24 to 63 bits, with parent and grandparent known and dated in order,
validation of the proof of work gives an answer, except with Cuckarood (version 2, 29 bits; see C70). -/
theorem pow_answers_partial (env : Env) (ends : Family → Header → Nat → Nat × Nat) (db : Bytes → Option Header)
    (h prev grand : Header) (h1 : 24 ≤ h.pow.edgeBits) (h2 : h.pow.edgeBits ≤ 63)
    (hp : db h.prevHash = some prev) (hg : db prev.prevHash = some grand)
    (ht : grand.timestamp < prev.timestamp) (ht0 : 0 ≤ grand.timestamp) (ht1 : prev.timestamp < 2 ^ 63)
    (hc : ¬ (h.version = 2 ∧ h.pow.edgeBits = 29)) :
    ∃ b, isPoWValid env ends db h prev = .ok b := by
  have hcycle : ∃ b, validateCycle ends h = .ok b := by
    unfold validateCycle
    simp only
    cases hf : familyOf h with
    | cuckaroo => exact cuckaroo_answers _ _ _
    | cuckarood =>
      exfalso
      apply hc
      unfold familyOf at hf
      by_cases h29 : h.pow.edgeBits = 29
      · rw [if_pos h29] at hf
        by_cases v1 : h.version = 1
        · rw [if_pos v1] at hf; cases hf
        · rw [if_neg v1] at hf
          by_cases v2 : h.version = 2
          · exact ⟨v2, h29⟩
          · rw [if_neg v2] at hf
            split at hf <;> cases hf
      · rw [if_neg h29] at hf; cases hf
    | cuckaroom => exact cuckaroom_answers _ _
    | cuckarooz => exact cuckarooz_answers _ _
    | cuckatoo => exact cuckatoo_answers _ _ _
  have hnext : ∃ n, nextDifficulty env db h = .ok n := by
    unfold nextDifficulty
    by_cases hv : h.version < 5
    · rw [if_pos hv]
      obtain ⟨i, hi, -⟩ := dma_minimum db h prev hp
      exact ⟨i, hi⟩
    · rw [if_neg hv]
      unfold nextWTEMA
      rw [hp]
      simp only [hg]
      rw [if_neg (by omega)]
      have : toU64 (prev.timestamp - grand.timestamp) = (prev.timestamp - grand.timestamp).toNat := by
        unfold toU64
        rw [Int.emod_eq_of_lt (by omega) (by simp only [U64]; omega)]
      rw [this, if_neg]
      · exact ⟨_, rfl⟩
      · simp only [WTEMA_HALF_LIFE, BLOCK_TIME_SEC, U64]
        omega
  obtain ⟨m, hm, -⟩ := maximum_difficulty_spec h h1 h2
  obtain ⟨n, hn⟩ := hnext
  obtain ⟨b, hb⟩ := hcycle
  unfold isPoWValid
  split
  · exact ⟨_, rfl⟩
  · rw [hm, Res.ok_bind]
    simp only
    split
    · exact ⟨_, rfl⟩
    · rw [hn, Res.ok_bind]
      split
      · exact ⟨_, rfl⟩
      · split
        · exact ⟨_, rfl⟩
        · exact ⟨b, hb⟩

/-- **C69 violated: undefined behaviour on small graphs.** Any header with fewer than 24 edge bits whose claimed total
difficulty exceeds its parent's makes the validator shift by about `2^64`.  Nothing else about the header matters, so
no work is needed to send one. -/
theorem small_graph_violated (env : Env) (ends : Family → Header → Nat → Nat × Nat) (db : Bytes → Option Header)
    (h prev : Header) (heb : h.pow.edgeBits < 24) (htd : prev.totalDifficulty < h.totalDifficulty) :
    isPoWValid env ends db h prev = .ub := by
  unfold isPoWValid
  rw [if_neg (by omega)]
  have : maximumDifficulty h = .ub := by
    unfold maximumDifficulty proofScaling
    rw [if_neg (by omega), scalingDifficulty, if_pos (Or.inl heb)]
    rfl
  rw [this]
  rfl

/-- The whole of header validation reaches it, on the main network. -/
theorem small_graph_header_violated : ∃ ends db root h prev, db h.prevHash = some prev ∧ h.pow.edgeBits = 23 ∧
    validateHeader .mainnet 1 2000 ends db root h prev = .ub := by
  refine ⟨ringEnds, twoHeaders 1000 101000 1000 1060, fun _ => [7], topHeader 23 1120 0, _, rfl, rfl, ?_⟩
  have := small_graph_violated .mainnet ringEnds (twoHeaders 1000 101000 1000 1060) (topHeader 23 1120 0)
    (stubHeader 5 1100001 1060 [2] 101000 0 32) (by decide) (by decide)
  unfold validateHeader
  rw [if_neg (by decide), if_neg (by decide), if_neg (by decide), if_neg (by decide), headerPoWValid,
    if_neg (by decide), this]
  rfl

/-- **C69 violated: graphs of 30 bits are accepted** on the main network, although 29 and 31 or more are the permitted
sizes. -/
theorem edge_bits_violated : ∃ ends db root h prev, db h.prevHash = some prev ∧ h.pow.edgeBits = 30 ∧
    validateHeader .mainnet 1 2000 ends db root h prev = .ok () := by
  refine ⟨ringEnds, twoHeaders 1000 17384 1000 1060, fun _ => [7],
    { topHeader 30 1120 0 with totalDifficulty := 33768 }, _, rfl, rfl, ?_⟩
  rw [header_accepts_iff _ (by decide) _ _ _ _ _ _ _ (by decide) (by decide) (by decide) (by decide)]
  exact ⟨rfl, by decide, by decide, by decide +kernel, ⟨⟨1, 16384, 0, true⟩, by decide +kernel, by decide,
    by decide, rfl, by decide +kernel⟩, by decide +kernel, rfl⟩

/-- **C69, the secondary proof of work has ended**: from version 5 on no header with 29 edge bits is accepted. -/
theorem secondary_retired (env : Env) (ends : Family → Header → Nat → Nat × Nat) (db : Bytes → Option Header)
    (h prev : Header) (hv : 5 ≤ h.version) (h29 : h.pow.edgeBits = 29) (htd : h.totalDifficulty < 2 ^ 64) :
    isPoWValid env ends db h prev ≠ .ok true := by
  rw [Ne, pow_valid_iff env ends db h prev (by omega) (by omega) htd]
  rintro ⟨next, hn, hpos, -, hs, hw, -⟩
  have h0 : next.scaling = 0 := by
    unfold nextDifficulty at hn
    rw [if_neg (by omega)] at hn
    unfold nextWTEMA at hn
    cases hp : db h.prevHash with
    | none => rw [hp] at hn; cases hn
    | some last =>
      rw [hp] at hn
      simp only at hn
      cases hq : db last.prevHash with
      | none => rw [hq] at hn; cases hn
      | some p =>
        rw [hq] at hn
        simp only at hn
        split at hn
        · cases hn
        · split at hn
          · cases hn
          · injection hn with hn; rw [← hn]
  have hw0 : proofWeight h = 0 := by rw [proofWeight, if_pos h29, hs, h0]
  rw [hw0, Nat.zero_mul] at hw
  have hx : 0 < max 1 (beVal (h.pow.hash.take 8)) := Nat.lt_of_lt_of_le Nat.one_pos (Nat.le_max_left _ _)
  have := Nat.mul_pos hpos hx
  omega

example : 5 ≤ (topHeader 29 1120 0).version ∧ (topHeader 29 1120 0).pow.edgeBits = 29 := by decide

example : validateHeader .mainnet 1 1000 ringEnds (twoHeaders 1000 17384 1000 1060) (fun _ => [7])
    { topHeader 32 1120 0 with totalDifficulty := 33768 } (stubHeader 5 1100001 1060 [2] 17384 0 32) = .ok () := by
  rw [header_accepts_iff _ (by decide) _ _ _ _ _ _ _ (by decide) (by decide) (by decide) (by decide)]
  exact ⟨rfl, by decide, by decide, by decide +kernel, ⟨⟨1, 16384, 0, true⟩, by decide +kernel, by decide,
    by decide, rfl, by decide +kernel⟩, by decide +kernel, rfl⟩

end Verif.Props
