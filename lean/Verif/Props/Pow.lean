import Verif.Ser.PowLemmas

/-!
# C04, C05: packing of proof-of-work nonces, and the identity of a header

The hash of a block header is the hash of its proof-of-work cycle (BlockHeader.h:101), so C05 is
about `ProofOfWork`.
-/
namespace Verif.Props

open Verif

/-- Spec: the nonces of a well-formed proof for `eb` edge bits. -/
def ValidNonces (eb : Nat) (nonces : List Nat) : Prop :=
  nonces.length = 42 ∧ ∀ x ∈ nonces, x < 2 ^ eb

theorem unpack_pack {eb : Nat} (h1 : 1 ≤ eb) (h2 : eb ≤ 63) {nonces : List Nat}
    (hv : ValidNonces eb nonces) {bits : Bytes} (hlen : bits.length = cycleBytes eb)
    (hbits : ∀ q, q < 42 * eb → getPackedBit bits q = (nonces.getD (q / eb) 0).testBit (q % eb)) :
    unpackNonces bits eb = .ok nonces := by
  rw [unpackNonces_ok h1 h2 hlen]
  congr 1
  apply List.ext_getElem
  · simp [PROOFSIZE, hv.1]
  · intro n hn1 hn2
    have hn : n < 42 := by simpa [PROOFSIZE] using hn1
    simp only [List.getElem_map, List.getElem_range]
    have hfit : (n + 1) * eb ≤ 8 * bits.length := by
      have : (n + 1) * eb ≤ 42 * eb := Nat.mul_le_mul_right _ hn
      rw [hlen]
      simp only [cycleBytes, PROOFSIZE]
      omega
    apply Nat.eq_of_testBit_eq
    intro j
    rw [(packedNonce_spec hfit).2]
    by_cases hj : j < eb
    · have hq : n * eb + j < 42 * eb := by
        have : (n + 1) * eb ≤ 42 * eb := Nat.mul_le_mul_right _ hn
        rw [Nat.add_mul, Nat.one_mul] at this
        omega
      have e1 : (n * eb + j) / eb = n := by
        rw [Nat.mul_comm, Nat.mul_add_div (by omega), Nat.div_eq_of_lt hj]; simp
      have e2 : (n * eb + j) % eb = j := by
        rw [Nat.mul_comm, Nat.mul_add_mod, Nat.mod_eq_of_lt hj]
      rw [hbits _ hq, e1, e2, List.getD_eq_getElem _ _ hn2]
      simp [hj]
    · have : nonces[n] < 2 ^ j :=
        Nat.lt_of_lt_of_le (hv.2 _ (List.getElem_mem hn2)) (Nat.pow_le_pow_right (by omega) (by omega))
      rw [Nat.testBit_lt_two_pow this]
      simp [hj]

/-- **C04.** Packing then unpacking the nonces of a proof returns them, for every accepted edge-bits
value and all nonces that fit; the packed form has the size the deserializer expects. -/
theorem cycle_roundtrip (eb : Nat) (h1 : 1 ≤ eb) (h2 : eb ≤ 63) (nonces : List Nat)
    (hv : ValidNonces eb nonces) :
    ∃ bits, serCycle eb nonces = .ok bits ∧ bits.length = (42 * eb + 7) / 8 ∧
      unpackNonces bits eb = .ok nonces := by
  obtain ⟨bits, hs, hl, hg⟩ := serCycle_ok (eb := eb) (by omega) (by omega) nonces
    (by simp [PROOFSIZE, hv.1])
  refine ⟨bits, hs, ?_, unpack_pack h1 h2 hv hl (fun q _ => hg q)⟩
  rw [hl]; simp only [cycleBytes, PROOFSIZE]; omega

/-- **C04, on the wire.** A serialized proof of work is read back with the same edge bits, nonces
and hash, at any place of any buffer. -/
theorem pow_roundtrip (H : Bytes → Bytes) (eb : Nat) (h1 : 1 ≤ eb) (h2 : eb ≤ 63)
    (nonces : List Nat) (hv : ValidNonces eb nonces) :
    ∃ p bs, powMake H eb nonces = .ok p ∧ powSer p = .ok bs ∧ Reads (powDeser H) bs p := by
  obtain ⟨bits, hs, hl, hu⟩ := cycle_roundtrip eb h1 h2 nonces hv
  refine ⟨⟨eb, nonces, H bits⟩, beBytes 1 eb ++ bits, by simp [powMake, hs], by simp [powSer, hs], ?_⟩
  unfold powDeser
  refine Reads.bind (reads_u8 (by omega)) ?_
  have hl' : bits.length = cycleBytes eb := by
    rw [hl]; simp only [cycleBytes, PROOFSIZE]; omega
  have : Reads (readBytes (cycleBytes eb) >>= fun bits' =>
      Parser.lift (unpackNonces bits' eb) >>= fun ns =>
        (pure { edgeBits := eb, nonces := ns, hash := H bits' } : Parser Pow))
      (bits ++ []) ⟨eb, nonces, H bits⟩ := by
    refine Reads.bind (reads_bytes hl') ?_
    intro pre post _
    simp [Parser.bind_run, Parser.lift, hu, Res.bind, Parser.pure_run]
  simpa using this

/-- Non-vacuity: 42 distinct 5-bit-and-wider nonces. -/
example : ValidNonces 31 ((List.range 42).map (fun i => 50000000 * i + 7)) := by
  refine ⟨by simp, ?_⟩
  intro x hx
  simp only [List.mem_map, List.mem_range] at hx
  obtain ⟨i, hi, rfl⟩ := hx
  omega

/-- What an accepted proof of work consists of. -/
theorem powDeser_inv {H : Bytes → Bytes} {b b' : Buf} {p : Pow}
    (h : powDeser H b = .ok (p, b')) :
    ∃ bits, p.hash = H bits ∧ bits.length = cycleBytes p.edgeBits ∧
      unpackNonces bits p.edgeBits = .ok p.nonces ∧ 1 ≤ p.edgeBits ∧ p.edgeBits ≤ 63 := by
  unfold powDeser at h
  rw [Parser.bind_run] at h
  cases h1 : readBE 1 b with
  | throw => simp [h1, Res.bind] at h
  | ub => simp [h1, Res.bind] at h
  | ok r1 =>
    obtain ⟨eb, b1⟩ := r1
    simp only [h1, Res.bind, Parser.bind_run] at h
    cases h2 : readBytes (cycleBytes eb) b1 with
    | throw => simp [h2] at h
    | ub => simp [h2] at h
    | ok r2 =>
      obtain ⟨bits, b2⟩ := r2
      simp only [h2, Parser.lift] at h
      cases h3 : unpackNonces bits eb with
      | throw => simp [h3] at h
      | ub => simp [h3] at h
      | ok ns =>
        simp only [h3, Res.ok_bind, Parser.pure_run, Res.ok.injEq, Prod.mk.injEq] at h
        obtain ⟨hp, _⟩ := h
        subst hp
        have hlen : bits.length = cycleBytes eb := by
          unfold readBytes at h2
          split at h2
          · cases h2
          · split at h2
            · rename_i hle
              injection h2 with h2
              injection h2 with h2a h2b
              rw [← h2a]; simp; omega
            · cases h2
        refine ⟨bits, rfl, hlen, h3, ?_, ?_⟩
        · show 1 ≤ eb
          unfold unpackNonces at h3
          by_contra hc
          rw [if_pos (by omega)] at h3
          cases h3
        · show eb ≤ 63
          unfold unpackNonces at h3
          by_contra hc
          rw [if_pos (by omega)] at h3
          cases h3

/-- The bits of a packed vector below `42 * eb` are determined by the nonces. -/
theorem bits_of_nonces {bits bits' : Bytes} {eb : Nat} {ns : List Nat} (h1 : 1 ≤ eb) (h2 : eb ≤ 63)
    (hl : bits.length = cycleBytes eb) (hl' : bits'.length = cycleBytes eb)
    (hu : unpackNonces bits eb = .ok ns) (hu' : unpackNonces bits' eb = .ok ns)
    (q : Nat) (hq : q < 42 * eb) : getPackedBit bits q = getPackedBit bits' q := by
  rw [unpackNonces_ok h1 h2 hl] at hu
  rw [unpackNonces_ok h1 h2 hl'] at hu'
  have heq := hu.trans hu'.symm
  injection heq with heq
  have hn : q / eb < 42 := Nat.div_lt_of_lt_mul (by rw [Nat.mul_comm]; exact hq)
  have hmod : q % eb < eb := Nat.mod_lt _ h1
  have hfit : (q / eb + 1) * eb ≤ 8 * cycleBytes eb := by
    have : (q / eb + 1) * eb ≤ 42 * eb := Nat.mul_le_mul_right _ hn
    simp only [cycleBytes, PROOFSIZE]
    omega
  have hpn : packedNonce bits eb (q / eb) = packedNonce bits' eb (q / eb) := by
    have := List.map_inj_left.mp heq (q / eb) (by simpa [PROOFSIZE] using hn)
    exact this
  have s1 := (packedNonce_spec (bits := bits) (eb := eb) (n := q / eb) (by rw [hl]; exact hfit)).2 (q % eb)
  have s2 := (packedNonce_spec (bits := bits') (eb := eb) (n := q / eb) (by rw [hl']; exact hfit)).2 (q % eb)
  rw [hpn, s2] at s1
  have hdm : q / eb * eb + q % eb = q := by rw [Nat.mul_comm]; exact Nat.div_add_mod q eb
  simp only [hmod, decide_true, Bool.true_and, hdm] at s1
  exact s1.symm

theorem bytes_ext_of_bits {bits bits' : Bytes} (hl : bits.length = bits'.length)
    (h : ∀ q, getPackedBit bits q = getPackedBit bits' q) : bits = bits' := by
  apply List.ext_getElem hl
  intro i h1 h2
  apply UInt8.toNat_inj.mp
  apply Nat.eq_of_testBit_eq
  intro j
  by_cases hj : j < 8
  · have := h (8 * i + j)
    unfold getPackedBit at this
    have e1 : (8 * i + j) / 8 = i := by omega
    have e2 : (8 * i + j) % 8 = j := by omega
    rw [e1, e2, List.getD_eq_getElem _ _ h1, List.getD_eq_getElem _ _ h2] at this
    exact this
  · have hp : (256 : Nat) ≤ 2 ^ j := by
      calc (256 : Nat) = 2 ^ 8 := rfl
        _ ≤ 2 ^ j := Nat.pow_le_pow_right (by omega) (by omega)
    rw [Nat.testBit_lt_two_pow (Nat.lt_of_lt_of_le (UInt8.toNat_lt _) hp),
      Nat.testBit_lt_two_pow (Nat.lt_of_lt_of_le (UInt8.toNat_lt _) hp)]

/-- **C05 (partial).** For edge-bits values divisible by four (no padding bits: C24, C28, C32, …) two
accepted proofs with the same content have the same hash.  The full statement is for every edge-bits
value; see `pow_hash_violated`. -/
theorem pow_hash_canonical_partial (H : Bytes → Bytes) (b₁ b₂ b₁' b₂' : Buf) (p₁ p₂ : Pow)
    (h₁ : powDeser H b₁ = .ok (p₁, b₁')) (h₂ : powDeser H b₂ = .ok (p₂, b₂'))
    (heb : p₁.edgeBits = p₂.edgeBits) (hns : p₁.nonces = p₂.nonces) (h4 : p₁.edgeBits % 4 = 0) :
    p₁.hash = p₂.hash := by
  obtain ⟨bits₁, hh₁, hl₁, hu₁, hlo, hhi⟩ := powDeser_inv h₁
  obtain ⟨bits₂, hh₂, hl₂, hu₂, _, _⟩ := powDeser_inv h₂
  rw [← heb] at hl₂ hu₂
  rw [← hns] at hu₂
  have hlen : bits₁.length = bits₂.length := by omega
  have : bits₁ = bits₂ := by
    apply bytes_ext_of_bits hlen
    intro q
    by_cases hq : q < 42 * p₁.edgeBits
    · exact bits_of_nonces hlo hhi hl₁ hl₂ hu₁ hu₂ q hq
    · have hout : bits₁.length ≤ q / 8 := by
        rw [hl₁]; simp only [cycleBytes, PROOFSIZE]; omega
      unfold getPackedBit
      rw [List.getD_eq_default _ _ hout, List.getD_eq_default _ _ (by omega)]
  rw [hh₁, hh₂, this]

/-- **C05 (partial), zero padding.** Whatever the edge bits, an accepted proof whose padding bits are
zero has the hash of its content (`powMake`), so it is unchanged by storing and reloading. -/
theorem pow_hash_of_content_partial (H : Bytes → Bytes) (bits : Bytes) (eb : Nat) (ns : List Nat)
    (h1 : 1 ≤ eb) (h2 : eb ≤ 63) (hl : bits.length = (42 * eb + 7) / 8)
    (hu : unpackNonces bits eb = .ok ns)
    (hpad : ∀ q, 42 * eb ≤ q → getPackedBit bits q = false) :
    powMake H eb ns = .ok ⟨eb, ns, H bits⟩ := by
  have hl' : bits.length = cycleBytes eb := by
    rw [hl]; simp only [cycleBytes, PROOFSIZE]; omega
  have hns : ns = (List.range PROOFSIZE).map (packedNonce bits eb) := by
    rw [unpackNonces_ok h1 h2 hl'] at hu
    injection hu with hu; exact hu.symm
  have hlen : ns.length = 42 := by rw [hns]; simp [PROOFSIZE]
  have hv : ValidNonces eb ns := by
    refine ⟨hlen, ?_⟩
    intro x hx
    rw [hns] at hx
    simp only [List.mem_map, List.mem_range] at hx
    obtain ⟨n, hn, rfl⟩ := hx
    have hfit : (n + 1) * eb ≤ 8 * bits.length := by
      have : (n + 1) * eb ≤ PROOFSIZE * eb := Nat.mul_le_mul_right _ hn
      rw [hl']; simp only [cycleBytes, PROOFSIZE] at *; omega
    apply Nat.lt_pow_two_of_testBit
    intro j hj
    rw [(packedNonce_spec hfit).2]
    simp; omega
  obtain ⟨bits', hs', hl2, hu'⟩ := cycle_roundtrip eb h1 h2 ns hv
  have hl2' : bits'.length = cycleBytes eb := by
    rw [hl2]; simp only [cycleBytes, PROOFSIZE]; omega
  obtain ⟨bits'', hs'', _, hg⟩ := serCycle_ok (eb := eb) (by omega) (by omega) ns
    (by simp [PROOFSIZE, hv.1])
  rw [hs'] at hs''
  injection hs'' with hs''
  subst hs''
  have : bits' = bits := by
    apply bytes_ext_of_bits (by omega)
    intro q
    by_cases hq : q < 42 * eb
    · exact bits_of_nonces h1 h2 hl2' hl' hu' hu q hq
    · rw [hpad q (by omega), hg]
      have : ns.length ≤ q / eb := by
        rw [hlen]
        exact (Nat.le_div_iff_mul_le h1).mpr (by omega)
      rw [List.getD_eq_default _ _ this]
      simp
  simp [powMake, hs', this]

/-- **C05 violated.** For every edge-bits value not divisible by four (C29, C31 and all test-network
sizes) and every well-formed proof, with any collision-free hash there are two accepted encodings of
the same content whose hashes differ: one block header has at least two identities, and the second is
not the hash recomputed from its stored content. -/
theorem pow_hash_violated (H : Bytes → Bytes) (hH : Function.Injective H) (eb : Nat) (h1 : 1 ≤ eb)
    (h2 : eb ≤ 63) (h4 : eb % 4 ≠ 0) (nonces : List Nat) (hv : ValidNonces eb nonces) :
    ∃ bs₁ bs₂ h₁ h₂, Reads (powDeser H) bs₁ ⟨eb, nonces, h₁⟩ ∧
      Reads (powDeser H) bs₂ ⟨eb, nonces, h₂⟩ ∧ powMake H eb nonces = .ok ⟨eb, nonces, h₁⟩ ∧
      h₁ ≠ h₂ := by
  obtain ⟨bits, hs, hl, hg⟩ := serCycle_ok (eb := eb) (by omega) (by omega) nonces
    (by simp [PROOFSIZE, hv.1])
  have hcb : cycleBytes eb = (eb * 42 + 7) / 8 := rfl
  have hmod8 : eb * 42 % 8 ≠ 0 := by omega
  have hgap : 42 * eb + 1 ≤ 8 * cycleBytes eb := by
    have := Nat.div_add_mod (eb * 42 + 7) 8
    have := Nat.mod_lt (eb * 42 + 7) (show 8 > 0 by omega)
    by_contra hc
    have : (eb * 42) % 8 = 0 := by omega
    exact hmod8 this
  have hp : (8 * cycleBytes eb - 1) / 8 < bits.length := by rw [hl]; omega
  obtain ⟨bits', hs', hl', hg'⟩ := setPackedBit_ok hp
  have hread : ∀ bs : Bytes, bs.length = cycleBytes eb → unpackNonces bs eb = .ok nonces →
      Reads (powDeser H) (beBytes 1 eb ++ bs) ⟨eb, nonces, H bs⟩ := by
    intro bs hlen hu
    unfold powDeser
    refine Reads.bind (reads_u8 (by omega)) ?_
    have : Reads (readBytes (cycleBytes eb) >>= fun bits' =>
        Parser.lift (unpackNonces bits' eb) >>= fun ns =>
          (pure { edgeBits := eb, nonces := ns, hash := H bits' } : Parser Pow))
        (bs ++ []) ⟨eb, nonces, H bs⟩ := by
      refine Reads.bind (reads_bytes hlen) ?_
      intro pre post _
      simp [Parser.bind_run, Parser.lift, hu, Res.bind, Parser.pure_run]
    simpa using this
  have hu : unpackNonces bits eb = .ok nonces := unpack_pack h1 h2 hv hl (fun q _ => hg q)
  have hu' : unpackNonces bits' eb = .ok nonces := by
    apply unpack_pack h1 h2 hv (by omega)
    intro q hq
    rw [hg', hg]
    have : q ≠ 8 * cycleBytes eb - 1 := by omega
    simp [this]
  refine ⟨_, _, _, _, hread bits hl hu, hread bits' (by omega) hu', by simp [powMake, hs], ?_⟩
  intro hc
  have hbb := hH hc
  have hb1 : getPackedBit bits (8 * cycleBytes eb - 1) = false := by
    rw [hg]
    have : nonces.length ≤ (8 * cycleBytes eb - 1) / eb := by
      rw [hv.1]
      exact (Nat.le_div_iff_mul_le h1).mpr (by omega)
    rw [List.getD_eq_default _ _ this]
    simp
  have hb2 : getPackedBit bits' (8 * cycleBytes eb - 1) = true := by
    rw [hg']; simp
  rw [hbb, hb2] at hb1
  cases hb1

/-- Non-vacuity: C31 with the nonces of the C04 example, and an injective hash. -/
example : Function.Injective (id : Bytes → Bytes) ∧ 31 % 4 ≠ 0 ∧
    ValidNonces 31 (List.replicate 42 5) := by
  refine ⟨Function.injective_id, by decide, by simp, ?_⟩
  intro x hx
  rw [List.eq_of_mem_replicate hx]
  omega

end Verif.Props
