import Verif.PoW.Sip
import Verif.Props.Cuckoo
import Verif.Props.Compact
import Mathlib.Data.Nat.Bitwise

/-!
# C112: the hashes that nodes must agree on are SipHash

The specification is written with words of 64 bits (`BitVec 64`, `rotateLeft`) after the paper of Aumasson and Bernstein and the
description of the Cuckoo graphs of Grin; it uses nothing of the model.
-/
namespace Verif.Props

open Verif Verif.PoW Verif.Tx

/-! ## The specification -/

/-- The internal state of SipHash. -/
abbrev SipState := BitVec 64 × BitVec 64 × BitVec 64 × BitVec 64

/-- `SipRound` of the paper, with its last rotation of `v3` as a parameter (21 in the paper). -/
def sipRound (r : Nat) : SipState → SipState
  | (v0, v1, v2, v3) =>
    let v0 := v0 + v1
    let v1 := v1.rotateLeft 13
    let v1 := v1 ^^^ v0
    let v0 := v0.rotateLeft 32
    let v2 := v2 + v3
    let v3 := v3.rotateLeft 16
    let v3 := v3 ^^^ v2
    let v0 := v0 + v3
    let v3 := v3.rotateLeft r
    let v3 := v3 ^^^ v0
    let v2 := v2 + v1
    let v1 := v1.rotateLeft 17
    let v1 := v1 ^^^ v2
    let v2 := v2.rotateLeft 32
    (v0, v1, v2, v3)

/-- Bytes as a number, the lowest first. -/
def lowFirst : Bytes → Nat
  | [] => 0
  | b :: l => b.toNat + 256 * lowFirst l

/-- A message is followed by zeros and its length modulo 256, so that it consists of words of eight bytes. -/
def sipPadded (m : Bytes) : Bytes := m ++ List.replicate (7 - m.length % 8) 0 ++ [UInt8.ofNat m.length]

/-- The words of the padded message. -/
def sipWords (m : Bytes) : List (BitVec 64) :=
  (List.range (m.length / 8 + 1)).map fun i => BitVec.ofNat 64 (lowFirst (((sipPadded m).drop (8 * i)).take 8))

/-- Compression of a word: into `v3`, `c` rounds, into `v0`. -/
def sipCompress (r c : Nat) (s : SipState) (w : BitVec 64) : SipState :=
  let t := (sipRound r)^[c] (s.1, s.2.1, s.2.2.1, s.2.2.2 ^^^ w)
  (t.1 ^^^ w, t.2)

/-- Finalization: 255 into `v2`, `d` rounds. -/
def sipFinish (r d : Nat) (s : SipState) : SipState := (sipRound r)^[d] (s.1, s.2.1, s.2.2.1 ^^^ 255#64, s.2.2.2)

/-- The exclusive or of the four words. -/
def sipDigest (s : SipState) : BitVec 64 := s.1 ^^^ s.2.1 ^^^ s.2.2.1 ^^^ s.2.2.2

/-- SipHash-c-d of the paper. -/
def sipSpec (c d : Nat) (k0 k1 : BitVec 64) (m : Bytes) : BitVec 64 :=
  let s : SipState := (k0 ^^^ 0x736f6d6570736575#64, k1 ^^^ 0x646f72616e646f6d#64, k0 ^^^ 0x6c7967656e657261#64, k1 ^^^ 0x7465646279746573#64)
  sipDigest (sipFinish 21 d ((sipWords m).foldl (sipCompress 21 c) s))

/-- One nonce into a state: compression with two rounds and finalization with four. -/
def sipNonce (r : Nat) (s : SipState) (n : Nat) : SipState := sipFinish r 4 (sipCompress r 2 s (BitVec.ofNat 64 n))

/-- The hashes of consecutive nonces of a block, without starting again: the state after `n` nonces from `base` on. -/
def blockState (r : Nat) (keys : SipState) (base : Nat) : Nat → SipState
  | 0 => keys
  | n + 1 => sipNonce r (blockState r keys base n) (base + n)

/-- The hash of edge `e`, hashed in blocks of 64 edges: combined with the hash of the last edge of its block, or with those of all
later edges of the block. -/
def edgeHash (r : Nat) (all : Bool) (keys : SipState) (e : Nat) : BitVec 64 :=
  let own := fun i => sipDigest (blockState r keys (e / 64 * 64) (i + 1))
  if all then ((List.range' (e % 64) (64 - e % 64)).map own).foldl (· ^^^ ·) 0
  else if e % 64 = 63 then own 63 else own (e % 64) ^^^ own 63

/-- The endpoints given by a hash: its low half and its high half, reduced to `bits` bits. -/
def endsOf (bits : Nat) (w : BitVec 64) : Nat × Nat := (w.toNat % 2 ^ bits, w.toNat / 2 ^ 32 % 2 ^ bits)

/-- The graph of each family: the endpoints of edge `e` of the graph with the given keys. -/
def graph (family : Family) (edgeBits : Nat) (keys : SipState) (e : Nat) : Nat × Nat :=
  match family with
  | .cuckatoo => ((sipDigest (sipNonce 21 keys (2 * e))).toNat % 2 ^ edgeBits, (sipDigest (sipNonce 21 keys (2 * e + 1))).toNat % 2 ^ edgeBits)
  | .cuckaroo => endsOf edgeBits (edgeHash 21 false keys e)
  | .cuckarood => endsOf 28 (edgeHash 25 false keys e)
  | .cuckaroom => endsOf 29 (edgeHash 21 true keys e)
  | .cuckarooz => endsOf 30 (edgeHash 21 true keys e)

/-- The four words of a digest. -/
def digestWords (d : Bytes) : SipState :=
  (BitVec.ofNat 64 (lowFirst (d.take 8)), BitVec.ofNat 64 (lowFirst ((d.drop 8).take 8)),
    BitVec.ofNat 64 (lowFirst ((d.drop 16).take 8)), BitVec.ofNat 64 (lowFirst ((d.drop 24).take 8)))

/-! ## Helpers -/

private def up (s : Sip) : SipState := (s.v0.toBitVec, s.v1.toBitVec, s.v2.toBitVec, s.v3.toBitVec)

private theorem rotl13 (x : UInt64) : (rotl x 13).toBitVec = x.toBitVec.rotateLeft 13 := by rw [rotl, BitVec.rotateLeft_def]; simp
private theorem rotl16 (x : UInt64) : (rotl x 16).toBitVec = x.toBitVec.rotateLeft 16 := by rw [rotl, BitVec.rotateLeft_def]; simp
private theorem rotl17 (x : UInt64) : (rotl x 17).toBitVec = x.toBitVec.rotateLeft 17 := by rw [rotl, BitVec.rotateLeft_def]; simp
private theorem rotl21 (x : UInt64) : (rotl x 21).toBitVec = x.toBitVec.rotateLeft 21 := by rw [rotl, BitVec.rotateLeft_def]; simp
private theorem rotl25 (x : UInt64) : (rotl x 25).toBitVec = x.toBitVec.rotateLeft 25 := by rw [rotl, BitVec.rotateLeft_def]; simp
private theorem rotl32 (x : UInt64) : (rotl x 32).toBitVec = x.toBitVec.rotateLeft 32 := by rw [rotl, BitVec.rotateLeft_def]; simp

/-- The rotations in use. -/
private def Rot (rotE : UInt64) (r : Nat) : Prop := ∀ x, (rotl x rotE).toBitVec = x.toBitVec.rotateLeft r

private theorem up_round {rotE : UInt64} {r : Nat} (h : Rot rotE r) (s : Sip) : up (s.round rotE) = sipRound r (up s) := by
  simp only [up, Sip.round, sipRound, UInt64.toBitVec_add, UInt64.toBitVec_xor, rotl13, rotl16, rotl17, rotl32, h _]

private theorem up_rounds {rotE : UInt64} {r : Nat} (h : Rot rotE r) : ∀ (n : Nat) (s : Sip), up (Sip.rounds rotE n s) = (sipRound r)^[n] (up s)
  | 0, _ => rfl
  | n + 1, s => by rw [Sip.rounds, up_rounds h n, up_round h, Function.iterate_succ_apply]

private theorem up_absorb (c : Nat) (s : Sip) (w : UInt64) : up (Sip.absorb c s w) = sipCompress 21 c (up s) w.toBitVec := by
  have := up_rounds rotl21 c { s with v3 := s.v3 ^^^ w }
  simp only [Sip.absorb, sipCompress]
  generalize Sip.rounds 21 c _ = t at *
  rw [show ((up s).1, (up s).2.1, (up s).2.2.1, (up s).2.2.2 ^^^ w.toBitVec) = up { s with v3 := s.v3 ^^^ w } from rfl, ← this]
  rfl

private theorem up_finish {rotE : UInt64} {r : Nat} (h : Rot rotE r) (d : Nat) (s : Sip) :
    up (Sip.rounds rotE d { s with v2 := s.v2 ^^^ 0xff }) = sipFinish r d (up s) := by
  rw [up_rounds h]; rfl

private theorem up_hash {rotE : UInt64} {r : Nat} (h : Rot rotE r) (s : Sip) (n : UInt64) :
    up (s.hash24 rotE n) = sipFinish r 4 (sipCompress r 2 (up s) n.toBitVec) := by
  simp only [Sip.hash24, up_round h]
  have e : ∀ t : Sip, up { v0 := t.v0 ^^^ n, v1 := t.v1, v2 := t.v2 ^^^ 0xff, v3 := t.v3 } =
      ((up t).1 ^^^ n.toBitVec, (up t).2.1, (up t).2.2.1 ^^^ 255#64, (up t).2.2.2) := fun t => rfl
  have e3 : up { v0 := s.v0, v1 := s.v1, v2 := s.v2, v3 := s.v3 ^^^ n } =
      ((up s).1, (up s).2.1, (up s).2.2.1, (up s).2.2.2 ^^^ n.toBitVec) := rfl
  rw [e, up_round h, up_round h, e3]
  simp only [sipFinish, sipCompress, Function.iterate_succ_apply, Function.iterate_zero_apply]

private theorem up_hash24 {rotE : UInt64} {r : Nat} (h : Rot rotE r) (s : Sip) (n : Nat) :
    up (s.hash24 rotE (UInt64.ofNat n)) = sipNonce r (up s) n := up_hash h s _

private theorem up_lanes (s : Sip) : s.lanes.toBitVec = sipDigest (up s) := by
  simp only [Sip.lanes, UInt64.toBitVec_xor, sipDigest, up, BitVec.xor_assoc]

private theorem lowFirst_append (a b : Bytes) : lowFirst (a ++ b) = lowFirst a + 256 ^ a.length * lowFirst b := by
  induction a with
  | nil => simp [lowFirst]
  | cons x a ih => simp only [List.cons_append, lowFirst, ih, List.length_cons, Nat.pow_succ]; grind

private theorem lowFirst_lt (a : Bytes) : lowFirst a < 256 ^ a.length := by
  induction a with
  | nil => simp [lowFirst]
  | cons x a ih => have := x.toNat_lt; simp only [lowFirst, List.length_cons, Nat.pow_succ]; omega

private theorem beVal_reverse (a : Bytes) : beVal a.reverse = lowFirst a := by
  induction a with
  | nil => rfl
  | cons x a ih => rw [List.reverse_cons, beVal_append_single, ih, lowFirst]; omega

private theorem word64_up (bs : Bytes) (i : Nat) : (word64 bs i).toBitVec = BitVec.ofNat 64 (lowFirst ((bs.drop i).take 8)) := by
  rw [word64, beVal_reverse]; rfl

private theorem lowFirst_take (p : Bytes) (n : Nat) (h : n < p.length) :
    lowFirst (p.take (n + 1)) = lowFirst (p.take n) + 256 ^ n * (p.getD n 0).toNat := by
  rw [List.take_add_one, lowFirst_append, List.length_take, Nat.min_eq_left (by omega), List.getElem?_eq_getElem h,
    List.getD_eq_getElem?_getD, List.getElem?_eq_getElem h]
  simp [lowFirst]

private theorem tailWord_val (p : Bytes) : ∀ (n a : Nat) (mi : UInt64), n ≤ p.length → n ≤ 7 → mi.toNat = 256 ^ n * a →
    (tailWord p n mi).toNat = mi.toNat + lowFirst (p.take n)
  | 0, _, _, _, _, _ => by simp [tailWord, lowFirst]
  | n + 1, a, mi, hl, h7, hm => by
    have hb : (p.getD n 0).toNat < 256 := (p.getD n 0).toNat_lt
    have hsh : ((p.getD n 0).toUInt64 <<< UInt64.ofNat (8 * n)).toNat = 256 ^ n * (p.getD n 0).toNat := by
      have e8 : (UInt64.ofNat (8 * n)).toNat % 64 = 8 * n := by
        rw [UInt64.toNat_ofNat']
        omega
      rw [UInt64.toNat_shiftLeft, e8, UInt8.toNat_toUInt64, Nat.shiftLeft_eq, Nat.pow_mul, show 2 ^ 8 = 256 from rfl, Nat.mul_comm]
      apply Nat.mod_eq_of_lt
      calc 256 ^ n * (p.getD n 0).toNat < 256 ^ n * 256 := by
            exact Nat.mul_lt_mul_of_pos_left hb (Nat.pow_pos (by decide))
        _ = 256 ^ (n + 1) := by rw [Nat.pow_succ]
        _ ≤ 256 ^ 8 := Nat.pow_le_pow_right (by decide) (by omega)
        _ = 2 ^ 64 := by decide
    have hor : (mi ||| (p.getD n 0).toUInt64 <<< UInt64.ofNat (8 * n)).toNat = mi.toNat + 256 ^ n * (p.getD n 0).toNat := by
      rw [UInt64.toNat_or, hsh, hm]
      have e : 256 ^ (n + 1) = 2 ^ (8 * (n + 1)) := by rw [Nat.pow_mul]
      rw [e, Nat.two_pow_add_eq_or_of_lt]
      calc 256 ^ n * (p.getD n 0).toNat < 256 ^ n * 256 := Nat.mul_lt_mul_of_pos_left hb (Nat.pow_pos (by decide))
        _ = 2 ^ (8 * (n + 1)) := by rw [← e, Nat.pow_succ]
    rw [tailWord, tailWord_val p n (256 * a + (p.getD n 0).toNat) _ (by omega) (by omega)
      (by rw [hor, hm, Nat.pow_succ, Nat.mul_add, Nat.mul_assoc]), hor, lowFirst_take p n (by omega)]
    omega

private theorem padded_length (m : Bytes) : (sipPadded m).length = 8 * (m.length / 8 + 1) := by
  simp [sipPadded]; omega

private theorem word_full (m : Bytes) {i : Nat} (h : i < m.length / 8) :
    ((sipPadded m).drop (8 * i)).take 8 = (m.drop (8 * i)).take 8 := by
  rw [sipPadded, List.append_assoc, List.drop_append_of_le_length (by omega), List.take_append_of_le_length (by rw [List.length_drop]; omega)]

private theorem word_last (m : Bytes) :
    BitVec.ofNat 64 (lowFirst (((sipPadded m).drop (8 * (m.length / 8))).take 8)) =
      (tailWord (m.drop (8 * (m.length / 8))) (m.length - 8 * (m.length / 8)) (UInt64.ofNat m.length <<< 56)).toBitVec := by
  apply BitVec.eq_of_toNat_eq
  have hl : (m.drop (8 * (m.length / 8))).length = m.length % 8 := by rw [List.length_drop]; omega
  have h56 : (UInt64.ofNat m.length <<< 56).toNat = 256 ^ 7 * (m.length % 256) := by
    rw [UInt64.toNat_shiftLeft, UInt64.toNat_ofNat', Nat.shiftLeft_eq, show (56 : UInt64).toNat % 64 = 56 from rfl]
    have : (2 : Nat) ^ 64 = 18446744073709551616 := by decide
    have : (2 : Nat) ^ 56 = 72057594037927936 := by decide
    have : (256 : Nat) ^ 7 = 72057594037927936 := by decide
    omega
  have hdvd : ∃ a, (UInt64.ofNat m.length <<< 56).toNat = 256 ^ (m.length - 8 * (m.length / 8)) * a := by
    refine ⟨256 ^ (7 - (m.length - 8 * (m.length / 8))) * (m.length % 256), ?_⟩
    rw [h56, ← Nat.mul_assoc, ← Nat.pow_add, show m.length - 8 * (m.length / 8) + (7 - (m.length - 8 * (m.length / 8))) = 7 by omega]
  obtain ⟨a, ha⟩ := hdvd
  have := tailWord_val (m.drop (8 * (m.length / 8))) (m.length - 8 * (m.length / 8)) a _ (by omega) (by omega) ha
  rw [BitVec.toNat_ofNat, UInt64.toNat_toBitVec, this, h56]
  have hz : ∀ k, lowFirst (List.replicate k 0) = 0 := by
    intro k; induction k with
    | zero => rfl
    | succ k ih => simp [List.replicate_succ, lowFirst, ih]
  rw [List.take_of_length_le (by rw [List.length_drop, padded_length]; omega), sipPadded, List.append_assoc,
    List.drop_append_of_le_length (by omega), lowFirst_append, lowFirst_append, hz, hl, List.length_replicate, Nat.zero_add, ← Nat.mul_assoc,
    ← Nat.pow_add, show m.length % 8 + (7 - m.length % 8) = 7 by omega, List.take_of_length_le (by rw [hl]; omega)]
  have hlt := lowFirst_lt (m.drop (8 * (m.length / 8)))
  rw [hl] at hlt
  have hlt7 : lowFirst (m.drop (8 * (m.length / 8))) < 256 ^ 7 :=
    Nat.lt_of_lt_of_le hlt (Nat.pow_le_pow_right (by decide) (by omega))
  have e1 : lowFirst [UInt8.ofNat m.length] = m.length % 256 := by simp [lowFirst]
  rw [e1]
  have : (2 : Nat) ^ 64 = 18446744073709551616 := by decide
  have : (256 : Nat) ^ 7 = 72057594037927936 := by decide
  generalize lowFirst _ = x at *
  have := Nat.mod_lt m.length (show 0 < 256 by decide)
  generalize m.length % 256 = y at *
  rw [Nat.mod_eq_of_lt] <;> omega

private theorem fill_length (rotE e0 : UInt64) : ∀ (n i : Nat) (s : Sip), (fillBlock rotE e0 n i s).length = n
  | 0, _, _ => rfl
  | n + 1, i, s => by rw [fillBlock]; simp [fill_length rotE e0 n]

private theorem fill_get {rotE : UInt64} {r : Nat} (h : Rot rotE r) (keys : SipState) (base : Nat) : ∀ (n i : Nat) (s : Sip) (j : Nat),
    up s = blockState r keys base i → j < n →
    ((fillBlock rotE (UInt64.ofNat base) n i s).getD j 0).toBitVec = sipDigest (blockState r keys base (i + j + 1))
  | 0, _, _, _, _, hj => by omega
  | n + 1, i, s, j, hs, hj => by
    have hu : up (s.hash24 rotE (UInt64.ofNat base + UInt64.ofNat i)) = blockState r keys base (i + 1) := by
      rw [← UInt64.ofNat_add, up_hash24 h, hs, blockState]
    rw [fillBlock]
    cases j with
    | zero =>
      rw [List.getD_cons_zero, up_lanes, hu]
    | succ j =>
      rw [List.getD_cons_succ, fill_get h keys base n (i + 1) _ j hu (by omega), show i + 1 + j + 1 = i + (j + 1) + 1 by omega]

private theorem getD_set (l : List UInt64) (i j : Nat) (x : UInt64) (h : i < l.length) :
    (l.set i x).getD j 0 = if i = j then x else l.getD j 0 := by
  rw [List.getD_eq_getElem?_getD, List.getElem?_set, List.getD_eq_getElem?_getD]
  split
  · subst_vars; simp
  · rfl

private theorem xorLast_get (buf : List UInt64) (hl : buf.length = 64) (j : Nat) :
    (xorLast buf).getD j 0 = if j < 63 then buf.getD j 0 ^^^ buf.getD 63 0 else buf.getD j 0 := by
  have : ∀ k ≤ 63, ((List.range k).foldl (fun b i => b.set i (b.getD i 0 ^^^ buf.getD 63 0)) buf).length = 64 ∧
      ∀ j, ((List.range k).foldl (fun b i => b.set i (b.getD i 0 ^^^ buf.getD 63 0)) buf).getD j 0 =
        if j < k then buf.getD j 0 ^^^ buf.getD 63 0 else buf.getD j 0 := by
    intro k
    induction k with
    | zero => intro _; exact ⟨hl, fun j => by simp⟩
    | succ k ih =>
      intro hk
      obtain ⟨h1, h2⟩ := ih (by omega)
      rw [List.range_succ, List.foldl_append, List.foldl_cons, List.foldl_nil]
      generalize List.foldl _ buf (List.range k) = b at *
      refine ⟨by simp [h1], fun j => ?_⟩
      rw [getD_set _ _ _ _ (by omega), h2, h2]
      by_cases hjk : k = j
      · subst hjk; rw [if_pos rfl, if_neg (by omega), if_pos (by omega)]
      · rw [if_neg hjk]
        by_cases hlt : j < k
        · rw [if_pos hlt, if_pos (by omega)]
        · rw [if_neg hlt, if_neg (by omega)]
  exact (this 63 (by omega)).2 j

private theorem xorDown_get : ∀ (n : Nat) (buf : List UInt64) (f : Nat → BitVec 64), n < buf.length →
    (∀ j ≤ n, (buf.getD j 0).toBitVec = f j) → ∀ j ≤ n,
    ((xorDown n buf).getD j 0).toBitVec = ((List.range' j (n + 1 - j)).map f).foldl (· ^^^ ·) 0
  | 0, buf, f, hl, hf, j, hj => by
    obtain rfl : j = 0 := by omega
    rw [xorDown, hf 0 (by omega)]
    simp
  | n + 1, buf, f, hl, hf, j, hj => by
    rw [xorDown]
    have hkeep : ∀ (m : Nat) (b : List UInt64), m < b.length → ∀ j > m, (xorDown m b).getD j 0 = b.getD j 0 := by
      intro m
      induction m with
      | zero => intro b _ j _; rfl
      | succ m ih => intro b hb j hj; rw [xorDown, ih _ (by simp; omega) j (by omega), getD_set _ _ _ _ (by omega), if_neg (by omega)]
    by_cases hj1 : j = n + 1
    · subst hj1
      rw [hkeep n _ (by simp; omega) _ (by omega), getD_set _ _ _ _ (by omega), if_neg (by omega), hf _ (by omega)]
      simp
    · rw [xorDown_get n _ (fun i => if i = n then f n ^^^ f (n + 1) else f i) (by simp; omega) (fun i hi => ?_) j (by omega)]
      · rw [show n + 1 + 1 - j = (n - j) + 1 + 1 by omega, show n + 1 - j = (n - j) + 1 by omega]
        simp only [List.range'_concat, List.map_append, List.foldl_append, List.map_cons, List.map_nil, List.foldl_cons, List.foldl_nil, Nat.one_mul]
        rw [show j + (n - j) = n by omega, show j + (n - j + 1) = n + 1 by omega, if_pos rfl, BitVec.xor_assoc]
        congr 1
        congr 1
        apply List.map_congr_left
        intro i hi
        rw [List.mem_range'_1] at hi
        rw [if_neg (by omega)]
      · rw [getD_set _ _ _ _ (by omega)]
        by_cases hin : n = i
        · subst hin; rw [if_pos rfl, if_pos rfl, UInt64.toBitVec_xor, hf n (by omega), hf (n + 1) (by omega)]
        · rw [if_neg hin, if_neg (Ne.symm hin), hf i (by omega)]

private theorem edge_low (e : Nat) : (UInt64.ofNat e &&& 63).toNat = e % 64 := by
  rw [UInt64.toNat_and, UInt64.toNat_ofNat', show (63 : UInt64).toNat = 2 ^ 6 - 1 from rfl, Nat.and_two_pow_sub_one_eq_mod]
  omega

private theorem edge_high (e : Nat) : UInt64.ofNat e &&& ~~~63 = UInt64.ofNat (e / 64 * 64) := by
  apply UInt64.toNat_inj.1
  have hm : (~~~63 : UInt64).toNat = 2 ^ 64 - (63 + 1) := by decide
  have key : ∀ x < 2 ^ 64, x &&& (2 ^ 64 - (63 + 1)) = x / 64 * 64 := by
    intro x hx
    apply Nat.eq_of_testBit_eq
    intro i
    rw [Nat.testBit_and, Nat.testBit_two_pow_sub_succ (by decide), show (63 : Nat) = 2 ^ 6 - 1 from rfl, Nat.testBit_two_pow_sub_one,
      show x / 64 * 64 = (x >>> 6) <<< 6 by rw [Nat.shiftLeft_eq, Nat.shiftRight_eq_div_pow], Nat.testBit_shiftLeft, Nat.testBit_shiftRight]
    by_cases h6 : i < 6
    · simp [h6]
    · by_cases h64 : i < 64
      · simp [h64, h6, show 6 + (i - 6) = i by omega, show 6 ≤ i by omega]
      · have : x.testBit i = false := Nat.testBit_lt_two_pow (Nat.lt_of_lt_of_le hx (Nat.pow_le_pow_right (by decide) (by omega)))
        simp [this, show 6 + (i - 6) = i by omega]
  rw [UInt64.toNat_and, hm, UInt64.toNat_ofNat', UInt64.toNat_ofNat', key _ (Nat.mod_lt _ (by decide))]
  omega

private theorem sipblock_is {rotE : UInt64} {r : Nat} (h : Rot rotE r) (keys : Sip) (e : Nat) :
    (sipblock rotE keys (UInt64.ofNat e)).toBitVec = edgeHash r false (up keys) e := by
  rw [sipblock, edge_low, edge_high, xorLast_get _ (fill_length _ _ _ _ _)]
  have hlt : e % 64 < 64 := Nat.mod_lt _ (by decide)
  have g := fun j (hj : j < 64) => fill_get h (up keys) (e / 64 * 64) 64 0 keys j rfl hj
  simp only [edgeHash, Bool.false_eq_true, if_false]
  by_cases h63 : e % 64 = 63
  · rw [if_neg (by omega), if_pos h63, h63, g 63 (by omega)]
  · rw [if_pos (by omega), if_neg h63, UInt64.toBitVec_xor, g _ hlt, g 63 (by omega)]
    simp only [Nat.zero_add]

private theorem sipblockAll_is (keys : Sip) (e : Nat) :
    (sipblockAll keys (UInt64.ofNat e)).toBitVec = edgeHash 21 true (up keys) e := by
  rw [sipblockAll, edge_low, edge_high]
  have hlt : e % 64 < 64 := Nat.mod_lt _ (by decide)
  have g := fun j (hj : j < 64) => fill_get rotl21 (up keys) (e / 64 * 64) 64 0 keys j rfl hj
  rw [xorDown_get 63 _ (fun j => sipDigest (blockState 21 (up keys) (e / 64 * 64) (j + 1))) (by rw [fill_length]; decide)
    (fun j hj => by rw [g j (by omega), Nat.zero_add]) _ (by omega)]
  simp only [edgeHash, if_true]

private theorem mask_low (w mask : UInt64) (b : Nat) (hm : mask.toNat = 2 ^ b - 1) :
    (w &&& mask).toNat = w.toNat % 2 ^ b := by
  rw [UInt64.toNat_and, hm, Nat.and_two_pow_sub_one_eq_mod]

private theorem halves_is (w mask : UInt64) (b : Nat) (hm : mask.toNat = 2 ^ b - 1) : halves w mask = endsOf b w.toBitVec := by
  rw [halves, mask_low _ _ b hm, mask_low _ _ b hm, endsOf, UInt64.toNat_shiftRight, Nat.shiftRight_eq_div_pow]
  rfl

private theorem edgeMask_val (b : Nat) (hb : b < 64) : (edgeMask b).toNat = 2 ^ b - 1 := by
  have h2 : (2 : Nat) ^ b < 2 ^ 64 := Nat.pow_lt_pow_right (by decide) hb
  have h1 : ((1 : UInt64) <<< UInt64.ofNat b).toNat = 2 ^ b := by
    rw [UInt64.toNat_shiftLeft, UInt64.toNat_ofNat', Nat.shiftLeft_eq, show (1 : UInt64).toNat = 1 from rfl,
      show b % 2 ^ 64 % 64 = b by omega, Nat.one_mul, Nat.mod_eq_of_lt h2]
  rw [edgeMask, UInt64.toNat_sub_of_le, h1]
  · rfl
  · rw [UInt64.le_iff_toNat_le, h1]
    exact Nat.one_le_two_pow

/-! ## The theorems -/

/-- **C112, SipHash.**  For all keys, messages of any length and numbers of rounds, the hash computed is the SipHash of the paper. -/
theorem siphash_is (c d : Nat) (k0 k1 : UInt64) (m : Bytes) :
    (siphash c d k0 k1 m).toBitVec = sipSpec c d k0.toBitVec k1.toBitVec m := by
  have hfold : ∀ (l : List Nat) (s : Sip), (∀ i ∈ l, i < m.length / 8) →
      up (l.foldl (fun s i => Sip.absorb c s (word64 m (8 * i))) s) =
        (l.map fun i => BitVec.ofNat 64 (lowFirst (((sipPadded m).drop (8 * i)).take 8))).foldl (sipCompress 21 c) (up s) := by
    intro l
    induction l with
    | nil => intro s _; rfl
    | cons i l ih =>
      intro s hl
      rw [List.foldl_cons, ih _ (fun j hj => hl j (List.mem_cons_of_mem _ hj)), List.map_cons, List.foldl_cons, up_absorb, word64_up,
        word_full m (hl i List.mem_cons_self)]
  unfold siphash sipSpec sipWords
  dsimp only
  rw [List.range_succ, List.map_append, List.foldl_append, List.map_singleton, List.foldl_cons, List.foldl_nil, word_last]
  have h0 := hfold (List.range (m.length / 8)) ⟨k0 ^^^ 0x736f6d6570736575, k1 ^^^ 0x646f72616e646f6d, k0 ^^^ 0x6c7967656e657261, k1 ^^^ 0x7465646279746573⟩
    (fun i hi => List.mem_range.1 hi)
  generalize List.foldl (fun s i => Sip.absorb c s (word64 m (8 * i))) _ _ = s at *
  have hi : up ⟨k0 ^^^ 0x736f6d6570736575, k1 ^^^ 0x646f72616e646f6d, k0 ^^^ 0x6c7967656e657261, k1 ^^^ 0x7465646279746573⟩ =
      (k0.toBitVec ^^^ 0x736f6d6570736575#64, k1.toBitVec ^^^ 0x646f72616e646f6d#64, k0.toBitVec ^^^ 0x6c7967656e657261#64,
        k1.toBitVec ^^^ 0x7465646279746573#64) := rfl
  rw [hi] at h0
  rw [← h0, ← up_absorb, ← up_finish rotl21]
  rfl

/-- The example of the paper: key `00 01 … 0f`, message `00 01 … 0e`. -/
example : sipSpec 2 4 0x0706050403020100#64 0x0f0e0d0c0b0a0908#64 ((List.range 15).map UInt8.ofNat) = 0xa129ca6149be45e5#64 := by
  decide +kernel

/-- **C112, graphs.**  The endpoints of an edge in the graph of a header are those of the graph of its family, with the four words of
the digest of the header without its proof as keys. -/
theorem edge_ends (B : Bytes → Bytes) (family : Family) (h : Header) (hb : h.pow.edgeBits < 64) :
    sipEnds B family h = graph family h.pow.edgeBits (digestWords (B (headerPre h))) := by
  funext e
  have hk : up (sipKeys (B (headerPre h))) = digestWords (B (headerPre h)) := by
    simp only [up, sipKeys, word64_up, digestWords, List.drop_zero]
  unfold sipEnds
  rw [← hk]
  generalize sipKeys _ = keys
  cases family with
  | cuckatoo =>
    have h2 : (2 : UInt64) * UInt64.ofNat e + 0 = UInt64.ofNat (2 * e) := by rw [UInt64.ofNat_mul]; simp
    have h3 : (2 : UInt64) * UInt64.ofNat e + 1 = UInt64.ofNat (2 * e + 1) := by rw [UInt64.ofNat_add, UInt64.ofNat_mul]; rfl
    simp only [edgeEnds, graph, sipnode, mask_low _ _ _ (edgeMask_val _ hb), h2, h3, ← up_hash24 rotl21, ← up_lanes]
    rfl
  | cuckaroo => simp only [edgeEnds, graph, halves_is _ _ _ (edgeMask_val _ hb), sipblock_is rotl21]
  | cuckarood => rw [edgeEnds, halves_is _ _ 28 (by decide), sipblock_is rotl25]; rfl
  | cuckaroom => rw [edgeEnds, halves_is _ _ 29 (by decide), sipblockAll_is]; rfl
  | cuckarooz => rw [edgeEnds, halves_is _ _ 30 (by decide), sipblockAll_is]; rfl

/-- The test vectors of the specification of the graphs. -/
example : sipDigest (sipNonce 21 (1, 2, 3, 4) 10) = 928382149599306901#64 ∧ edgeHash 21 false (1, 2, 3, 4) 123 = 11303676240481718781#64 := by
  decide +kernel

/-- **C112, the proof of work.**  A header's proof is accepted exactly if it is a cycle of 42 edges in the graph that the rest of the header
defines by SipHash: the graph and the kind of cycle are those of the family that the edge bits and the version of the header call for. -/
theorem proof_accepted (B : Bytes → Bytes) (h : Header) (hb : h.pow.edgeBits < 64) :
    let keys := digestWords (B (headerPre h))
    let accepted := validateCycle (sipEnds B) h = .ok true
    (h.pow.edgeBits ≠ 29 →
      let ends := graph .cuckatoo h.pow.edgeBits keys
      (accepted ↔ h.pow.nonces.length = 42 ∧ Ascending (2 ^ h.pow.edgeBits) h.pow.nonces ∧
        Cycle 42 (SamePair ends h.pow.nonces) (fun i j => nodeOf ends h.pow.nonces i ≠ nodeOf ends h.pow.nonces j))) ∧
    (h.pow.edgeBits = 29 → h.version = 1 →
      (accepted ↔ h.pow.nonces.length = 42 ∧ Ascending (2 ^ 29) h.pow.nonces ∧
        Cycle 42 (SameNode (graph .cuckaroo 29 keys) h.pow.nonces) (fun _ _ => True))) ∧
    (h.pow.edgeBits = 29 → h.version = 2 →
      let ends := graph .cuckarood 29 keys
      (accepted ↔ h.pow.nonces.length = 42 ∧ Ascending (2 ^ 29) h.pow.nonces ∧ (h.pow.nonces.filter (· % 2 = 0)).length = 21 ∧
        Cycle 42 (fun i j => i % 2 = j % 2 ∧ nodeAt ends h.pow.nonces i = nodeAt ends h.pow.nonces j) (fun i j => i / 2 % 2 ≠ j / 2 % 2))) ∧
    (h.pow.edgeBits = 29 → h.version = 3 →
      let ends := graph .cuckaroom 29 keys
      (accepted ↔ h.pow.nonces.length = 42 ∧ Ascending (2 ^ 29) h.pow.nonces ∧
        DirectedCycle 42 (fun e => (ends (h.pow.nonces.getD e 0)).1) (fun e => (ends (h.pow.nonces.getD e 0)).2))) ∧
    (h.pow.edgeBits = 29 → h.version ≠ 1 → h.version ≠ 2 → h.version ≠ 3 →
      (accepted ↔ h.pow.nonces.length = 42 ∧ Ascending (2 ^ 29) h.pow.nonces ∧
        Cycle 42 (SameNodeAnySide (graph .cuckarooz 29 keys) h.pow.nonces) (fun _ _ => True))) := by
  dsimp only
  refine ⟨fun h29 => ?_, fun h29 hv => ?_, fun h29 hv => ?_, fun h29 hv => ?_, fun h29 h1 h2 h3 => ?_⟩
  · have hf : familyOf h = .cuckatoo := by rw [familyOf, if_neg h29]
    rw [validateCycle, hf, edge_ends B _ h hb]
    exact cuckatoo_accepts_iff _ _ _
  · have hf : familyOf h = .cuckaroo := by rw [familyOf, if_pos h29, if_pos hv]
    rw [validateCycle, hf, edge_ends B _ h hb, h29]
    exact cuckaroo_accepts_iff _ _ _
  · have hf : familyOf h = .cuckarood := by rw [familyOf, if_pos h29, hv]; rfl
    rw [validateCycle, hf, edge_ends B _ h hb, h29]
    exact cuckarood_accepts_iff _ _
  · have hf : familyOf h = .cuckaroom := by rw [familyOf, if_pos h29, hv]; rfl
    rw [validateCycle, hf, edge_ends B _ h hb, h29]
    exact cuckaroom_accepts_iff _ _
  · have hf : familyOf h = .cuckarooz := by rw [familyOf, if_pos h29, if_neg h1, if_neg h2, if_neg h3]
    rw [validateCycle, hf, edge_ends B _ h hb, h29]
    exact cuckarooz_accepts_iff _ _

/-- The nonces of the proof of the genesis block of the main network (include/Core/Genesis.h:142-146). -/
def genesisNonces : List Nat := [4391451, 36730677, 38198400, 38797304, 60700446, 72910191, 73050441, 110099816, 140885802, 145512513, 149311222, 149994636, 157557529,
    160778700, 162870981, 179649435, 194194460, 227378628, 230933064, 252046196, 272053956, 277878683, 288331253, 290266880, 293973036,
    305315023, 321927758, 353841539, 356489212, 373843111, 381697287, 389274717, 403108317, 409994705, 411629694, 431823422, 441976653,
    521469643, 521868369, 523044572, 524964447, 530250249]

/-- The proof of the genesis block of the main network is accepted; the digest is that of the header (Genesis.h:123-136) without the proof. -/
example (h : Header) (B : Bytes → Bytes) (hv : h.version = 1) (hb : h.pow.edgeBits = 29) (hn : h.pow.nonces = genesisNonces)
    (hB : B (headerPre h) = leBytes 8 6213947720081609189 ++ leBytes 8 689475134055511990 ++ leBytes 8 7986766584540207273 ++
      leBytes 8 18404486144419327573) : validateCycle (sipEnds B) h = .ok true := by
  have hf : familyOf h = .cuckaroo := by simp [familyOf, hb, hv]
  have he : sipEnds B .cuckaroo h = fun e => edgeEnds .cuckaroo 29
      ⟨6213947720081609189, 689475134055511990, 7986766584540207273, 18404486144419327573⟩ (UInt64.ofNat e) := by
    funext e
    rw [sipEnds, hB, hb]
    congr 1
  rw [validateCycle, hf, he, hb, hn]
  decide +kernel

/-- **C112, short ids.**  The short id of a kernel in a block: SipHash-2-4 of its hash, with the first two words of the digest of the block's
hash and the nonce as key; the lowest six bytes, the lowest first. -/
theorem short_id_is (H : DigestNum) (B : Bytes → Bytes) (blockHash : Header → Bytes) (h : Header) (nonce : Nat) (k : Kernel)
    (hd : 16 ≤ (B (blockHash h ++ beBytes 8 nonce)).length) :
    kernelId (compactHashes H B blockHash) h nonce k =
      leBytes 6 ((sipSpec 2 4 (digestWords (B (blockHash h ++ beBytes 8 nonce))).1 (digestWords (B (blockHash h ++ beBytes 8 nonce))).2.1
        (beBytes 32 (kernelHash H k))).toNat % 2 ^ 48) := by
  generalize hD : B (blockHash h ++ beBytes 8 nonce) = D at *
  have hle : ∀ l : Bytes, l.length = 8 → leBytes 8 (lowFirst l) = l := by
    intro l hl
    rw [leBytes, ← beVal_reverse, show 8 = l.reverse.length by rw [List.length_reverse, hl], beBytes_beVal, List.reverse_reverse]
  have hlt : ∀ l : Bytes, l.length = 8 → lowFirst l < 2 ^ 64 := by
    intro l hl
    have := lowFirst_lt l
    rw [hl] at this
    exact this
  have l0 : (D.take 8).length = 8 := by rw [List.length_take]; omega
  have l1 : ((D.drop 8).take 8).length = 8 := by rw [List.length_take, List.length_drop]; omega
  rw [short_id (compactHashes H B blockHash) h nonce (lowFirst (D.take 8)) (lowFirst ((D.drop 8).take 8)) ((D.drop 8).drop 8) k (hlt _ l0) (hlt _ l1)]
  · have := siphash_is 2 4 (UInt64.ofNat (lowFirst (D.take 8))) (UInt64.ofNat (lowFirst ((D.drop 8).take 8))) (beBytes 32 (kernelHash H k))
    rw [show (compactHashes H B blockHash).sip = sipHash24 from rfl, show (compactHashes H B blockHash).H = H from rfl, sipHash24,
      ← UInt64.toNat_toBitVec, this]
    rfl
  · show B (blockHash h ++ beBytes 8 nonce) = _
    rw [hD, hle _ l0, hle _ l1, List.append_assoc, List.take_append_drop, List.take_append_drop]

example : ∃ (B : Bytes → Bytes) (blockHash : Header → Bytes), ∀ h : Header, 16 ≤ (B (blockHash h ++ beBytes 8 7)).length :=
  ⟨fun _ => List.replicate 32 1, fun _ => [], fun _ => by simp⟩

end Verif.Props
