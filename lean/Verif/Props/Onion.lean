import Verif.Codec.Onion
import Verif.Props.Bech32

/-!
# C102: onion addresses name one key
-/
namespace Verif.Props
open Verif Verif.Codec

/-! ## Base32 -/

private theorem sym_table : ∀ i : Fin 32, b32Index (b32Symbol i.val) = some i.val ∧
    b32Index (lowerChar (b32Symbol i.val)) = some i.val ∧ b32Upper (lowerChar (b32Symbol i.val)) = b32Symbol i.val ∧
    b32Upper (b32Symbol i.val) = b32Symbol i.val := by
  decide +kernel

private theorem index_sym {i : Nat} (h : i < 32) : b32Index (b32Symbol i) = some i := (sym_table ⟨i, h⟩).1

private def indexOk (c : UInt8) : Bool :=
  match b32Index c with
  | some i => decide (i < 32 ∧ b32Symbol i = b32Upper c)
  | none => true

private theorem index_some {c : UInt8} {i : Nat} (h : b32Index c = some i) : i < 32 ∧ b32Symbol i = b32Upper c := by
  have t : ∀ c : Fin 256, indexOk (UInt8.ofNat c.val) = true := by decide +kernel
  have := t ⟨c.toNat, c.toNat_lt⟩
  simp only [UInt8.ofNat_toNat, indexOk, h, decide_eq_true_eq] at this
  exact this

private theorem index_61 : b32Index 61 = none := by decide +kernel
private theorem index_49 : b32Index 49 = none := by decide +kernel

/-- The digits of the bytes. -/
private theorem enc0 (b : UInt8) : (b.toNat >>> 3) &&& 0x1F = b.toNat / 8 := by
  have : ∀ b : Fin 256, (b.val >>> 3) &&& 0x1F = b.val / 8 := by decide +kernel
  exact this ⟨b.toNat, b.toNat_lt⟩
private theorem enc1 (a b : UInt8) : b32I1 a.toNat b.toNat = a.toNat % 8 * 4 + b.toNat / 64 := by
  have h1 : ∀ b : Fin 256, (b.val <<< 2) &&& 0x1C = (b.val % 8) <<< 2 := by decide +kernel
  have h2 : ∀ b : Fin 256, (b.val >>> 6) &&& 0x3 = b.val / 64 := by decide +kernel
  have e1 := h1 ⟨a.toNat, a.toNat_lt⟩
  have e2 := h2 ⟨b.toNat, b.toNat_lt⟩
  have := b.toNat_lt
  simp only at e1 e2
  rw [b32I1, e1, e2, ← Nat.shiftLeft_add_eq_or_of_lt (by omega), Nat.shiftLeft_eq]
private theorem enc2 (b : UInt8) : (b.toNat >>> 1) &&& 0x1F = b.toNat / 2 % 32 := by
  have : ∀ b : Fin 256, (b.val >>> 1) &&& 0x1F = b.val / 2 % 32 := by decide +kernel
  exact this ⟨b.toNat, b.toNat_lt⟩
private theorem enc3 (a b : UInt8) : b32I3 a.toNat b.toNat = a.toNat % 2 * 16 + b.toNat / 16 := by
  have h1 : ∀ b : Fin 256, (b.val <<< 4) &&& 0x10 = (b.val % 2) <<< 4 := by decide +kernel
  have h2 : ∀ b : Fin 256, (b.val >>> 4) &&& 0xF = b.val / 16 := by decide +kernel
  have e1 := h1 ⟨a.toNat, a.toNat_lt⟩
  have e2 := h2 ⟨b.toNat, b.toNat_lt⟩
  have := b.toNat_lt
  simp only at e1 e2
  rw [b32I3, e1, e2, ← Nat.shiftLeft_add_eq_or_of_lt (by omega), Nat.shiftLeft_eq]
private theorem enc4 (a b : UInt8) : b32I4 a.toNat b.toNat = a.toNat % 16 * 2 + b.toNat / 128 := by
  have h1 : ∀ b : Fin 256, (b.val <<< 1) &&& 0x1E = (b.val % 16) <<< 1 := by decide +kernel
  have h2 : ∀ b : Fin 256, (b.val >>> 7) &&& 0x1 = b.val / 128 := by decide +kernel
  have e1 := h1 ⟨a.toNat, a.toNat_lt⟩
  have e2 := h2 ⟨b.toNat, b.toNat_lt⟩
  have := b.toNat_lt
  simp only at e1 e2
  rw [b32I4, e1, e2, ← Nat.shiftLeft_add_eq_or_of_lt (by omega), Nat.shiftLeft_eq]
private theorem enc5 (b : UInt8) : (b.toNat >>> 2) &&& 0x1F = b.toNat / 4 % 32 := by
  have : ∀ b : Fin 256, (b.val >>> 2) &&& 0x1F = b.val / 4 % 32 := by decide +kernel
  exact this ⟨b.toNat, b.toNat_lt⟩
private theorem enc6 (a b : UInt8) : b32I6 a.toNat b.toNat = a.toNat % 4 * 8 + b.toNat / 32 := by
  have h1 : ∀ b : Fin 256, (b.val <<< 3) &&& 0x18 = (b.val % 4) <<< 3 := by decide +kernel
  have h2 : ∀ b : Fin 256, (b.val >>> 5) &&& 0x7 = b.val / 32 := by decide +kernel
  have e1 := h1 ⟨a.toNat, a.toNat_lt⟩
  have e2 := h2 ⟨b.toNat, b.toNat_lt⟩
  have := b.toNat_lt
  simp only at e1 e2
  rw [b32I6, e1, e2, ← Nat.shiftLeft_add_eq_or_of_lt (by omega), Nat.shiftLeft_eq]
private theorem enc7 (b : UInt8) : b.toNat &&& 0x1F = b.toNat % 32 := by
  rw [show (0x1F : Nat) = 2 ^ 5 - 1 from rfl, Nat.and_two_pow_sub_one_eq_mod]
private theorem last1 (b : UInt8) : (b.toNat <<< 2) &&& 0x1C = b.toNat % 8 * 4 := by
  have : ∀ b : Fin 256, (b.val <<< 2) &&& 0x1C = b.val % 8 * 4 := by decide +kernel
  exact this ⟨b.toNat, b.toNat_lt⟩
private theorem last3 (b : UInt8) : (b.toNat <<< 4) &&& 0x10 = b.toNat % 2 * 16 := by
  have : ∀ b : Fin 256, (b.val <<< 4) &&& 0x10 = b.val % 2 * 16 := by decide +kernel
  exact this ⟨b.toNat, b.toNat_lt⟩
private theorem last4 (b : UInt8) : (b.toNat <<< 1) &&& 0x1E = b.toNat % 16 * 2 := by
  have : ∀ b : Fin 256, (b.val <<< 1) &&& 0x1E = b.val % 16 * 2 := by decide +kernel
  exact this ⟨b.toNat, b.toNat_lt⟩
private theorem last6 (b : UInt8) : (b.toNat <<< 3) &&& 0x18 = b.toNat % 4 * 8 := by
  have : ∀ b : Fin 256, (b.val <<< 3) &&& 0x18 = b.val % 4 * 8 := by decide +kernel
  exact this ⟨b.toNat, b.toNat_lt⟩

/-- The bytes of the digits. -/
private theorem dec0 {i j : Nat} (hi : i < 32) (hj : j < 32) : (b32B0 i j).toNat = i * 8 + j / 4 := by
  have h1 : ∀ b : Fin 32, (b.val <<< 3) &&& 0xF8 = b.val <<< 3 := by decide +kernel
  have h2 : ∀ b : Fin 32, (b.val >>> 2) &&& 0x7 = b.val / 4 := by decide +kernel
  have e1 := h1 ⟨i, hi⟩
  have e2 := h2 ⟨j, hj⟩
  simp only at e1 e2
  rw [b32B0, e1, e2, ← Nat.shiftLeft_add_eq_or_of_lt (by omega), Nat.shiftLeft_eq, UInt8.toNat_ofNat']
  omega
private theorem dec1 {i j k : Nat} (hi : i < 32) (hj : j < 32) (hk : k < 32) :
    (b32B1 i j k).toNat = i % 4 * 64 + j * 2 + k / 16 := by
  have h1 : ∀ b : Fin 32, (b.val <<< 6) &&& 0xC0 = (b.val % 4) <<< 6 := by decide +kernel
  have h2 : ∀ b : Fin 32, (b.val <<< 1) &&& 0x3E = b.val <<< 1 := by decide +kernel
  have h3 : ∀ b : Fin 32, (b.val >>> 4) &&& 0x1 = b.val / 16 := by decide +kernel
  have e1 := h1 ⟨i, hi⟩
  have e2 := h2 ⟨j, hj⟩
  have e3 := h3 ⟨k, hk⟩
  simp only at e1 e2 e3
  have s : (i % 4) <<< 6 ||| j <<< 1 = (i % 4 * 32 + j) <<< 1 := by
    have : (i % 4) <<< 6 = ((i % 4) <<< 5) <<< 1 := by simp only [Nat.shiftLeft_eq]; omega
    rw [this, ← Nat.shiftLeft_or_distrib, ← Nat.shiftLeft_add_eq_or_of_lt (by omega : j < 2 ^ 5)]
    simp only [Nat.shiftLeft_eq]
  rw [b32B1, e1, e2, e3, s, ← Nat.shiftLeft_add_eq_or_of_lt (by omega), Nat.shiftLeft_eq, UInt8.toNat_ofNat']
  omega
private theorem dec2 {i j : Nat} (hi : i < 32) (hj : j < 32) : (b32B2 i j).toNat = i % 16 * 16 + j / 2 := by
  have h1 : ∀ b : Fin 32, (b.val <<< 4) &&& 0xF0 = (b.val % 16) <<< 4 := by decide +kernel
  have h2 : ∀ b : Fin 32, (b.val >>> 1) &&& 0xF = b.val / 2 := by decide +kernel
  have e1 := h1 ⟨i, hi⟩
  have e2 := h2 ⟨j, hj⟩
  simp only at e1 e2
  rw [b32B2, e1, e2, ← Nat.shiftLeft_add_eq_or_of_lt (by omega), Nat.shiftLeft_eq, UInt8.toNat_ofNat']
  omega
private theorem dec3 {i j k : Nat} (hi : i < 32) (hj : j < 32) (hk : k < 32) :
    (b32B3 i j k).toNat = i % 2 * 128 + j * 4 + k / 8 := by
  have h1 : ∀ b : Fin 32, (b.val <<< 7) &&& 0x80 = (b.val % 2) <<< 7 := by decide +kernel
  have h2 : ∀ b : Fin 32, (b.val <<< 2) &&& 0x7C = b.val <<< 2 := by decide +kernel
  have h3 : ∀ b : Fin 32, (b.val >>> 3) &&& 0x3 = b.val / 8 := by decide +kernel
  have e1 := h1 ⟨i, hi⟩
  have e2 := h2 ⟨j, hj⟩
  have e3 := h3 ⟨k, hk⟩
  simp only at e1 e2 e3
  have s : (i % 2) <<< 7 ||| j <<< 2 = (i % 2 * 32 + j) <<< 2 := by
    have : (i % 2) <<< 7 = ((i % 2) <<< 5) <<< 2 := by simp only [Nat.shiftLeft_eq]; omega
    rw [this, ← Nat.shiftLeft_or_distrib, ← Nat.shiftLeft_add_eq_or_of_lt (by omega : j < 2 ^ 5)]
    simp only [Nat.shiftLeft_eq]
  rw [b32B3, e1, e2, e3, s, ← Nat.shiftLeft_add_eq_or_of_lt (by omega), Nat.shiftLeft_eq, UInt8.toNat_ofNat']
  omega
private theorem dec4 {i j : Nat} (hi : i < 32) (hj : j < 32) : (b32B4 i j).toNat = i % 8 * 32 + j := by
  have h1 : ∀ b : Fin 32, (b.val <<< 5) &&& 0xE0 = (b.val % 8) <<< 5 := by decide +kernel
  have h2 : ∀ b : Fin 32, b.val &&& 0x1F = b.val := by decide +kernel
  have e1 := h1 ⟨i, hi⟩
  have e2 := h2 ⟨j, hj⟩
  simp only at e1 e2
  rw [b32B4, e1, e2, ← Nat.shiftLeft_add_eq_or_of_lt (by omega), Nat.shiftLeft_eq, UInt8.toNat_ofNat']
  omega

private theorem to_byte {a b : UInt8} (h : a.toNat = b.toNat) : a = b := UInt8.toNat_inj.mp h

/-- A case of letters: texts that agree up to the case of letters. -/
def SameUpToCase (s t : Bytes) : Prop := s.map b32Upper = t.map b32Upper

private theorem loop_step {c : UInt8} {i : Nat} (hc : b32Index c = some i) (s : Bytes) (idx : List Nat)
    (hl : idx.length < 7) : b32Loop (c :: s) idx = b32Loop s (idx ++ [i]) := by
  rw [b32Loop, hc]
  simp only
  rw [if_neg (by omega)]

private theorem loop_block {c : UInt8} {i : Nat} (hc : b32Index c = some i) (s : Bytes) (idx : List Nat)
    (hl : idx.length = 7) : b32Loop (c :: s) idx = (do let rest ← b32Loop s []; return b32Block (idx ++ [i]) ++ rest) := by
  rw [b32Loop, hc]
  simp only
  rw [if_pos hl]

private theorem loop_padding (s : Bytes) (idx : List Nat) (h : idx ≠ []) :
    b32Loop (61 :: s) idx = b32Pad idx (idx.length + 1) s := by
  rw [b32Loop, index_61]
  simp only
  rw [if_neg (by decide), if_pos trivial, if_neg h]

/-- A rewriting of the symbols that keeps their indexes and the padding. -/
private structure Keeps (f : UInt8 → UInt8) : Prop where
  index : ∀ i, i < 32 → b32Index (f (b32Symbol i)) = some i
  pad : f 61 = 61

private theorem decode_mapped (f : UInt8 → UInt8) (hf : Keeps f) : ∀ bs : Bytes, b32Loop ((b32Encode bs).map f) [] = .ok bs
  | [] => rfl
  | [b0] => by
    have h0 := b0.toNat_lt
    simp only [b32Encode, enc0, last1, List.map_cons, List.map_append, List.map_nil, List.cons_append, List.nil_append,
      List.map_replicate, hf.pad]
    rw [loop_step (hf.index _ (by omega)) _ _ (by simp), loop_step (hf.index _ (by omega)) _ _ (by simp)]
    simp only [List.replicate, List.nil_append, List.cons_append]
    rw [loop_padding _ _ (by simp)]
    simp only [b32Pad, b32Tail]
    simp only [List.length_cons, List.length_nil, List.getD_cons_zero, List.getD_cons_succ]
    have e : b32B0 (b0.toNat / 8) (b0.toNat % 8 * 4) = b0 := to_byte (by rw [dec0 (by omega) (by omega)]; omega)
    simp [e]
  | [b0, b1] => by
    have h0 := b0.toNat_lt
    have h1 := b1.toNat_lt
    simp only [b32Encode, enc0, enc1, enc2, last3, List.map_cons, List.map_append, List.map_nil, List.cons_append,
      List.nil_append, List.map_replicate, hf.pad]
    rw [loop_step (hf.index _ (by omega)) _ _ (by simp), loop_step (hf.index _ (by omega)) _ _ (by simp),
      loop_step (hf.index _ (by omega)) _ _ (by simp), loop_step (hf.index _ (by omega)) _ _ (by simp)]
    simp only [List.replicate, List.nil_append, List.cons_append]
    rw [loop_padding _ _ (by simp)]
    simp only [b32Pad, b32Tail]
    simp only [List.length_cons, List.length_nil, List.getD_cons_zero, List.getD_cons_succ]
    have e : b32B0 (b0.toNat / 8) (b0.toNat % 8 * 4 + b1.toNat / 64) = b0 :=
      to_byte (by rw [dec0 (by omega) (by omega)]; omega)
    have e' : b32B1 (b0.toNat % 8 * 4 + b1.toNat / 64) (b1.toNat / 2 % 32) (b1.toNat % 2 * 16) = b1 :=
      to_byte (by rw [dec1 (by omega) (by omega) (by omega)]; omega)
    simp [e, e']
  | [b0, b1, b2] => by
    have h0 := b0.toNat_lt
    have h1 := b1.toNat_lt
    have h2 := b2.toNat_lt
    simp only [b32Encode, enc0, enc1, enc2, enc3, last4, List.map_cons, List.map_append, List.map_nil, List.cons_append,
      List.nil_append, List.map_replicate, hf.pad]
    rw [loop_step (hf.index _ (by omega)) _ _ (by simp), loop_step (hf.index _ (by omega)) _ _ (by simp),
      loop_step (hf.index _ (by omega)) _ _ (by simp), loop_step (hf.index _ (by omega)) _ _ (by simp),
      loop_step (hf.index _ (by omega)) _ _ (by simp)]
    simp only [List.replicate, List.nil_append, List.cons_append]
    rw [loop_padding _ _ (by simp)]
    simp only [b32Pad, b32Tail]
    simp only [List.length_cons, List.length_nil, List.getD_cons_zero, List.getD_cons_succ]
    have e : b32B0 (b0.toNat / 8) (b0.toNat % 8 * 4 + b1.toNat / 64) = b0 :=
      to_byte (by rw [dec0 (by omega) (by omega)]; omega)
    have e' : b32B1 (b0.toNat % 8 * 4 + b1.toNat / 64) (b1.toNat / 2 % 32) (b1.toNat % 2 * 16 + b2.toNat / 16) = b1 :=
      to_byte (by rw [dec1 (by omega) (by omega) (by omega)]; omega)
    have e'' : b32B2 (b1.toNat % 2 * 16 + b2.toNat / 16) (b2.toNat % 16 * 2) = b2 :=
      to_byte (by rw [dec2 (by omega) (by omega)]; omega)
    simp [e, e', e'']
  | [b0, b1, b2, b3] => by
    have h0 := b0.toNat_lt
    have h1 := b1.toNat_lt
    have h2 := b2.toNat_lt
    have h3 := b3.toNat_lt
    simp only [b32Encode, enc0, enc1, enc2, enc3, enc4, enc5, last6, List.map_cons, List.map_append, List.map_nil,
      List.cons_append, List.nil_append, List.map_replicate, hf.pad]
    rw [loop_step (hf.index _ (by omega)) _ _ (by simp), loop_step (hf.index _ (by omega)) _ _ (by simp),
      loop_step (hf.index _ (by omega)) _ _ (by simp), loop_step (hf.index _ (by omega)) _ _ (by simp),
      loop_step (hf.index _ (by omega)) _ _ (by simp), loop_step (hf.index _ (by omega)) _ _ (by simp),
      loop_step (hf.index _ (by omega)) _ _ (by simp)]
    simp only [List.replicate, List.nil_append, List.cons_append]
    rw [loop_padding _ _ (by simp)]
    simp only [b32Pad, b32Tail]
    simp only [List.length_cons, List.length_nil, List.getD_cons_zero, List.getD_cons_succ]
    have e : b32B0 (b0.toNat / 8) (b0.toNat % 8 * 4 + b1.toNat / 64) = b0 :=
      to_byte (by rw [dec0 (by omega) (by omega)]; omega)
    have e' : b32B1 (b0.toNat % 8 * 4 + b1.toNat / 64) (b1.toNat / 2 % 32) (b1.toNat % 2 * 16 + b2.toNat / 16) = b1 :=
      to_byte (by rw [dec1 (by omega) (by omega) (by omega)]; omega)
    have e'' : b32B2 (b1.toNat % 2 * 16 + b2.toNat / 16) (b2.toNat % 16 * 2 + b3.toNat / 128) = b2 :=
      to_byte (by rw [dec2 (by omega) (by omega)]; omega)
    have e3 : b32B3 (b2.toNat % 16 * 2 + b3.toNat / 128) (b3.toNat / 4 % 32) (b3.toNat % 4 * 8) = b3 :=
      to_byte (by rw [dec3 (by omega) (by omega) (by omega)]; omega)
    simp [e, e', e'', e3]
  | b0 :: b1 :: b2 :: b3 :: b4 :: bs => by
    have ih := decode_mapped f hf bs
    have h0 := b0.toNat_lt
    have h1 := b1.toNat_lt
    have h2 := b2.toNat_lt
    have h3 := b3.toNat_lt
    have h4 := b4.toNat_lt
    simp only [b32Encode, enc0, enc1, enc2, enc3, enc4, enc5, enc6, enc7, List.map_cons, List.map_append, List.map_nil,
      List.cons_append, List.nil_append]
    rw [loop_step (hf.index _ (by omega)) _ _ (by simp), loop_step (hf.index _ (by omega)) _ _ (by simp),
      loop_step (hf.index _ (by omega)) _ _ (by simp), loop_step (hf.index _ (by omega)) _ _ (by simp),
      loop_step (hf.index _ (by omega)) _ _ (by simp), loop_step (hf.index _ (by omega)) _ _ (by simp),
      loop_step (hf.index _ (by omega)) _ _ (by simp), loop_block (hf.index _ (by omega)) _ _ (by simp), ih]
    simp only [List.nil_append, List.cons_append, Res.ok_bind, Res.pure_eq, b32Block, List.getD_cons_zero,
      List.getD_cons_succ]
    have e : b32B0 (b0.toNat / 8) (b0.toNat % 8 * 4 + b1.toNat / 64) = b0 :=
      to_byte (by rw [dec0 (by omega) (by omega)]; omega)
    have e' : b32B1 (b0.toNat % 8 * 4 + b1.toNat / 64) (b1.toNat / 2 % 32) (b1.toNat % 2 * 16 + b2.toNat / 16) = b1 :=
      to_byte (by rw [dec1 (by omega) (by omega) (by omega)]; omega)
    have e'' : b32B2 (b1.toNat % 2 * 16 + b2.toNat / 16) (b2.toNat % 16 * 2 + b3.toNat / 128) = b2 :=
      to_byte (by rw [dec2 (by omega) (by omega)]; omega)
    have e3 : b32B3 (b2.toNat % 16 * 2 + b3.toNat / 128) (b3.toNat / 4 % 32) (b3.toNat % 4 * 8 + b4.toNat / 32) = b3 :=
      to_byte (by rw [dec3 (by omega) (by omega) (by omega)]; omega)
    have e4 : b32B4 (b3.toNat % 4 * 8 + b4.toNat / 32) (b4.toNat % 32) = b4 :=
      to_byte (by rw [dec4 (by omega) (by omega)]; omega)
    rw [e, e', e'', e3, e4]

/-- **Base32 is read back.**  Every byte string is read back from the text written for it, also in small letters. -/
theorem base32_text_roundtrip (bs : Bytes) :
    b32Decode (b32Encode bs) = .ok bs ∧ b32Decode (toLower (b32Encode bs)) = .ok bs := by
  refine ⟨?_, decode_mapped lowerChar ⟨fun i h => (sym_table ⟨i, h⟩).2.1, by decide⟩ bs⟩
  have := decode_mapped id ⟨fun i h => (sym_table ⟨i, h⟩).1, rfl⟩ bs
  simpa [b32Decode] using this

private theorem tail_ok (idx : List Nat) : (∃ bs, b32Tail idx = .ok bs) ↔ ¬ (idx.length = 1 ∨ idx.length = 3 ∨ idx.length = 6) := by
  unfold b32Tail
  by_cases h : idx.length = 1 ∨ idx.length = 3 ∨ idx.length = 6
  · rw [if_pos h]
    exact ⟨fun ⟨_, e⟩ => (nomatch e), fun e => absurd h e⟩
  · rw [if_neg h]
    refine ⟨fun _ => h, fun _ => ?_⟩
    dsimp only
    repeat' split
    all_goals exact ⟨_, rfl⟩

private theorem pad_ok (idx : List Nat) : ∀ n m, (∃ bs, b32Pad idx m (List.replicate n 61) = .ok bs) ↔
    (m + n = 8 ∧ ∃ bs, b32Tail idx = .ok bs)
  | 0, m => by
    simp only [List.replicate_zero, b32Pad, Nat.add_zero]
    by_cases h : m = 8 <;> simp [h]
  | n + 1, m => by
    simp only [List.replicate_succ, b32Pad]
    rw [if_neg (by decide), if_pos trivial]
    by_cases h : m + 1 > 8
    · rw [if_pos h]
      exact ⟨fun ⟨_, e⟩ => (nomatch e), fun e => by omega⟩
    · rw [if_neg h, pad_ok idx n (m + 1)]
      constructor <;> rintro ⟨h1, h2⟩ <;> exact ⟨by omega, h2⟩

private theorem loop_ok : ∀ (data : Bytes) (idx : List Nat) (n : Nat), idx.length < 8 → (∀ c ∈ data, b32Index c ≠ none) →
    ((∃ bs, b32Loop (data ++ List.replicate n 61) idx = .ok bs) ↔
      ((idx.length + data.length + n) % 8 = 0 ∧ n < 8 ∧ (idx.length + data.length) % 8 ≠ 1 ∧
        (idx.length + data.length) % 8 ≠ 3 ∧ (idx.length + data.length) % 8 ≠ 6))
  | [], idx, 0, hl, _ => by
    simp only [List.replicate_zero, List.append_nil, b32Loop, b32End, List.length_nil, Nat.add_zero]
    by_cases h : idx = []
    · subst h; simp
    · rw [if_neg h]
      have : 0 < idx.length := List.length_pos_iff.2 h
      exact ⟨fun ⟨_, e⟩ => (nomatch e), fun e => by omega⟩
  | [], idx, n + 1, hl, _ => by
    simp only [List.replicate_succ, List.nil_append, b32Loop, index_61, List.length_nil, Nat.add_zero]
    rw [if_neg (by decide), if_pos trivial]
    by_cases h : idx = []
    · subst h
      rw [if_pos rfl]
      simp only [List.length_nil, Nat.zero_add]
      exact ⟨fun ⟨_, e⟩ => (nomatch e), fun e => by omega⟩
    · have : 0 < idx.length := List.length_pos_iff.2 h
      rw [if_neg h, pad_ok, tail_ok]
      omega
  | c :: s, idx, n, hl, hc => by
    obtain ⟨i, hi⟩ := Option.ne_none_iff_exists'.1 (hc c List.mem_cons_self)
    simp only [List.cons_append, b32Loop, hi]
    by_cases h : idx.length = 7
    · rw [if_pos h]
      have := loop_ok s [] n (by simp) fun x hx => hc x (List.mem_cons_of_mem _ hx)
      simp only [List.length_nil, Nat.zero_add] at this
      have e : (∃ bs, (do let rest ← b32Loop (s ++ List.replicate n 61) []; return b32Block (idx ++ [i]) ++ rest) =
          (.ok bs : Res Bytes)) ↔ ∃ bs, b32Loop (s ++ List.replicate n 61) [] = .ok bs := by
        constructor
        · rintro ⟨bs, e⟩
          obtain ⟨r, hr, -⟩ := Res.bind_eq_ok.1 e
          exact ⟨r, hr⟩
        · rintro ⟨r, hr⟩
          exact ⟨_, by rw [hr, Res.ok_bind]; rfl⟩
      rw [e, this, h, List.length_cons]
      omega
    · rw [if_neg h, loop_ok s (idx ++ [i]) n (by simp; omega) fun x hx => hc x (List.mem_cons_of_mem _ hx)]
      simp only [List.length_append, List.length_cons, List.length_nil]
      omega

/-- **C102, which texts are Base32.** Symbols followed by padding are decoded exactly if together they fill blocks of
eight and the symbols of the last block are as many as whole bytes need (not one, three or six). -/
theorem base32_accepts_iff (data : Bytes) (n : Nat) (hd : ∀ c ∈ data, b32Index c ≠ none) :
    (∃ bs, b32Decode (data ++ List.replicate n 61) = .ok bs) ↔
      ((data.length + n) % 8 = 0 ∧ n < 8 ∧ data.length % 8 ∉ [1, 3, 6]) := by
  have := loop_ok data [] n (by simp) hd
  simp only [List.length_nil, Nat.zero_add] at this
  unfold b32Decode
  rw [this]
  simp only [List.mem_cons, List.not_mem_nil, or_false, not_or]

private theorem tail_len {idx : List Nat} {bs : Bytes} (hl : idx.length < 8) (h : b32Tail idx = .ok bs) :
    8 * bs.length ≤ 5 * idx.length + 3 ∨ idx.length = 0 := by
  unfold b32Tail at h
  split at h
  · cases h
  · rename_i hn
    simp only at h
    split at h
    · cases h; left; simp only [List.length_cons, List.length_nil]; omega
    · split at h
      · cases h; left; simp only [List.length_cons, List.length_nil]; omega
      · split at h
        · cases h; left; simp only [List.length_cons, List.length_nil]; omega
        · cases h
          by_cases h0 : idx.length = 0
          · right; exact h0
          · left; simp only [List.length_cons, List.length_nil]; omega

private theorem pad_len {idx : List Nat} (hl : idx.length < 8) : ∀ (s : Bytes) (n : Nat) (bs : Bytes),
    b32Pad idx n s = .ok bs → 8 * bs.length ≤ 5 * idx.length + 3 ∨ idx.length = 0
  | [], n, bs, h => by
    rw [b32Pad] at h
    split at h
    · exact tail_len hl h
    · cases h
  | c :: s, n, bs, h => by
    rw [b32Pad] at h
    split at h
    · split at h
      · exact tail_len hl h
      · cases h
    · split at h
      · split at h
        · cases h
        · exact pad_len hl s _ bs h
      · cases h

private theorem block_symbols (i0 i1 i2 i3 i4 i5 i6 i7 : Nat) (h0 : i0 < 32) (h1 : i1 < 32) (h2 : i2 < 32) (h3 : i3 < 32)
    (h4 : i4 < 32) (h5 : i5 < 32) (h6 : i6 < 32) (h7 : i7 < 32) (bs : Bytes) :
    b32Encode (b32Block [i0, i1, i2, i3, i4, i5, i6, i7] ++ bs) =
      [i0, i1, i2, i3, i4, i5, i6, i7].map b32Symbol ++ b32Encode bs := by
  simp only [b32Block, List.getD_cons_zero, List.getD_cons_succ, List.cons_append, List.nil_append, b32Encode]
  simp only [enc0, enc1, enc2, enc3, enc4, enc5, enc6, enc7]
  simp only [dec0 h0 h1, dec1 h1 h2 h3, dec2 h3 h4, dec3 h4 h5 h6, dec4 h6 h7, List.map_cons,
    List.map_nil]
  have e0 : (i0 * 8 + i1 / 4) / 8 = i0 := by omega
  have e1 : (i0 * 8 + i1 / 4) % 8 * 4 + (i1 % 4 * 64 + i2 * 2 + i3 / 16) / 64 = i1 := by omega
  have e2 : (i1 % 4 * 64 + i2 * 2 + i3 / 16) / 2 % 32 = i2 := by omega
  have e3 : (i1 % 4 * 64 + i2 * 2 + i3 / 16) % 2 * 16 + (i3 % 16 * 16 + i4 / 2) / 16 = i3 := by omega
  have e4 : (i3 % 16 * 16 + i4 / 2) % 16 * 2 + (i4 % 2 * 128 + i5 * 4 + i6 / 8) / 128 = i4 := by omega
  have e5 : (i4 % 2 * 128 + i5 * 4 + i6 / 8) / 4 % 32 = i5 := by omega
  have e6 : (i4 % 2 * 128 + i5 * 4 + i6 / 8) % 4 * 8 + (i6 % 8 * 32 + i7) / 32 = i6 := by omega
  have e7 : (i6 % 8 * 32 + i7) % 32 = i7 := by omega
  rw [e0, e1, e2, e3, e4, e5, e6, e7]
  rfl

/-- What a text without padding stands for. -/
private theorem decode_full : ∀ (s : Bytes) (idx : List Nat) (bs : Bytes), idx.length < 8 → (∀ i ∈ idx, i < 32) →
    b32Loop s idx = .ok bs → 8 * bs.length ≤ 5 * (idx.length + s.length) ∧
      (8 * bs.length = 5 * (idx.length + s.length) →
        (∀ c ∈ s, b32Index c ≠ none) ∧ b32Encode bs = idx.map b32Symbol ++ s.map b32Upper)
  | [], idx, bs, hl, hi, h => by
    rw [b32Loop, b32End] at h
    split at h
    · rename_i he
      cases h
      subst he
      simp [b32Encode]
    · cases h
  | c :: s, idx, bs, hl, hi, h => by
    rw [b32Loop] at h
    cases hc : b32Index c with
    | some i =>
      have hi' := index_some hc
      rw [hc] at h
      simp only at h
      split at h
      · rename_i h7
        obtain ⟨rest, hr, h⟩ := Res.bind_eq_ok.1 h
        simp only [Res.pure_eq, Res.ok.injEq] at h
        subst h
        obtain ⟨g1, g2⟩ := decode_full s [] rest (by simp) (by simp) hr
        have hb : (b32Block (idx ++ [i])).length = 5 := by simp [b32Block]
        simp only [List.length_append, List.length_cons, List.length_nil, hb] at g1 g2 ⊢
        refine ⟨by omega, fun he => ?_⟩
        obtain ⟨k1, k2⟩ := g2 (by omega)
        refine ⟨?_, ?_⟩
        · intro d hd
          rcases List.mem_cons.1 hd with rfl | hd
          · rw [hc]; simp
          · exact k1 d hd
        · match idx, h7, hi with
          | [a0, a1, a2, a3, a4, a5, a6], _, hi =>
            have q := block_symbols a0 a1 a2 a3 a4 a5 a6 i (hi _ (by simp)) (hi _ (by simp)) (hi _ (by simp))
              (hi _ (by simp)) (hi _ (by simp)) (hi _ (by simp)) (hi _ (by simp)) hi'.1 rest
            simp only [List.cons_append, List.nil_append] at q ⊢
            rw [q, k2]
            simp [hi'.2]
      · rename_i h7
        have := decode_full s (idx ++ [i]) bs (by simp only [List.length_append, List.length_cons, List.length_nil]; omega)
          (by intro j hj; rcases List.mem_append.1 hj with hj | hj
              · exact hi j hj
              · rw [List.mem_singleton] at hj; rw [hj]; exact hi'.1) h
        simp only [List.length_append, List.length_cons, List.length_nil] at this ⊢
        refine ⟨by omega, fun he => ?_⟩
        obtain ⟨k1, k2⟩ := this.2 (by omega)
        refine ⟨?_, ?_⟩
        · intro d hd
          rcases List.mem_cons.1 hd with rfl | hd
          · rw [hc]; simp
          · exact k1 d hd
        · rw [k2]; simp [hi'.2]
    | none =>
      rw [hc] at h
      simp only at h
      split at h
      · unfold b32End at h
        split at h
        · cases h
          simp only [List.length_nil, List.length_cons]
          exact ⟨by omega, fun he => by omega⟩
        · cases h
      · split at h
        · split at h
          · cases h
          · rename_i hne
            have hp : 0 < idx.length := List.length_pos_iff.2 hne
            have := pad_len hl s _ bs h
            simp only [List.length_cons]
            constructor
            · omega
            · intro he; omega
        · cases h

private theorem encode_length : ∀ bs : Bytes, bs.length % 5 = 0 → 5 * (b32Encode bs).length = 8 * bs.length
  | [], _ => by simp [b32Encode]
  | [_], h => by simp at h
  | [_, _], h => by simp at h
  | [_, _, _], h => by simp at h
  | [_, _, _, _], h => by simp at h
  | b0 :: b1 :: b2 :: b3 :: b4 :: bs, h => by
    have ih := encode_length bs (by simp only [List.length_cons] at h; omega)
    simp only [b32Encode, List.length_append, List.length_cons, List.length_nil]
    omega

private theorem upper_lower : ∀ c : UInt8, b32Upper (lowerChar c) = b32Upper c := by
  have : ∀ c : Fin 256, b32Upper (lowerChar (UInt8.ofNat c.val)) = b32Upper (UInt8.ofNat c.val) := by decide +kernel
  intro c
  simpa using this ⟨c.toNat, c.toNat_lt⟩

private theorem upper_facts (c : UInt8) : b32Upper (b32Upper c) = b32Upper c ∧ (b32Upper c = 0 ↔ c = 0) ∧
    (b32Upper c = 61 ↔ c = 61) := by
  have : ∀ c : Fin 256, b32Upper (b32Upper (UInt8.ofNat c.val)) = b32Upper (UInt8.ofNat c.val) ∧
    (b32Upper (UInt8.ofNat c.val) = 0 ↔ UInt8.ofNat c.val = 0) ∧
    (b32Upper (UInt8.ofNat c.val) = 61 ↔ UInt8.ofNat c.val = 61) := by decide +kernel
  have := this ⟨c.toNat, c.toNat_lt⟩
  simpa using this

private theorem pad_upper (idx : List Nat) : ∀ (s : Bytes) (n : Nat), b32Pad idx n (s.map b32Upper) = b32Pad idx n s
  | [], n => rfl
  | c :: s, n => by
    have ih := pad_upper idx s (n + 1)
    rw [List.map_cons, b32Pad, b32Pad, ih]
    simp only [(upper_facts c).2.1, (upper_facts c).2.2]

/-- The case of letters does not matter to the reader. -/
private theorem loop_upper : ∀ (s : Bytes) (idx : List Nat := []), b32Loop (s.map b32Upper) idx = b32Loop s idx
  | [], idx => rfl
  | c :: s, idx => by
    have hi : b32Index (b32Upper c) = b32Index c := by rw [b32Index, b32Index, (upper_facts c).1]
    rw [List.map_cons, b32Loop, b32Loop, hi]
    simp only [(upper_facts c).2.1, (upper_facts c).2.2, pad_upper]
    cases b32Index c with
    | some i => simp only [loop_upper s []]; rw [loop_upper s (idx ++ [i])]
    | none => rfl

/-! ## Addresses -/

/-- SHA3-256 has at least the two bytes that are used. -/
def SumLib (l : OnionLib) : Prop := ∀ m, 2 ≤ (l.sha3 m).length

private theorem sum_len {l : OnionLib} (hl : SumLib l) (k : Bytes) (v : UInt8) : (onionSum l k v).length = 2 := by
  rw [onionSum, List.length_take]
  have := hl (str ".onion checksum" ++ k ++ [v])
  omega

/-- The text, up to the case of letters, of the address of a key and a version. -/
private theorem parse_text {l : OnionLib} (hl : SumLib l) (s k : Bytes) (v : UInt8) (hk : k.length = 32)
    (hs : s.length = 56) (hd : b32Decode s = .ok (k ++ onionSum l k v ++ [v])) (hv : l.valid k = true) :
    onionParse l s = some ⟨s, k, v⟩ := by
  have h2 := sum_len hl k v
  have hlen : (k ++ onionSum l k v ++ [v]).length = 35 := by simp [hk, h2]
  unfold onionParse
  rw [if_neg (by omega), hd]
  simp only
  rw [if_neg (by omega)]
  have e1 : (k ++ onionSum l k v ++ [v]).take 32 = k := by
    rw [List.append_assoc, List.take_append_of_le_length (by omega), List.take_of_length_le (by omega)]
  have e2 : ((k ++ onionSum l k v ++ [v]).drop 32).take 2 = onionSum l k v := by
    rw [List.append_assoc, List.drop_append_of_le_length (by omega), List.drop_of_length_le (by omega), List.nil_append,
      List.take_append_of_le_length (by omega), List.take_of_length_le (by omega)]
  have e3 : (k ++ onionSum l k v ++ [v]).getD 34 0 = v := by
    rw [List.getD_eq_getElem?_getD, List.getElem?_append_right (by simp [hk, h2])]
    simp [hk, h2]
  rw [e1, e2, e3, onionValid, hv]
  simp

private theorem parse_keeps_text {l : OnionLib} {s : Bytes} {a : TorAddr} (h : onionParse l s = some a) : s = a.text := by
  unfold onionParse at h
  split at h
  · cases h
  · split at h
    · split at h
      · cases h
      · simp only at h
        split at h
        · cases h; rfl
        · cases h
    · cases h

/-- **Every key has an address, and the address is read back as that key.** -/
theorem onion_roundtrip {l : OnionLib} (hl : SumLib l) (k : Bytes) (hk : k.length = 32) (hv : l.valid k = true) :
    onionParse l (onionFromKey l k).text = some (onionFromKey l k) := by
  have h2 := sum_len hl k 3
  refine parse_text hl _ k 3 hk ?_ (base32_text_roundtrip _).2 hv
  have := encode_length (k ++ onionSum l k 3 ++ [3]) (by simp [hk, h2])
  simp only [onionFromKey, onionText, toLower, List.length_map]
  simp only [List.length_append, hk, h2, List.length_cons, List.length_nil] at this
  omega

/-- **What is an address.**  A text is read as the address of a key exactly if it is, up to the case of letters, the text
made of the key, the checksum of key and version, and the version, and the key is a valid point. -/
theorem onion_accepts_iff {l : OnionLib} (hl : SumLib l) (s k : Bytes) (v : UInt8) :
    onionParse l s = some ⟨s, k, v⟩ ↔
      k.length = 32 ∧ l.valid k = true ∧ SameUpToCase s (onionText l k v) := by
  have h2 := sum_len hl k v
  constructor
  · intro h
    unfold onionParse at h
    split at h
    · cases h
    · rename_i hs
      split at h
      · rename_i bs hd
        split at h
        · cases h
        · rename_i hb
          simp only at h
          split at h
          · rename_i hok
            simp only [Option.some.injEq, TorAddr.mk.injEq, true_and] at h
            obtain ⟨hk, hv⟩ := h
            rw [hk, hv, onionValid, Bool.and_eq_true, decide_eq_true_eq] at hok
            have hs' : s.length = 56 := Classical.not_not.1 hs
            have hb' : bs.length = 35 := Classical.not_not.1 hb
            have hbs : bs = k ++ onionSum l k v ++ [v] := by
              rw [← hok.1, ← hk, ← hv]
              have e : bs.drop 34 = [bs.getD 34 0] := by
                rw [List.drop_eq_getElem_cons (by omega), List.drop_of_length_le (by omega), List.getD_eq_getElem?_getD,
                  List.getElem?_eq_getElem (by omega)]
                rfl
              have e' : (bs.drop 32).drop 2 = bs.drop 34 := by rw [List.drop_drop]
              rw [← e, ← e', List.append_assoc, List.take_append_drop, List.take_append_drop]
            refine ⟨by rw [← hk, List.length_take]; omega, hok.2, ?_⟩
            have := (decode_full s [] bs (by simp) (by simp) hd).2 (by simp only [List.length_nil]; omega)
            unfold SameUpToCase
            rw [onionText, toLower, List.map_map, ← hbs]
            have e : (b32Encode bs).map (b32Upper ∘ lowerChar) = (b32Encode bs).map b32Upper :=
              List.map_congr_left (fun c _ => upper_lower c)
            rw [e, this.2]
            simp only [List.map_nil, List.nil_append, List.map_map]
            exact List.map_congr_left (fun c _ => (upper_facts c).1.symm)
          · cases h
      · cases h
  · rintro ⟨hk, hv, hc⟩
    have hs : s.length = 56 := by
      have := congrArg List.length hc
      have g := encode_length (k ++ onionSum l k v ++ [v]) (by simp [hk, h2])
      simp only [onionText, toLower, List.length_map] at this
      simp only [List.length_append, hk, h2, List.length_cons, List.length_nil] at g
      omega
    refine parse_text hl s k v hk hs ?_ hv
    have e := (base32_text_roundtrip (k ++ onionSum l k v ++ [v])).2
    unfold b32Decode at e ⊢
    rw [← e, ← loop_upper s, ← loop_upper (toLower _)]
    rw [show s.map b32Upper = (toLower (b32Encode (k ++ onionSum l k v ++ [v]))).map b32Upper from hc]

/-- **One key, one address.**  Texts read as addresses of the same key with the same version differ in the case of
letters only. -/
theorem onion_unique_partial {l : OnionLib} (hl : SumLib l) {s t : Bytes} {a b : TorAddr} (ha : onionParse l s = some a)
    (hb : onionParse l t = some b) (hk : a.key = b.key) (hv : a.version = b.version) : SameUpToCase s t := by
  obtain ⟨x, k, v⟩ := a
  obtain ⟨y, k', v'⟩ := b
  have tx := parse_keeps_text ha
  have ty := parse_keeps_text hb
  simp only at tx ty hk hv
  subst tx ty hk hv
  exact ((onion_accepts_iff hl _ _ _).1 ha).2.2.trans ((onion_accepts_iff hl _ _ _).1 hb).2.2.symm

/-- **The version is not looked at.**  For every version there is a text that is read as an address of the key; the texts
of different versions differ, and only that of version 3 is the one the wallet shows and Tor knows. -/
theorem onion_version_violated {l : OnionLib} (hl : SumLib l) (k : Bytes) (hk : k.length = 32) (hv : l.valid k = true)
    (v : UInt8) (h3 : v ≠ 3) :
    onionParse l (onionText l k v) = some ⟨onionText l k v, k, v⟩ ∧
      ¬ SameUpToCase (onionText l k v) (onionFromKey l k).text := by
  have h1 : onionParse l (onionText l k v) = some ⟨onionText l k v, k, v⟩ :=
    (onion_accepts_iff hl _ _ _).2 ⟨hk, hv, rfl⟩
  refine ⟨h1, fun hc => ?_⟩
  have h2 : onionParse l (onionText l k v) = some ⟨onionText l k v, k, 3⟩ :=
    (onion_accepts_iff hl _ _ _).2 ⟨hk, hv, hc⟩
  rw [h1] at h2
  simp only [Option.some.injEq, TorAddr.mk.injEq, true_and] at h2
  exact h3 h2

/-- **The prefix is not looked at.**  A slatepack address with any other prefix, as that of the test network or of
another coin, is read as an address of the same key. -/
theorem slatepack_prefix_violated (l : OnionLib) (hrp k : Bytes) (hp : ValidPrefix hrp) (hlen : hrp.length ≤ 31)
    (hk : k.length = 32) (hv : l.valid k = true) :
    ∃ t, slatepackText hrp k = .ok t ∧ slatepackKey l t = .ok k := by
  obtain ⟨t, h1, -, h2⟩ := bech32_address_partial hrp k hp (by intro h; rw [h] at hk; cases hk) (by rw [hk]; omega)
  refine ⟨t, h1, ?_⟩
  rw [slatepackKey, h2]
  simp [hk, hv, Res.pure_eq]

/-- **Only keys.**  A text is read as a slatepack address only if its 32 bytes are a point of the curve. -/
theorem slatepack_key_valid (l : OnionLib) (s k : Bytes) (h : slatepackKey l s = .ok k) : k.length = 32 ∧ l.valid k = true := by
  unfold slatepackKey at h
  obtain ⟨r, -, h⟩ := Res.bind_eq_ok.1 h
  by_cases h1 : r.2.length ≠ 32
  · rw [if_pos h1] at h; cases h
  · rw [if_neg h1] at h
    by_cases h2 : l.valid r.2 = true
    · rw [if_pos h2, Res.pure_eq, Res.ok.injEq] at h
      subst h
      exact ⟨Decidable.not_not.1 h1, h2⟩
    · rw [if_neg h2] at h; cases h

/-- **Both kinds of address name the same key.**  The slatepack address of a key and its onion address are read as that
key, so the one is determined by the other. -/
theorem slatepack_and_onion {l : OnionLib} (hl : SumLib l) (k : Bytes) (hk : k.length = 32) (hv : l.valid k = true) :
    ∃ t, slatepackText (str "grin") k = .ok t ∧ slatepackKey l t = .ok k ∧
      ∃ a, onionParse l (onionFromKey l k).text = some a ∧ a.key = k :=
  let ⟨t, h1, h2⟩ := slatepack_prefix_violated l (str "grin") k grin_prefix (by decide) hk hv
  ⟨t, h1, h2, _, onion_roundtrip hl k hk hv, rfl⟩

/-- **The two kinds are not confused.**  No text is read both as an onion address and as a slatepack address. -/
theorem onion_not_slatepack {l : OnionLib} (hl : SumLib l) {s : Bytes} {a : TorAddr} (h : onionParse l s = some a)
    (k : Bytes) : slatepackKey l s ≠ .ok k := by
  obtain ⟨x, k', v⟩ := a
  have tx := parse_keeps_text h
  simp only at tx
  subst tx
  obtain ⟨hk, -, hc⟩ := (onion_accepts_iff hl _ _ _).1 h
  have hsum := sum_len hl k' v
  have h49 : (49 : UInt8) ∉ s := by
    intro hm
    have hd : b32Loop s [] = .ok (k' ++ onionSum l k' v ++ [v]) := by
      have e := (base32_text_roundtrip (k' ++ onionSum l k' v ++ [v])).2
      unfold b32Decode at e
      rw [← e, ← loop_upper s, ← loop_upper (toLower _)]
      rw [show s.map b32Upper = (toLower (b32Encode (k' ++ onionSum l k' v ++ [v]))).map b32Upper from hc]
    have hs : s.length = 56 := by
      by_contra hne
      simp [onionParse, hne] at h
    exact ((decode_full s [] _ (by simp) (by simp) hd).2 (by simp [hk, hsum, hs])).1 49 hm index_49
  intro hs
  obtain ⟨r, hr, -⟩ := Res.bind_eq_ok.1 hs
  obtain ⟨d, hd, hr⟩ := Res.bind_eq_ok.1 hr
  have : d = none := by
    unfold bech32Decode at hd
    simp only [rfindOne, if_neg h49] at hd
    split at hd
    · exact (Res.ok.inj hd).symm
    · split at hd
      · exact (Res.ok.inj hd).symm
      · exact (Res.ok.inj hd).symm
  subst this
  cases hr

/-! ## The hypotheses can be met -/

/-- A library with a short checksum that depends on key and version, in which keys with a nonzero first byte are valid. -/
def toyOnion : OnionLib where
  sha3 := fun m => [m.foldl (fun a c => a * 3 + c) 7, m.foldl (fun a c => a * 5 + c) 1, 0]
  valid := fun k => k.headD 0 != 0

/-- A key of 32 different bytes. -/
def toyKey : Bytes := (List.range 32).map (fun i => UInt8.ofNat (i * 7 + 1))

theorem toyOnion_sum : SumLib toyOnion := fun _ => by simp [toyOnion]

example : toyKey.length = 32 ∧ toyOnion.valid toyKey = true := by decide +kernel

example : (onionFromKey toyOnion toyKey).text.length = 56 ∧
    onionParse toyOnion (onionFromKey toyOnion toyKey).text = some (onionFromKey toyOnion toyKey) := by decide +kernel

/-- The address in capital letters is read as well, with that text. -/
example : onionParse toyOnion ((onionFromKey toyOnion toyKey).text.map b32Upper) =
    some ⟨(onionFromKey toyOnion toyKey).text.map b32Upper, toyKey, 3⟩ := by decide +kernel

/-- One symbol changed: no address. -/
example : onionParse toyOnion (99 :: (onionFromKey toyOnion toyKey).text.drop 1) = none := by decide +kernel

example : ∃ t, slatepackText (str "tgrin") toyKey = .ok t ∧ slatepackKey toyOnion t = .ok toyKey :=
  slatepack_prefix_violated toyOnion (str "tgrin") toyKey
    ⟨by decide, by decide +kernel⟩ (by decide) (by decide +kernel) (by decide +kernel)

/-- Two symbols and six signs of padding are a byte, six symbols are none. -/
example : b32Decode (str "ME======") = .ok [97] ∧ b32Decode (str "MFRGGM==") = .throw := by decide +kernel

end Verif.Props
