import Verif.Codec.Base64

/-!
# C91: Base64 text and session tokens
-/
namespace Verif.Props

open Verif.Codec

private theorem b64_index_symbol : ∀ i : Fin 64, b64Index (b64Symbol i.val) = some i.val := by decide +kernel

private theorem b64_is {i : Nat} (h : i < 64) : b64Index (b64Symbol i) = some i := b64_index_symbol ⟨i, h⟩

private theorem b64_61 : b64Index 61 = none := by decide +kernel

private theorem sh2 (b : UInt8) : b.toNat >>> 2 = b.toNat / 4 := Nat.shiftRight_eq_div_pow _ _
private theorem lo2 (b : UInt8) : (b.toNat &&& 0x3) <<< 4 = b.toNat % 4 * 16 := by
  rw [Nat.shiftLeft_eq, show (0x3 : Nat) = 2 ^ 2 - 1 from rfl, Nat.and_two_pow_sub_one_eq_mod]
private theorem lo4 (b : UInt8) : (b.toNat &&& 0xF) <<< 2 = b.toNat % 16 * 4 := by
  rw [Nat.shiftLeft_eq, show (0xF : Nat) = 2 ^ 4 - 1 from rfl, Nat.and_two_pow_sub_one_eq_mod]
private theorem lo6 (b : UInt8) : b.toNat &&& 0x3F = b.toNat % 64 := by
  rw [show (0x3F : Nat) = 2 ^ 6 - 1 from rfl, Nat.and_two_pow_sub_one_eq_mod]
private theorem mid1 (b c : UInt8) : ((b.toNat &&& 0x3) <<< 4) ||| (c.toNat >>> 4) = b.toNat % 4 * 16 + c.toNat / 16 := by
  have hc := c.toNat_lt
  rw [← Nat.shiftLeft_add_eq_or_of_lt (by rw [Nat.shiftRight_eq_div_pow]; omega), lo2, Nat.shiftRight_eq_div_pow]
private theorem mid2 (b c : UInt8) : ((b.toNat &&& 0xF) <<< 2) ||| (c.toNat >>> 6) = b.toNat % 16 * 4 + c.toNat / 64 := by
  have hc := c.toNat_lt
  rw [← Nat.shiftLeft_add_eq_or_of_lt (by rw [Nat.shiftRight_eq_div_pow]; omega), lo4, Nat.shiftRight_eq_div_pow]

private theorem ofNat_eq (b : UInt8) {n : Nat} (h : n % 256 = b.toNat) : UInt8.ofNat n = b := by
  apply UInt8.toNat_inj.mp
  rw [UInt8.toNat_ofNat', h]

/-- Four indexes are the digits of the three bytes. -/
private theorem block_eq (i0 i1 i2 i3 : Nat) (h1 : i1 < 64) (h2 : i2 < 64) (h3 : i3 < 64) :
    (i0 <<< 18) ||| (i1 <<< 12) ||| (i2 <<< 6) ||| i3 = i0 * 262144 + i1 * 4096 + i2 * 64 + i3 := by
  have e1 : (i0 <<< 18) ||| (i1 <<< 12) = (i0 * 64 + i1) <<< 12 := by
    have : i0 <<< 18 = (i0 <<< 6) <<< 12 := by simp only [Nat.shiftLeft_eq]; omega
    rw [this, ← Nat.shiftLeft_or_distrib, ← Nat.shiftLeft_add_eq_or_of_lt h1]
    simp only [Nat.shiftLeft_eq]
  have e2 : (i0 * 64 + i1) <<< 12 ||| i2 <<< 6 = ((i0 * 64 + i1) * 64 + i2) <<< 6 := by
    have : (i0 * 64 + i1) <<< 12 = ((i0 * 64 + i1) <<< 6) <<< 6 := by simp only [Nat.shiftLeft_eq]; omega
    rw [this, ← Nat.shiftLeft_or_distrib, ← Nat.shiftLeft_add_eq_or_of_lt h2]
    simp only [Nat.shiftLeft_eq]
  rw [e1, e2, ← Nat.shiftLeft_add_eq_or_of_lt h3]
  simp only [Nat.shiftLeft_eq]; omega

private theorem block_three (b0 b1 b2 : UInt8) :
    b64Block [b0.toNat / 4, b0.toNat % 4 * 16 + b1.toNat / 16, b1.toNat % 16 * 4 + b2.toNat / 64, b2.toNat % 64]
      = [b0, b1, b2] := by
  have h0 := b0.toNat_lt
  have h1 := b1.toNat_lt
  have h2 := b2.toNat_lt
  simp only [b64Block, List.getD_cons_zero, List.getD_cons_succ]
  rw [block_eq _ _ _ _ (by omega) (by omega) (by omega)]
  have m : ∀ n : Nat, n &&& 0xFF = n % 256 := fun n => by
    rw [show (0xFF : Nat) = 2 ^ 8 - 1 from rfl, Nat.and_two_pow_sub_one_eq_mod]
  rw [m, m, Nat.shiftRight_eq_div_pow, Nat.shiftRight_eq_div_pow]
  rw [ofNat_eq b0 (by omega), ofNat_eq b1 (by omega), ofNat_eq b2 (by omega)]

private theorem tail_two (b0 : UInt8) : b64Tail [b0.toNat / 4, b0.toNat % 4 * 16] = .ok [b0] := by
  have h0 := b0.toNat_lt
  have m : (b0.toNat % 4 * 16 &&& 0x30) >>> 4 = b0.toNat % 4 := by
    have : ∀ i : Fin 4, (i.val * 16 &&& 0x30) >>> 4 = i.val := by decide +kernel
    exact this ⟨b0.toNat % 4, by omega⟩
  simp only [b64Tail, List.length_cons, List.length_nil, List.getD_cons_zero, List.getD_cons_succ, m]
  rw [ofNat_eq b0 (by rw [Nat.shiftLeft_eq]; omega)]
  simp

private theorem tail_three (b0 b1 : UInt8) :
    b64Tail [b0.toNat / 4, b0.toNat % 4 * 16 + b1.toNat / 16, b1.toNat % 16 * 4] = .ok [b0, b1] := by
  have h0 := b0.toNat_lt
  have h1 := b1.toNat_lt
  have a : ∀ i : Fin 64, (i.val &&& 0x30) >>> 4 = i.val / 16 ∧ (i.val &&& 0xF) <<< 4 = i.val % 16 * 16
    ∧ (i.val &&& 0x3C) >>> 2 = i.val / 4 := by decide +kernel
  have m1 := a ⟨b0.toNat % 4 * 16 + b1.toNat / 16, by omega⟩
  have m2 := a ⟨b1.toNat % 16 * 4, by omega⟩
  simp only at m1 m2
  simp only [b64Tail, List.length_cons, List.length_nil, List.getD_cons_zero, List.getD_cons_succ, m1.1, m1.2.1, m2.2.2]
  rw [ofNat_eq b0 (by rw [Nat.shiftLeft_eq]; omega), ofNat_eq b1 (by omega)]
  simp

private theorem loop_sym (req : Bool) (i : Nat) (hi : i < 64) (s : Bytes) (idx : List Nat) (hl : idx.length < 3) :
    b64Loop req (b64Symbol i :: s) idx = b64Loop req s (idx ++ [i]) := by
  rw [b64Loop, b64_is hi]
  simp only
  rw [if_neg (by omega)]

private theorem loop_last (req : Bool) (i : Nat) (hi : i < 64) (s : Bytes) (idx : List Nat) (hl : idx.length = 3) :
    b64Loop req (b64Symbol i :: s) idx = (do let rest ← b64Loop req s []; return b64Block (idx ++ [i]) ++ rest) := by
  rw [b64Loop, b64_is hi]
  simp only
  rw [if_pos hl]

private theorem loop_pad (req : Bool) (s : Bytes) (idx : List Nat) (h : idx ≠ []) :
    b64Loop req (61 :: s) idx = b64Pad idx (idx.length + 1) s := by
  rw [b64Loop, b64_61]
  simp only
  rw [if_neg (by decide), if_pos trivial, if_neg h]

/-- What is written, with or without padding, is read back; a reader that requires padding needs it written. -/
theorem base64_roundtrip (pad req : Bool) (h : req = true → pad = true) (bs : Bytes) :
    b64Decode req (b64Encode pad bs) = .ok bs := by
  unfold b64Decode
  match bs with
  | [] => rfl
  | [b0] =>
    have h0 := b0.toNat_lt
    rw [b64Encode, sh2, lo2]
    simp only [List.cons_append, List.nil_append]
    rw [loop_sym req _ (by omega) _ _ (by simp), loop_sym req _ (by omega) _ _ (by simp)]
    cases pad with
    | true =>
      simp only [if_true]
      rw [loop_pad _ _ _ (by simp)]
      simp [b64Pad, tail_two]
    | false =>
      have hr : req = false := by cases req <;> simp_all
      subst hr
      simp [b64Loop, b64End, tail_two]
  | [b0, b1] =>
    have h0 := b0.toNat_lt
    have h1 := b1.toNat_lt
    rw [b64Encode, sh2, lo4, mid1]
    simp only [List.cons_append, List.nil_append]
    rw [loop_sym req _ (by omega) _ _ (by simp), loop_sym req _ (by omega) _ _ (by simp),
      loop_sym req _ (by omega) _ _ (by simp)]
    cases pad with
    | true =>
      simp only [if_true]
      rw [loop_pad _ _ _ (by simp)]
      simp [b64Pad, tail_three]
    | false =>
      have hr : req = false := by cases req <;> simp_all
      subst hr
      simp [b64Loop, b64End, tail_three]
  | b0 :: b1 :: b2 :: bs =>
    have h0 := b0.toNat_lt
    have h1 := b1.toNat_lt
    have h2 := b2.toNat_lt
    have ih := base64_roundtrip pad req h bs
    unfold b64Decode at ih
    rw [b64Encode, sh2, lo6, mid1, mid2]
    simp only [List.cons_append, List.nil_append]
    rw [loop_sym req _ (by omega) _ _ (by simp), loop_sym req _ (by omega) _ _ (by simp),
      loop_sym req _ (by omega) _ _ (by simp), loop_last req _ (by omega) _ _ (by simp), ih]
    simp only [List.nil_append, List.cons_append, Res.ok_bind, Res.pure_eq]
    rw [block_three]
    simp

private theorem symbol_mem (i : Nat) (hi : i < 64) : b64Symbol i ∈ b64Alphabet := by
  have : ∀ i : Fin 64, b64Symbol i.val ∈ b64Alphabet := by decide +kernel
  exact this ⟨i, hi⟩

/-- What is written without padding has ⌈4n/3⌉ characters, letters, digits, `+` and `/` only. -/
theorem base64_text (bs : Bytes) :
    (b64Encode false bs).length = (4 * bs.length + 2) / 3 ∧ ∀ c ∈ b64Encode false bs, c ∈ b64Alphabet := by
  match bs with
  | [] => simp [b64Encode]
  | [b0] =>
    have h0 := b0.toNat_lt
    rw [b64Encode, sh2, lo2]
    refine ⟨by simp, ?_⟩
    intro c hc
    simp at hc
    rcases hc with rfl | rfl <;> exact symbol_mem _ (by omega)
  | [b0, b1] =>
    have h0 := b0.toNat_lt
    have h1 := b1.toNat_lt
    rw [b64Encode, sh2, lo4, mid1]
    refine ⟨by simp, ?_⟩
    intro c hc
    simp at hc
    rcases hc with rfl | rfl | rfl <;> exact symbol_mem _ (by omega)
  | b0 :: b1 :: b2 :: bs =>
    have h0 := b0.toNat_lt
    have h1 := b1.toNat_lt
    have h2 := b2.toNat_lt
    obtain ⟨hl, hm⟩ := base64_text bs
    rw [b64Encode, sh2, lo6, mid1, mid2]
    constructor
    · simp only [List.length_append, List.length_cons, List.length_nil, hl]; omega
    · intro c hc
      rw [List.mem_append] at hc
      rcases hc with hc | hc
      · simp at hc
        rcases hc with rfl | rfl | rfl | rfl <;> exact symbol_mem _ (by omega)
      · exact hm c hc

private theorem pad_bad (idx : List Nat) (c : UInt8) (hc : c ≠ 61 ∧ c ≠ 0) (s t : Bytes) (hs : 0 ∉ s) (n : Nat) :
    b64Pad idx n (s ++ c :: t) = .throw := by
  induction s generalizing n with
  | nil =>
    rw [List.nil_append, b64Pad, if_neg hc.2, if_neg hc.1]
  | cons d s ih =>
    rw [List.mem_cons, not_or] at hs
    rw [List.cons_append, b64Pad, if_neg (fun h => hs.1 h.symm)]
    by_cases hd : d = 61
    · rw [if_pos hd]
      split
      · rfl
      · exact ih hs.2 _
    · rw [if_neg hd]

private theorem loop_bad (req : Bool) (c : UInt8) (hc : c ∉ b64Alphabet ∧ c ≠ 61 ∧ c ≠ 0) (s t : Bytes) (hs : 0 ∉ s)
    (idx : List Nat) : b64Loop req (s ++ c :: t) idx = .throw := by
  induction s generalizing idx with
  | nil =>
    have : b64Index c = none := by rw [b64Index, if_neg hc.1]
    rw [List.nil_append, b64Loop, this]
    simp only
    rw [if_neg hc.2.2, if_neg hc.2.1]
  | cons d s ih =>
    rw [List.mem_cons, not_or] at hs
    rw [List.cons_append, b64Loop]
    cases hd : b64Index d with
    | some i =>
      simp only
      split
      · rw [ih hs.2]; rfl
      · exact ih hs.2 _
    | none =>
      simp only
      rw [if_neg (fun h => hs.1 h.symm)]
      split
      · split
        · rfl
        · exact pad_bad _ _ hc.2 _ _ hs.2 _
      · rfl

/-- A character outside the alphabet, other than `=` and NUL, is refused wherever it stands before the first
NUL. -/
theorem base64_refuses (req : Bool) (s t : Bytes) (c : UInt8) (hc : c ∉ b64Alphabet ∧ c ≠ 61 ∧ c ≠ 0) (hs : 0 ∉ s) :
    b64Decode req (s ++ c :: t) = .throw := loop_bad req c hc s t hs []

/-- The token a login returns is the token later requests are understood to carry. -/
theorem session_token_roundtrip (t : SessionToken) (h : t.id < U64) : tokenOfText (tokenText t) = .ok t := by
  unfold tokenOfText tokenText
  rw [base64_roundtrip true true (fun _ => rfl)]
  simp only [Res.ok_bind]
  rw [if_neg (by simp)]
  have h1 : (beBytes 8 t.id ++ t.key).take 8 = beBytes 8 t.id := by
    rw [List.take_append_of_le_length (by simp)]
    exact List.take_of_length_le (by simp)
  have h2 : (beBytes 8 t.id ++ t.key).drop 8 = t.key := by
    rw [List.drop_append_of_le_length (by simp), List.drop_of_length_le (by simp)]
    rfl
  rw [h1, h2, beVal_beBytes_of_lt (by simp only [U64] at h; omega)]
  rfl

/-- Different tokens have different texts. -/
theorem session_token_injective (t u : SessionToken) (ht : t.id < U64) (hu : u.id < U64) (h : tokenText t = tokenText u) :
    t = u := by
  have h1 := session_token_roundtrip t ht
  rw [h, session_token_roundtrip u hu] at h1
  injection h1 with h1
  exact h1.symm

/-- The characters after a NUL are not read: two texts may name one token. -/
theorem session_token_text_not_unique :
    ∃ s s' t, s ≠ s' ∧ tokenOfText s = .ok t ∧ tokenOfText s' = .ok t :=
  ⟨str "AAAAAAAAAAkB", str "AAAAAAAAAAkB" ++ [0, 33], ⟨9, [1]⟩, by decide +kernel, by decide +kernel, by decide +kernel⟩

example : b64Encode true (str "Man") = str "TWFu" ∧ b64Encode true (str "Ma") = str "TWE="
    ∧ b64Encode true (str "M") = str "TQ==" ∧ b64Encode false (str "M") = str "TQ" := by decide +kernel
example : b64Decode true (str "TQ") = .throw ∧ b64Decode false (str "TQ") = .ok (str "M")
    ∧ b64Decode true (str "TQ=") = .throw ∧ b64Decode true (str "T===") = .throw
    ∧ b64Decode true (str "TQ===") = .throw ∧ b64Decode false (str "TQ==") = .ok (str "M") := by decide +kernel
example : tokenOfText (tokenText ⟨0x0102030405060708, [9, 10, 255]⟩) = .ok ⟨0x0102030405060708, [9, 10, 255]⟩ := by
  decide +kernel
example : b64Decode true (str "AAA-") = .throw := base64_refuses true (str "AAA") [] 45 (by decide +kernel) (by decide +kernel)

end Verif.Props
