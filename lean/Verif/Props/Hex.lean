import Verif.Codec.Hex

/-!
# C14: hexadecimal text

The specification of a hexadecimal digit is `digitVal`, written with character ranges.
-/
namespace Verif.Props
open Verif.Codec

/-- The value of a hexadecimal digit, in either case. -/
def digitVal (c : UInt8) : Option Nat :=
  if 48 ≤ c.toNat ∧ c.toNat ≤ 57 then some (c.toNat - 48)
  else if 97 ≤ c.toNat ∧ c.toNat ≤ 102 then some (c.toNat - 97 + 10)
  else if 65 ≤ c.toNat ∧ c.toNat ≤ 70 then some (c.toNat - 65 + 10)
  else none

/-- The bytes written by a string of hexadecimal digits. -/
def hexSpec : Bytes → Option Bytes
  | [] => some []
  | [_] => none
  | c :: d :: s =>
    match digitVal c, digitVal d, hexSpec s with
    | some i, some j, some bs => some (UInt8.ofNat (16 * i + j) :: bs)
    | _, _, _ => none

private theorem forall_u8 {p : UInt8 → Prop} (h : ∀ n : Fin 256, p (UInt8.ofNat n.1)) (c : UInt8) : p c := by
  have := h ⟨c.toNat, c.toNat_lt⟩
  simpa using this

private theorem hexIndex_spec (c : UInt8) : hexIndex c = (digitVal c).map UInt8.ofNat := by
  revert c; apply forall_u8; decide +kernel

private theorem hexChars_spec (c : UInt8) : (c ∈ hexChars) ↔ (digitVal c).isSome := by
  revert c; apply forall_u8; decide +kernel

private theorem digit_facts (c : UInt8) (h : (digitVal c).isSome = true) :
    isSpace c = false ∧ digitVal (lowerChar c) = digitVal c ∧ isSpace (lowerChar c) = false ∧
      c ≠ 0 ∧ c ≠ 120 ∧ lowerChar c ≠ 0 := by
  revert c; apply forall_u8; decide +kernel

private theorem nibbles (b : UInt8) :
    digitVal (hexSymbol (b >>> 4)) = some (b.toNat / 16) ∧
    digitVal (hexSymbol (b &&& 0xf)) = some (b.toNat % 16) ∧
    UInt8.ofNat (16 * (b.toNat / 16) + b.toNat % 16) = b ∧
    lowerChar (hexSymbol (b >>> 4)) = hexSymbol (b >>> 4) ∧
    lowerChar (hexSymbol (b &&& 0xf)) = hexSymbol (b &&& 0xf) := by
  revert b; apply forall_u8; decide +kernel

private theorem combine (i j : Nat) (hi : i < 16) (hj : j < 16) :
    ((UInt8.ofNat i) <<< 4) ||| UInt8.ofNat j = UInt8.ofNat (16 * i + j) := by
  have : ∀ i j : Fin 16, ((UInt8.ofNat i.1) <<< 4) ||| UInt8.ofNat j.1 = UInt8.ofNat (16 * i.1 + j.1) := by
    decide +kernel
  exact this ⟨i, hi⟩ ⟨j, hj⟩

private theorem digitVal_lt {c : UInt8} {i : Nat} (h : digitVal c = some i) : i < 16 := by
  unfold digitVal at h
  split at h
  · cases h; omega
  · split at h
    · cases h; omega
    · split at h
      · cases h; omega
      · cases h

private theorem decode_spec : ∀ s : Bytes, (∀ c ∈ s, (digitVal c).isSome = true) →
    hexDecode s = (match hexSpec s with | some bs => .ok bs | none => .throw)
  | [], _ => rfl
  | [c], h => by
    have := (digit_facts c (h c (by simp))).2.2.2.1
    simp [hexDecode, hexSpec, this]
  | c :: d :: s, h => by
    have ih := decode_spec s (fun x hx => h x (by simp [hx]))
    have h0 := (digit_facts c (h c (by simp))).2.2.2.1
    obtain ⟨i, hi⟩ := Option.isSome_iff_exists.mp (h c (by simp))
    obtain ⟨j, hj⟩ := Option.isSome_iff_exists.mp (h d (by simp))
    have hc := combine i j (digitVal_lt hi) (digitVal_lt hj)
    rw [hexDecode, if_neg h0, hexIndex_spec, hexIndex_spec, hexSpec, hi, hj]
    cases hs : hexSpec s with
    | none => rw [hs] at ih; simp [ih]
    | some bs => rw [hs] at ih; simp [ih, hc]

private theorem hexSpec_even : ∀ s : Bytes, (∀ c ∈ s, (digitVal c).isSome = true) →
    (hexSpec s).isSome = decide (s.length % 2 = 0)
  | [], _ => rfl
  | [_], _ => rfl
  | c :: d :: s, h => by
    have ih := hexSpec_even s (fun x hx => h x (by simp [hx]))
    obtain ⟨i, hi⟩ := Option.isSome_iff_exists.mp (h c (by simp))
    obtain ⟨j, hj⟩ := Option.isSome_iff_exists.mp (h d (by simp))
    rw [hexSpec, hi, hj]
    rw [show (c :: d :: s).length % 2 = s.length % 2 by simp only [List.length_cons]; omega, ← ih]
    cases hexSpec s <;> rfl

private theorem hexSpec_lower : ∀ s : Bytes, (∀ c ∈ s, (digitVal c).isSome = true) →
    hexSpec (toLower s) = hexSpec s
  | [], _ => rfl
  | [_], _ => rfl
  | c :: d :: s, h => by
    have ih := hexSpec_lower s (fun x hx => h x (by simp [hx]))
    have hc := (digit_facts c (h c (by simp))).2.1
    have hd := (digit_facts d (h d (by simp))).2.1
    have e : toLower (c :: d :: s) = lowerChar c :: lowerChar d :: toLower s := rfl
    rw [e, hexSpec, hexSpec, hc, hd, ih]

private theorem digits_lower {s : Bytes} (h : ∀ c ∈ s, (digitVal c).isSome = true) :
    ∀ c ∈ toLower s, (digitVal c).isSome = true := by
  intro c hc
  obtain ⟨d, hd, rfl⟩ := List.mem_map.mp hc
  rw [(digit_facts d (h d hd)).2.1]; exact h d hd

private theorem digits_trim {s : Bytes} (h : ∀ c ∈ s, (digitVal c).isSome = true) : trim s = s :=
  trim_eq (fun c hc => (digit_facts c (h c (List.mem_of_mem_head? hc))).1)
    (fun c hc => (digit_facts c (h c (List.mem_of_mem_getLast? hc))).1)

private theorem digits_noprefix {s : Bytes} (h : ∀ c ∈ s, (digitVal c).isSome = true) :
    ¬ (s.take 2 = str "0x") ∧ startsWith s (str "0x") = false := by
  have hx : (digitVal 120).isSome = false := by decide
  have e : str "0x" = [48, 120] := by decide
  rw [e]
  constructor
  · intro he
    have hm : (120 : UInt8) ∈ s.take 2 := by rw [he]; simp
    have := h 120 (List.mem_of_mem_take hm)
    rw [hx] at this; cases this
  · cases hb : startsWith s [48, 120] with
    | false => rfl
    | true =>
      have hp : [48, 120] <+: s := List.isPrefixOf_iff_prefix.mp hb
      have hm : (120 : UInt8) ∈ s := hp.subset (by simp)
      have := h 120 hm
      rw [hx] at this; cases this

private theorem fromHex_digits {s : Bytes} (h : ∀ c ∈ s, (digitVal c).isSome = true) :
    fromHex s = (match hexSpec s with | some bs => .ok bs | none => .throw) := by
  have hl := digits_lower h
  have hp := digits_noprefix hl
  have hv : isValidHex (toLower s) = true := by
    rw [isValidHex, if_neg (fun e => hp.1 e.2), List.all_eq_true]
    intro c hc; simpa using (hexChars_spec c).mpr (hl c hc)
  simp only [fromHex, digits_trim hl, hp.2, Bool.false_eq_true, if_false]
  rw [if_pos hv, decode_spec _ hl, hexSpec_lower s h]

private theorem toHex_digits (bs : Bytes) : ∀ c ∈ toHex bs, (digitVal c).isSome = true := by
  induction bs with
  | nil => intro c hc; cases hc
  | cons b bs ih =>
    intro c hc
    simp only [toHex, List.mem_cons] at hc
    rcases hc with rfl | rfl | hc
    · rw [(nibbles b).1]; rfl
    · rw [(nibbles b).2.1]; rfl
    · exact ih c hc

/-- **C14, encoding.** The hexadecimal text of bytes consists of two lower-case digits per byte whose
values are the bytes, and the validity check accepts it. -/
theorem hex_encoding (bs : Bytes) :
    hexSpec (toHex bs) = some bs ∧ (toHex bs).length = 2 * bs.length ∧
      toLower (toHex bs) = toHex bs ∧ isValidHex (toHex bs) = true := by
  refine ⟨?_, ?_, ?_, ?_⟩
  · induction bs with
    | nil => rfl
    | cons b bs ih =>
      have := nibbles b
      simp only [toHex, hexSpec, this.1, this.2.1, ih, this.2.2.1]
  · induction bs with
    | nil => rfl
    | cons b bs ih => simp only [toHex, List.length_cons, ih]; omega
  · induction bs with
    | nil => rfl
    | cons b bs ih =>
      have := nibbles b
      simp only [toLower] at ih
      simp only [toHex, toLower, List.map_cons, this.2.2.2.1, this.2.2.2.2, ih]
  · have hd := toHex_digits bs
    rw [isValidHex, if_neg (fun e => (digits_noprefix hd).1 e.2), List.all_eq_true]
    intro c hc; simpa using (hexChars_spec c).mpr (hd c hc)

/-- **C14, round trip.** Decoding the hexadecimal text of any bytes returns them. -/
theorem hex_roundtrip (bs : Bytes) : fromHex (toHex bs) = .ok bs := by
  rw [fromHex_digits (toHex_digits bs), (hex_encoding bs).1]

example : toHex [0, 0x1f, 0xab] = str "001fab" ∧ fromHex (str " 0x001FAB\n") = .ok [0, 0x1f, 0xab] := by
  decide +kernel

/-- The digits of a string the validity check looks at: all of it, or what follows `0x`. -/
def hexPart (s : Bytes) : Bytes := if s.length > 2 ∧ s.take 2 = str "0x" then s.drop 2 else s

/-- The validity check accepts exactly strings of digits, with an optional `0x` in front. -/
theorem hex_valid_iff (s : Bytes) :
    isValidHex s = true ↔ ∀ c ∈ hexPart s, (digitVal c).isSome = true := by
  unfold isValidHex hexPart
  split <;> rw [List.all_eq_true] <;>
    exact forall₂_congr fun c _ => by rw [decide_eq_true_iff, hexChars_spec]

/-- **C14, accepted strings.** A string the validity check accepts decodes to the bytes its digits
write, in pairs, provided their number is even.  Missing: strings with an odd number of digits
(`hex_valid_odd_violated`). -/
theorem hex_valid_decodes_partial (s : Bytes) (h : isValidHex s = true)
    (heven : (hexPart s).length % 2 = 0) :
    ∃ bs, hexSpec (hexPart s) = some bs ∧ fromHex s = .ok bs := by
  have hd := (hex_valid_iff s).mp h
  have he := hexSpec_even _ hd
  rw [decide_eq_true heven] at he
  obtain ⟨bs, hbs⟩ := Option.isSome_iff_exists.mp he
  refine ⟨bs, hbs, ?_⟩
  by_cases hp : s.length > 2 ∧ s.take 2 = str "0x"
  · rw [hexPart, if_pos hp] at hd hbs heven
    have e : str "0x" = [48, 120] := by decide
    have hs : s = 48 :: 120 :: s.drop 2 := by
      have := List.take_append_drop 2 s
      rw [hp.2, e] at this; exact this.symm
    have hl := digits_lower hd
    have hlow : toLower s = 48 :: 120 :: toLower (s.drop 2) := by
      rw [hs]; simp [toLower, lowerChar]
    have hne : toLower (s.drop 2) ≠ [] := by
      intro h0
      have : (toLower (s.drop 2)).length = 0 := by rw [h0]; rfl
      rw [toLower, List.length_map, List.length_drop] at this; omega
    have htrim : trim (toLower s) = toLower s := by
      apply trim_eq
      · rw [hlow]; intro c hc; cases hc; decide
      · rw [hlow]; intro c hc
        rw [List.getLast?_cons, List.getLast?_cons] at hc
        obtain ⟨l, hl'⟩ : ∃ l, (toLower (s.drop 2)).getLast? = some l := by
          rw [← Option.isSome_iff_exists, List.getLast?_isSome]; exact hne
        rw [hl'] at hc
        simp at hc; subst hc
        exact (digit_facts _ (hl _ (List.mem_of_mem_getLast? hl'))).1
    have hsw : startsWith (toLower s) (str "0x") = true := by
      rw [hlow, e]; simp [startsWith]
    have hdrop : (toLower s).drop 2 = toLower (s.drop 2) := by simp [toLower, List.map_drop]
    have hv : isValidHex (toLower (s.drop 2)) = true := by
      rw [isValidHex, if_neg (fun e => (digits_noprefix hl).1 e.2), List.all_eq_true]
      intro c hc; simpa using (hexChars_spec c).mpr (hl c hc)
    simp only [fromHex, htrim, hsw, if_true, hdrop, hv]
    rw [decode_spec _ hl, hexSpec_lower _ hd, hbs]
  · rw [hexPart, if_neg hp] at hd hbs
    rw [fromHex_digits hd, hbs]

example : isValidHex (str "0x1F") = true ∧ (hexPart (str "0x1F")).length % 2 = 0 := by decide +kernel

/-- **C14 fails for odd lengths**: the validity check accepts a string that the decoder refuses. -/
theorem hex_valid_odd_violated :
    isValidHex (str "abc") = true ∧ fromHex (str "abc") = .throw := by decide +kernel

/-- More exactly, an accepted string with an odd number of digits is always refused. -/
theorem hex_valid_odd_throws (s : Bytes) (h : ∀ c ∈ s, (digitVal c).isSome = true)
    (hodd : s.length % 2 = 1) : isValidHex s = true ∧ fromHex s = .throw := by
  constructor
  · rw [isValidHex, if_neg (fun e => (digits_noprefix h).1 e.2), List.all_eq_true]
    intro c hc; simpa using (hexChars_spec c).mpr (h c hc)
  · have he := hexSpec_even _ h
    rw [decide_eq_false (by omega)] at he
    rw [fromHex_digits h, Option.isSome_eq_false_iff.mp he |> Option.isNone_iff_eq_none.mp]

private theorem hexDecode_sound : ∀ (t bs : Bytes), (0 : UInt8) ∉ t → hexDecode t = .ok bs →
    hexSpec t = some bs
  | [], _, _, h => by cases h; rfl
  | [c], _, h0, h => by
    have hc : c ≠ 0 := fun e => h0 (by simp [e])
    simp [hexDecode, hc] at h
  | c :: d :: s, bs, h0, h => by
    have hc : c ≠ 0 := fun e => h0 (by simp [e])
    rw [hexDecode, if_neg hc] at h
    split at h
    · rename_i i j hi hj
      obtain ⟨rest, hr, h⟩ := Res.bind_eq_ok.mp h
      cases h
      have := hexDecode_sound s rest (fun hm => h0 (by simp [hm])) hr
      rw [hexIndex_spec] at hi hj
      obtain ⟨i', hi', rfl⟩ := Option.map_eq_some_iff.mp hi
      obtain ⟨j', hj', rfl⟩ := Option.map_eq_some_iff.mp hj
      have hco := combine i' j' (digitVal_lt hi') (digitVal_lt hj')
      simp only [hexSpec, hi', hj', this, hco]
    · cases h

private theorem hexDecode_safe : ∀ t : Bytes, hexDecode t ≠ .ub
  | [] => by simp [hexDecode]
  | [c] => by rw [hexDecode]; split <;> simp
  | c :: d :: s => by
    have ih := hexDecode_safe s
    rw [hexDecode]
    split
    · simp
    · split
      · cases hr : hexDecode s <;> simp_all
      · simp

/-- **C14, exactness.** Whatever `FromHex` returns is what the digits of the trimmed text, without a
leading `0x`, write; no string makes it run into undefined behaviour. -/
theorem hex_decode_sound (s : Bytes) :
    fromHex s ≠ .ub ∧
    ∀ bs, fromHex s = .ok bs →
      ∃ t, (trim (toLower s) = t ∨ trim (toLower s) = str "0x" ++ t) ∧ hexSpec t = some bs := by
  constructor
  · simp only [fromHex]
    generalize (if startsWith (trim (toLower s)) (str "0x") then (trim (toLower s)).drop 2
      else trim (toLower s)) = t
    by_cases hv : isValidHex t = true
    · rw [if_pos hv]; exact hexDecode_safe t
    · rw [if_neg hv]; simp
  · intro bs h
    simp only [fromHex] at h
    generalize ht : (if startsWith (trim (toLower s)) (str "0x") then (trim (toLower s)).drop 2
      else trim (toLower s)) = t at h
    by_cases hv : isValidHex t = true
    · rw [if_pos hv] at h
      refine ⟨t, ?_, ?_⟩
      · by_cases hsw : startsWith (trim (toLower s)) (str "0x") = true
        · rw [if_pos hsw] at ht
          right
          obtain ⟨u, hu⟩ := List.isPrefixOf_iff_prefix.mp hsw
          rw [← ht, ← hu]
          rw [show (str "0x" ++ u).drop 2 = u from rfl]
        · rw [if_neg hsw] at ht; exact .inl ht
      · apply hexDecode_sound t bs _ h
        intro hm
        have hva := (hex_valid_iff t).mp hv
        have hz : (digitVal 0).isSome = false := by decide
        by_cases hp : t.length > 2 ∧ t.take 2 = str "0x"
        · rw [hexPart, if_pos hp] at hva
          have : (0 : UInt8) ∈ t.take 2 ++ t.drop 2 := by rw [List.take_append_drop]; exact hm
          rcases List.mem_append.mp this with h1 | h1
          · rw [hp.2] at h1; exact absurd h1 (by decide)
          · have := hva 0 h1; rw [hz] at this; cases this
        · rw [hexPart, if_neg hp] at hva
          have := hva 0 hm; rw [hz] at this; cases this
    · rw [if_neg hv] at h; cases h

end Verif.Props
