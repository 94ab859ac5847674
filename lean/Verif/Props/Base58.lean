import Verif.Codec.Base58Lemmas
import Mathlib.Data.List.TakeWhile

/-!
# C10: Base58

The specification is positional notation: Mathlib's `Nat.digits`, and `beVal`, the number written by
bytes with the most significant first.
-/
namespace Verif.Props
open Verif.Codec

/-- The Base58 text of bytes: one `1` per leading zero byte, then the digits to base 58 of the number
the bytes write, most significant first, spelled with the alphabet. -/
def base58Spec (bs : Bytes) : Bytes :=
  List.replicate (bs.takeWhile (· == 0)).length 49 ++
    ((Nat.digits 58 (beVal bs)).reverse.map fun d => base58Alphabet.getD d 0)

private theorem beVal_zeros (n : Nat) (bs : Bytes) : beVal (List.replicate n 0 ++ bs) = beVal bs := by
  induction n with
  | zero => rfl
  | succ n ih => rw [List.replicate_succ, List.cons_append, ← ih]; simp [beVal]

private theorem drop_zeros (bs : Bytes) :
    bs.drop (bs.takeWhile (· == 0)).length = bs.dropWhile (· == 0) := by
  induction bs with
  | nil => rfl
  | cons b bs ih =>
    rw [List.takeWhile_cons, List.dropWhile_cons]
    split
    · simpa using ih
    · rfl

theorem leading_zeros (bs : Bytes) :
    List.replicate (bs.takeWhile (· == 0)).length 0 ++ bs.drop (bs.takeWhile (· == 0)).length = bs := by
  have h1 : List.replicate (bs.takeWhile (· == 0)).length (0 : UInt8) = bs.takeWhile (· == 0) := by
    symm; rw [List.eq_replicate_iff]
    exact ⟨rfl, fun b hb => by simpa using List.mem_takeWhile_imp hb⟩
  have h2 := drop_zeros bs
  rw [h1, h2, List.takeWhile_append_dropWhile]

private theorem encode_digits (v : Bool) (bs : Bytes) :
    b58Encode v bs = .ok (List.replicate (if v then (bs.takeWhile (· == 0)).length else 0) 49 ++
      ((Nat.digits 58 (beVal bs)).reverse.map fun d => base58Alphabet.getD d 0)) := by
  have hval : beVal (bs.drop (if v then (bs.takeWhile (· == 0)).length else 0)) = beVal bs := by
    cases v with
    | false => rfl
    | true =>
      conv_rhs => rw [← leading_zeros bs]
      rw [beVal_zeros]; rfl
  simp only [b58Encode]
  generalize (if v then (bs.takeWhile (· == 0)).length else 0) = z at hval
  obtain ⟨buf, len, h1, h2⟩ := convert_digits (B := 58) (M := 256) (by decide) (by decide)
    ((bs.drop z).map (·.toNat)) ((bs.drop z).length * 138 / 100 + 1)
    (by intro x hx; obtain ⟨b, -, rfl⟩ := List.mem_map.mp hx; exact b.toNat_lt)
    (by rw [List.length_map]; exact size58 _)
  rw [h1, Res.ok_bind, h2, msVal_bytes, hval]
  rfl

/-- **C10, encoding.** The encoder terminates without overrunning its buffer and returns the Base58
text of the bytes. -/
theorem base58_encodes (bs : Bytes) : b58Encode true bs = .ok (base58Spec bs) := by
  rw [encode_digits]; rfl

private theorem digits_nat (n : Nat) :
    Nat.digits 256 (msVal 58 (Nat.digits 58 n).reverse) = Nat.digits 256 n := by
  have := ofDigits_reverse 58 (Nat.digits 58 n).reverse
  rw [List.reverse_reverse, Nat.ofDigits_digits] at this
  rw [← this]

private theorem digits256 (bs : Bytes) :
    (Nat.digits 256 (beVal bs)).reverse.map UInt8.ofNat = bs.dropWhile (· == 0) := by
  have hz : ZeroFrom (bs.map (·.toNat)).reverse bs.length := by
    intro i hi
    rw [List.getD_eq_getElem?_getD, List.getElem?_eq_none (by simp; exact hi)]; rfl
  have h := dropWhile_digits (B := 256) (by decide) (bs.map (·.toNat)).reverse bs.length hz
    (by intro d hd; obtain ⟨b, -, rfl⟩ := List.mem_map.mp (List.mem_reverse.mp hd); exact b.toNat_lt)
  rw [List.take_of_length_le (by simp), List.reverse_reverse, ofDigits_reverse, msVal_bytes] at h
  rw [← h, List.dropWhile_map, List.map_map]
  have e1 : (UInt8.ofNat ∘ fun x : UInt8 => x.toNat) = id := by funext x; simp
  have e2 : ((fun x : Nat => x == 0) ∘ fun x : UInt8 => x.toNat) = (fun b : UInt8 => b == 0) := by
    funext x
    rw [Bool.eq_iff_iff]
    simp only [Function.comp, beq_iff_eq]
    constructor
    · intro hx; exact UInt8.toNat_inj.mp hx
    · intro hx; rw [hx]; rfl
  rw [e1, List.map_id, e2]

private theorem decode_text (v : Bool) (ws ws' : Bytes) (z : Nat) (n : Nat)
    (hw : ∀ c ∈ ws, isSpace c = true) (hw' : ∀ c ∈ ws', isSpace c = true) (hz : v = false → z = 0) :
    b58Decode v (ws ++ (List.replicate z 49 ++
      ((Nat.digits 58 n).reverse.map fun d => base58Alphabet.getD d 0)) ++ ws') =
      .ok (List.replicate z 0 ++ (Nat.digits 256 n).reverse.map UInt8.ofNat) := by
  have hdig : ∀ d ∈ (Nat.digits 58 n).reverse, d < 58 :=
    fun d hd => Nat.digits_lt_base (by decide) (List.mem_reverse.mp hd)
  have hbody : ∀ c ∈ (Nat.digits 58 n).reverse.map (fun d => base58Alphabet.getD d 0),
      isSpace c = false ∧ c ≠ 0 := by
    intro c hc
    obtain ⟨d, hd, rfl⟩ := List.mem_map.mp hc
    have := alphabet_facts d (hdig d hd)
    exact ⟨this.1, this.2.1⟩
  have hws0 : ∀ c, isSpace c = true → c ≠ 0 := by
    intro c hc h0; rw [h0] at hc; exact absurd hc (by decide)
  have hcstr : cstr (ws ++ (List.replicate z 49 ++
      ((Nat.digits 58 n).reverse.map fun d => base58Alphabet.getD d 0)) ++ ws') =
      ws ++ (List.replicate z 49 ++
      ((Nat.digits 58 n).reverse.map fun d => base58Alphabet.getD d 0)) ++ ws' := by
    rw [cstr, List.takeWhile_eq_self_iff]
    intro c hc
    simp only [List.mem_append] at hc
    rcases hc with (hc | hc | hc) | hc
    · simpa using hws0 c (hw c hc)
    · rw [(List.mem_replicate.mp hc).2]; decide
    · simpa using (hbody c hc).2
    · simpa using hws0 c (hw' c hc)
  -- the digits do not begin with a `1`
  have hhead : ∀ c ∈ ((Nat.digits 58 n).reverse.map fun d => base58Alphabet.getD d 0).head?,
      c ≠ 49 := by
    intro c hc
    by_cases hn : n = 0
    · subst hn; simp at hc
    · have hne : Nat.digits 58 n ≠ [] := Nat.digits_ne_nil_iff_ne_zero.mpr hn
      rw [List.head?_map, List.head?_reverse, List.getLast?_eq_some_getLast hne] at hc
      simp only [Option.map_some, Option.mem_some_iff] at hc
      subst hc
      have hl := Nat.getLast_digit_ne_zero 58 hn
      have := alphabet_facts _ (Nat.digits_lt_base (b := 58) (by decide) (List.getLast_mem hne))
      exact fun h => hl (this.2.2.2.1.mp h)
  simp only [b58Decode, hcstr]
  have hdrop : List.dropWhile isSpace (ws ++ (List.replicate z 49 ++
      ((Nat.digits 58 n).reverse.map fun d => base58Alphabet.getD d 0)) ++ ws') =
      (List.replicate z 49 ++
      ((Nat.digits 58 n).reverse.map fun d => base58Alphabet.getD d 0)) ++ ws' ∨
      (n = 0 ∧ z = 0 ∧ List.dropWhile isSpace (ws ++ (List.replicate z 49 ++
      ((Nat.digits 58 n).reverse.map fun d => base58Alphabet.getD d 0)) ++ ws') = []) := by
    by_cases h0 : n = 0 ∧ z = 0
    · right
      refine ⟨h0.1, h0.2, ?_⟩
      rw [h0.1, h0.2]
      simp only [List.replicate_zero, Nat.digits_zero, List.reverse_nil, List.map_nil, List.append_nil]
      rw [List.dropWhile_eq_nil_iff]
      intro c hc
      rcases List.mem_append.mp hc with hc | hc
      · exact hw c hc
      · exact hw' c hc
    · left
      rw [List.append_assoc, List.dropWhile_append_of_pos hw]
      apply dropWhile_head
      intro c hc
      rw [List.append_assoc] at hc
      cases z with
      | succ z => simp only [List.replicate_succ, List.cons_append, List.head?_cons, Option.mem_some_iff] at hc; subst hc; decide
      | zero =>
        have hn : n ≠ 0 := fun h => h0 ⟨h, rfl⟩
        have hne : Nat.digits 58 n ≠ [] := Nat.digits_ne_nil_iff_ne_zero.mpr hn
        rw [List.replicate_zero, List.nil_append, List.head?_append] at hc
        cases hh : (((Nat.digits 58 n).reverse.map fun d => base58Alphabet.getD d 0)).head? with
        | none => simp [hne] at hh
        | some x =>
          rw [hh] at hc
          simp only [Option.some_or, Option.mem_some_iff] at hc
          subst hc
          exact (hbody x (List.mem_of_mem_head? hh)).1
  rcases hdrop with hdrop | ⟨hn, hz0, hdrop⟩
  · rw [hdrop]
    have hzer : (if v then ((List.replicate z 49 ++
        ((Nat.digits 58 n).reverse.map fun d => base58Alphabet.getD d 0)) ++ ws').takeWhile
          (· == 49) |>.length else 0) = z := by
      cases v with
      | false => rw [hz rfl]; rfl
      | true =>
        rw [List.append_assoc, List.takeWhile_append_of_pos (by
          intro a ha; rw [(List.mem_replicate.mp ha).2]; rfl)]
        have : List.takeWhile (fun x : UInt8 => x == 49)
            (((Nat.digits 58 n).reverse.map fun d => base58Alphabet.getD d 0) ++ ws') = [] := by
          cases hh : (((Nat.digits 58 n).reverse.map fun d => base58Alphabet.getD d 0) ++ ws') with
          | nil => rfl
          | cons c t =>
            rw [List.takeWhile_cons, if_neg]
            have hc49 : c ≠ 49 := by
              cases hb : ((Nat.digits 58 n).reverse.map fun d => base58Alphabet.getD d 0) with
              | nil =>
                rw [hb, List.nil_append] at hh
                have := hw' c (by rw [hh]; simp)
                intro h; rw [h] at this; exact absurd this (by decide)
              | cons c' t' =>
                rw [hb] at hh hhead
                simp only [List.cons_append, List.cons.injEq] at hh
                rw [← hh.1]
                exact hhead c' rfl
            simpa using hc49
        rw [this]; simp
    rw [hzer]
    have hd2 : ((List.replicate z 49 ++
        ((Nat.digits 58 n).reverse.map fun d => base58Alphabet.getD d 0)) ++ ws').drop z =
        ((Nat.digits 58 n).reverse.map fun d => base58Alphabet.getD d 0) ++ ws' := by
      rw [List.append_assoc, List.drop_append_of_le_length (by simp)]; simp
    rw [hd2]
    have hnot : ∀ c ∈ ((Nat.digits 58 n).reverse.map fun d => base58Alphabet.getD d 0),
        (!isSpace c) = true := fun c hc => by rw [(hbody c hc).1]; rfl
    have hhead' : ∀ c ∈ ws'.head?, (!isSpace c) = false := fun c hc => by
      rw [hw' c (List.mem_of_mem_head? hc)]; rfl
    have htw : List.takeWhile (fun c => !isSpace c)
        (((Nat.digits 58 n).reverse.map fun d => base58Alphabet.getD d 0) ++ ws') =
        ((Nat.digits 58 n).reverse.map fun d => base58Alphabet.getD d 0) := by
      rw [List.takeWhile_append_of_pos hnot]
      cases ws' with
      | nil => simp
      | cons c t => rw [List.takeWhile_cons, hhead' c rfl]; simp
    have hdw : List.dropWhile (fun c => !isSpace c)
        (((Nat.digits 58 n).reverse.map fun d => base58Alphabet.getD d 0) ++ ws') = ws' := by
      rw [List.dropWhile_append_of_pos hnot, dropWhile_head hhead']
    rw [htw, hdw, mapDigits_alphabet _ hdig, Res.ok_bind]
    obtain ⟨buf, len, h1, h2⟩ := convert_digits (B := 256) (M := 58) (by decide) (by decide)
      (Nat.digits 58 n).reverse
      ((((Nat.digits 58 n).reverse.map fun d => base58Alphabet.getD d 0) ++ ws').length * 733 / 1000 + 1)
      hdig
      (by
        refine Nat.le_trans (size256 _) (Nat.pow_le_pow_right (by decide) ?_)
        simp only [List.length_append, List.length_map]
        have : (Nat.digits 58 n).reverse.length * 733 / 1000 ≤
          ((Nat.digits 58 n).reverse.length + ws'.length) * 733 / 1000 :=
          Nat.div_le_div_right (Nat.mul_le_mul_right _ (Nat.le_add_right ..))
        omega)
    rw [h1, Res.ok_bind, h2, digits_nat]
    rw [if_neg]
    · rfl
    · rw [not_not, List.dropWhile_eq_nil_iff]; exact hw'
  · rw [hdrop, hn, hz0]
    have : (if v then (List.takeWhile (fun x : UInt8 => x == 49) []).length else 0) = 0 := by
      cases v <;> rfl
    rw [this]
    rfl

/-- **C10, round trip.** Decoding the Base58 text of any bytes, with any white space around it, returns
the bytes, including all leading zero bytes. -/
theorem base58_roundtrip (bs ws ws' : Bytes) (hw : ∀ c ∈ ws, isSpace c = true)
    (hw' : ∀ c ∈ ws', isSpace c = true) :
    ∃ t, b58Encode true bs = .ok t ∧ b58Decode true (ws ++ t ++ ws') = .ok bs := by
  refine ⟨_, base58_encodes bs, ?_⟩
  rw [base58Spec, decode_text true ws ws' _ _ hw hw' (by intro h; cases h), digits256]
  have h2 := drop_zeros bs
  rw [← h2, leading_zeros]

example : b58Encode true [0, 0, 0x28, 0x7f, 0xb4, 0xcd] = .ok (str "11233QC4") ∧
    b58Decode true (str " 11233QC4\n") = .ok [0, 0, 0x28, 0x7f, 0xb4, 0xcd] := by decide +kernel

/-- Different bytes have different Base58 texts. -/
theorem base58_injective (a b : Bytes) (h : base58Spec a = base58Spec b) : a = b := by
  obtain ⟨t, ht, hd⟩ := base58_roundtrip a [] [] (by simp) (by simp)
  obtain ⟨u, hu, hd'⟩ := base58_roundtrip b [] [] (by simp) (by simp)
  rw [base58_encodes] at ht hu
  cases ht; cases hu
  rw [h, hd'] at hd
  cases hd; rfl

/-- Without the version flag, as `SimpleEncodeCheck` and `SimpleDecodeCheck` use it, the round trip
loses exactly the leading zero bytes. -/
theorem base58_plain_roundtrip (bs : Bytes) :
    ∃ t, b58Encode false bs = .ok t ∧ (∀ c ∈ t, isSpace c = false ∧ c ≠ 0 ∧ c ≠ 46) ∧
      b58Decode false t = .ok (bs.dropWhile (· == 0)) := by
  refine ⟨_, encode_digits false bs, ?_, ?_⟩
  · intro c hc
    simp only [Bool.false_eq_true, if_false, List.replicate_zero, List.nil_append] at hc
    obtain ⟨d, hd, rfl⟩ := List.mem_map.mp hc
    have := alphabet_facts d (Nat.digits_lt_base (by decide) (List.mem_reverse.mp hd))
    exact ⟨this.1, this.2.1, this.2.2.2.2⟩
  · have := decode_text false [] [] 0 (beVal bs) (by simp) (by simp) (fun _ => rfl)
    simp only [List.nil_append, List.append_nil, digits256] at this
    simpa using this

/-- **C10, checked text.** Encoding with a checksum behind the bytes and decoding returns the bytes. -/
theorem base58_check_roundtrip (H : Bytes → Bytes) (hH : ∀ m, 4 ≤ (H m).length) (bs : Bytes) :
    ∃ t, b58EncodeCheck H bs = .ok t ∧ b58DecodeCheck H t = .ok bs := by
  obtain ⟨t, ht, hd⟩ := base58_roundtrip (bs ++ (H bs).take 4) [] [] (by simp) (by simp)
  refine ⟨t, ht, ?_⟩
  simp only [List.nil_append, List.append_nil] at hd
  have h4 : ((H bs).take 4).length = 4 := by rw [List.length_take]; have := hH bs; omega
  have hl : (bs ++ (H bs).take 4).length = bs.length + 4 := by rw [List.length_append, h4]
  have hlen : (bs ++ (H bs).take 4).length - 4 = bs.length := by omega
  simp only [b58DecodeCheck, hd, Res.ok_bind, hlen, List.take_left', List.drop_left']
  rw [if_neg (by omega), if_neg (by simp)]
  rfl

/-- The checksum protects the decoded bytes: whatever `DecodeCheck` returns carries the right
checksum. -/
theorem base58_check_sound (H : Bytes → Bytes) (s bs : Bytes) (h : b58DecodeCheck H s = .ok bs) :
    b58Decode true s = .ok (bs ++ (H bs).take 4) := by
  simp only [b58DecodeCheck] at h
  obtain ⟨d, hd, h⟩ := Res.bind_eq_ok.mp h
  split at h
  · cases h
  · split at h
    · cases h
    · rename_i h1 h2
      cases h
      rw [hd, not_not.mp h2, List.take_append_drop]

end Verif.Props
