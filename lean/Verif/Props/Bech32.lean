import Verif.Codec.Bech32Lemmas

/-!
# C11: Bech32 addresses
-/
namespace Verif.Props
open Verif.Codec

/-- A human-readable prefix: not empty, printable, no upper-case letter. -/
def ValidPrefix (hrp : Bytes) : Prop :=
  hrp ≠ [] ∧ ∀ c ∈ hrp, 33 ≤ c.toNat ∧ c.toNat ≤ 126 ∧ ¬ (65 ≤ c.toNat ∧ c.toNat ≤ 90)

/-- **C11, groups of bits.** The address bytes survive regrouping into 5-bit groups: there are
`⌈8n/5⌉` groups below 32, they write the same number as the bytes followed by zero bits, and converting
back returns the bytes.  Whatever converts to bytes at all is their only grouping. -/
theorem base32_roundtrip (bs : Bytes) :
    (toBase32 bs).length = (8 * bs.length + 4) / 5 ∧ (∀ v ∈ toBase32 bs, v < 32) ∧
    (toBase32 bs).foldl (fun a v => a * 32 + v) 0 =
      beVal bs * 2 ^ (5 * (toBase32 bs).length - 8 * bs.length) ∧
    fromBase32 (toBase32 bs) = .ok bs ∧
    ∀ vs, fromBase32 vs = .ok bs → vs = toBase32 bs := by
  obtain ⟨pad, h1, h2, h3, h4⟩ := toBase32_spec bs
  refine ⟨by omega, h4, ?_, fromBase32_toBase32 bs, fun vs h => (toBase32_fromBase32 vs bs h).symm⟩
  rw [show 5 * (toBase32 bs).length - 8 * bs.length = pad by omega]
  exact h3

example : toBase32 [0xff, 0x01] = [31, 28, 0, 16] ∧ fromBase32 [31, 28, 0, 16] = .ok [0xff, 0x01] ∧
    fromBase32 [31, 28, 0, 17] = .throw := by decide +kernel

/-- **C11, checksum.** The checksum appended by the encoder always passes the decoder's test. -/
theorem bech32_checksum (hrp : Bytes) (values : List Nat) :
    polyMod (expandHRP hrp ++ (values ++ createChecksum hrp values)) = 1 := by
  have := (checksum_verifies hrp values).1
  simpa [verifyChecksum] using this

/-- **C11, error detection.** If one 5-bit value, and no other, differs from a sequence that passes the
checksum test, the test fails. -/
theorem bech32_single_error (hrp : Bytes) (pre post : List Nat) (v w : Nat) (hv : v < 32) (hw : w < 32)
    (hpre : ∀ x ∈ pre, x < 32) (hpost : ∀ x ∈ post, x < 32) (hne : v ≠ w)
    (hok : verifyChecksum hrp (pre ++ v :: post) = true) :
    verifyChecksum hrp (pre ++ w :: post) = false := by
  rw [verifyChecksum, decide_eq_true_eq, polyMod] at hok
  rw [verifyChecksum, decide_eq_false_iff_not, polyMod]
  intro h
  replace h := h.trans hok.symm
  rw [← List.append_assoc, ← List.append_assoc, List.foldl_append, List.foldl_append (l := expandHRP hrp ++ pre),
    List.foldl_cons, List.foldl_cons] at h
  have hs : ∀ x, x < 32 → x < 2 ^ 30 := fun x hx => Nat.lt_of_lt_of_le hx (by decide)
  rw [polyStep_eq, polyStep_eq] at h
  have := poly_inj post _ _ (Nat.xor_lt_two_pow (lin_lt _) (hs w hw))
    (Nat.xor_lt_two_pow (lin_lt _) (hs v hv)) hpost h
  have hc : ∀ a b c : Nat, a ^^^ b = a ^^^ c → b = c := by
    intro a b c e
    have e' := congrArg (a ^^^ ·) e
    simpa only [← Nat.xor_assoc, Nat.xor_self, Nat.zero_xor] using e'
  exact hne (hc _ _ _ this).symm

example : verifyChecksum (str "grin") ([1, 2, 3] ++ createChecksum (str "grin") [1, 2, 3]) = true ∧
    verifyChecksum (str "grin") ([1, 2, 4] ++ createChecksum (str "grin") [1, 2, 3]) = false := by
  decide +kernel

private theorem charset_facts (v : Nat) (h : v < 32) :
    let c := charset.getD v 0
    33 ≤ c.toNat ∧ c.toNat ≤ 126 ∧ ¬ (65 ≤ c.toNat ∧ c.toNat ≤ 90) ∧ c ≠ 49 ∧
      charsetRev.getD c.toNat 255 = v := by
  have : ∀ v : Fin 32,
      let c := charset.getD v.1 0
      33 ≤ c.toNat ∧ c.toNat ≤ 126 ∧ ¬ (65 ≤ c.toNat ∧ c.toNat ≤ 90) ∧ c ≠ 49 ∧
        charsetRev.getD c.toNat 255 = v.1 := by decide +kernel
  exact this ⟨v, h⟩

private theorem rfind_split (a b : Bytes) (h : (49 : UInt8) ∉ b) : rfindOne (a ++ 49 :: b) = some a.length := by
  rw [rfindOne, if_pos (by simp)]
  have : (a ++ 49 :: b).reverse = b.reverse ++ 49 :: a.reverse := by simp
  rw [this, List.idxOf_append_of_notMem (by simpa using h), List.idxOf_cons_self]
  simp only [List.length_append, List.length_cons, List.length_reverse]
  congr 1; omega

private theorem decode_text (hrp : Bytes) (values : List Nat) (hp : ValidPrefix hrp)
    (hv : ∀ v ∈ values, v < 32) (h6 : 6 ≤ values.length)
    (hlen : hrp.length + 1 + values.length ≤ 90) (hok : verifyChecksum hrp values = true) :
    bech32Decode (hrp ++ 49 :: values.map fun v => charset.getD v 0) =
      .ok (some (hrp, values.take (values.length - 6))) := by
  have hbody : ∀ c ∈ values.map (fun v => charset.getD v 0), 33 ≤ c.toNat ∧ c.toNat ≤ 126 ∧
      ¬ (65 ≤ c.toNat ∧ c.toNat ≤ 90) ∧ c ≠ 49 := by
    intro c hc
    obtain ⟨v, hm, rfl⟩ := List.mem_map.mp hc
    have := charset_facts v (hv v hm)
    exact ⟨this.1, this.2.1, this.2.2.1, this.2.2.2.1⟩
  have hall : ∀ c ∈ hrp ++ 49 :: values.map (fun v => charset.getD v 0), 33 ≤ c.toNat ∧
      c.toNat ≤ 126 ∧ ¬ (65 ≤ c.toNat ∧ c.toNat ≤ 90) := by
    intro c hc
    rcases List.mem_append.mp hc with hc | hc
    · exact hp.2 c hc
    · rcases List.mem_cons.mp hc with rfl | hc
      · decide
      · have := hbody c hc; exact ⟨this.1, this.2.1, this.2.2.1⟩
  have hprint : (hrp ++ 49 :: values.map (fun v => charset.getD v 0)).any
      (fun c => c < 33 ∨ c > 126) = false := by
    rw [List.any_eq_false]
    intro c hc
    have := hall c hc
    simp only [decide_eq_true_eq, UInt8.lt_iff_toNat_lt, GT.gt]
    change ¬ (c.toNat < 33 ∨ 126 < c.toNat)
    omega
  have hupper : (hrp ++ 49 :: values.map (fun v => charset.getD v 0)).any
      (fun c => 65 ≤ c ∧ c ≤ 90) = false := by
    rw [List.any_eq_false]
    intro c hc
    have := (hall c hc).2.2
    simp only [decide_eq_true_eq, UInt8.le_iff_toNat_le]
    exact this
  have hrf := rfind_split hrp (values.map (fun v => charset.getD v 0)) (fun h => (hbody _ h).2.2.2 rfl)
  have hl : (hrp ++ 49 :: values.map (fun v => charset.getD v 0)).length =
      hrp.length + 1 + values.length := by simp; omega
  have hd : (hrp ++ 49 :: values.map (fun v => charset.getD v 0)).drop (hrp.length + 1) =
      values.map (fun v => charset.getD v 0) := by
    rw [← List.drop_drop, List.drop_left]; rfl
  have h128 : (values.map (fun v => charset.getD v 0)).any (fun c => c.toNat ≥ 128) = false := by
    rw [List.any_eq_false]
    intro c hc
    have := (hbody c hc).2.1
    simp only [ge_iff_le, decide_eq_true_eq]; omega
  have hval : (values.map (fun v => charset.getD v 0)).map (fun c => charsetRev.getD c.toNat 255) =
      values := by
    rw [List.map_map]
    conv_rhs => rw [← List.map_id values]
    apply List.map_congr_left
    intro v hm
    exact (charset_facts v (hv v hm)).2.2.2.2
  have h255 : values.any (· = 255) = false := by
    rw [List.any_eq_false]
    intro v hm
    have := hv v hm
    simp only [decide_eq_true_eq]; omega
  have hlow : ((hrp ++ 49 :: values.map (fun v => charset.getD v 0)).take hrp.length).map bechLower =
      hrp := by
    rw [List.take_left]
    conv_rhs => rw [← List.map_id hrp]
    apply List.map_congr_left
    intro c hc
    have := (hp.2 c hc).2.2
    simp only [bechLower, UInt8.le_iff_toNat_le]
    rw [if_neg (by exact this)]; rfl
  have hpos : hrp.length ≠ 0 := by
    intro h; exact hp.1 (List.eq_nil_of_length_eq_zero h)
  simp only [bech32Decode, hprint, hupper, Bool.and_false, Bool.false_eq_true, if_false, hrf, hl, hd,
    h128, hval, h255, hlow, hok, if_true]
  rw [if_neg (by omega)]

/-- **C11, round trip of texts.** An encoded Bech32 string decodes to the prefix and the values it was
made from.  Missing: texts longer than 90 characters, which the decoder refuses (`bech32_long_violated`). -/
theorem bech32_roundtrip_partial (hrp : Bytes) (values : List Nat) (hp : ValidPrefix hrp)
    (hv : ∀ v ∈ values, v < 32) (hlen : hrp.length + values.length + 7 ≤ 90) :
    ∃ t, bech32Encode hrp values = .ok t ∧ t.length = hrp.length + values.length + 7 ∧
      bech32Decode t = .ok (some (hrp, values)) := by
  obtain ⟨h1, h2, h3⟩ := checksum_verifies hrp values
  have hall : ∀ v ∈ values ++ createChecksum hrp values, v < 32 := by
    intro v hm
    rcases List.mem_append.mp hm with hm | hm
    · exact hv v hm
    · exact h3 v hm
  have hsz : (values ++ createChecksum hrp values).length = values.length + 6 := by
    rw [List.length_append, h2]
  refine ⟨hrp ++ 49 :: (values ++ createChecksum hrp values).map (fun v => charset.getD v 0), ?_, ?_, ?_⟩
  · simp only [bech32Encode]
    rw [if_pos (List.all_eq_true.mpr (fun v hm => by simpa using hall v hm))]
  · rw [List.length_append, List.length_cons, List.length_map, hsz]; omega
  · rw [decode_text hrp _ hp hall (by omega) (by omega) h1, hsz]
    simp

/-- **C11, addresses.** The text of an address with a valid prefix and 1 to 51 bytes less the prefix
parses to the same prefix and bytes; a slatepack address has prefix `grin` and 32 bytes. -/
theorem bech32_address_partial (hrp data : Bytes) (hp : ValidPrefix hrp) (hd : data ≠ [])
    (hlen : hrp.length + (8 * data.length + 4) / 5 + 7 ≤ 90) :
    ∃ t, bech32ToString hrp data = .ok t ∧ t.length = hrp.length + (8 * data.length + 4) / 5 + 7 ∧
      bech32Parse t = .ok (hrp, data) := by
  obtain ⟨h1, h2, -, h4, -⟩ := base32_roundtrip data
  obtain ⟨t, ht, hl, hdec⟩ := bech32_roundtrip_partial hrp (toBase32 data) hp h2 (by omega)
  refine ⟨t, ht, by omega, ?_⟩
  have hne : toBase32 data ≠ [] := by
    intro h
    have : (toBase32 data).length = 0 := by rw [h]; rfl
    have : data.length ≠ 0 := fun h => hd (List.eq_nil_of_length_eq_zero h)
    omega
  simp only [bech32Parse, hdec, Res.ok_bind]
  rw [if_neg (by simp [hp.1, hne]), h4]
  rfl

theorem grin_prefix : ValidPrefix (str "grin") := by
  refine ⟨by decide, ?_⟩
  decide +kernel

/-- **C11 for slatepack addresses**: every 32-byte key round-trips through its address text. -/
theorem slatepack_address_roundtrip (key : Bytes) (h : key.length = 32) :
    ∃ t, bech32ToString (str "grin") key = .ok t ∧ t.length = 63 ∧
      bech32Parse t = .ok (str "grin", key) := by
  have := bech32_address_partial _ key grin_prefix (by intro h0; rw [h0] at h; cases h)
    (by rw [h]; decide)
  rw [h] at this
  exact this

example : (List.replicate 32 (7 : UInt8)).length = 32 := by decide

/-- **C11 fails for long addresses**: the text of 50 bytes with the prefix `grin` is refused. -/
theorem bech32_long_violated :
    ∃ t, bech32ToString (str "grin") (List.replicate 50 1) = .ok t ∧ bech32Parse t = .throw := by
  have h : (match bech32ToString (str "grin") (List.replicate 50 1) with
     | .ok t => decide (bech32Parse t = .throw)
     | _ => false) = true := by decide +kernel
  cases ht : bech32ToString (str "grin") (List.replicate 50 1) with
  | ok t => rw [ht] at h; exact ⟨t, rfl, by simpa using h⟩
  | throw => rw [ht] at h; cases h
  | ub => rw [ht] at h; cases h

/-- Decoding never runs into undefined behaviour, whatever the text. -/
theorem bech32_decode_safe (s : Bytes) : bech32Parse s ≠ .ub := by
  have hloop : ∀ vs st, fromBase32Loop vs st ≠ .ub := by
    intro vs
    induction vs with
    | nil => intro st; simp [fromBase32Loop]
    | cons v vs ih =>
      intro ⟨acc, k, ret⟩
      rw [fromBase32Loop]
      split
      · simp
      · simp only; split
        · exact ih _
        · exact ih _
  have hfrom : ∀ vs, fromBase32 vs ≠ .ub := by
    intro vs
    rw [fromBase32]
    intro h
    rcases Res.bind_eq_ub.mp h with h | ⟨r, -, h⟩
    · exact hloop _ _ h
    · split at h <;> simp at h
  have hdec : bech32Decode s ≠ .ub := by
    simp only [bech32Decode]
    split
    · simp
    · rename_i hpr
      split
      · simp
      · split
        · simp
        · split
          · simp
          · rename_i pos _ _
            have : ((s.drop (pos + 1)).any fun c => decide (c.toNat ≥ 128)) = false := by
              rw [List.any_eq_false]
              intro c hc
              simp only [Bool.not_eq_true] at hpr
              have := List.any_eq_false.mp hpr c (List.mem_of_mem_drop hc)
              simp only [decide_eq_true_eq, not_or, UInt8.lt_iff_toNat_lt, GT.gt] at this
              have h2 : ¬ (126 < c.toNat) := this.2
              simp only [ge_iff_le, decide_eq_true_eq]; omega
            rw [this]
            simp only [Bool.false_eq_true, if_false]
            split
            · simp
            · split <;> simp
  intro h
  rw [bech32Parse] at h
  rcases Res.bind_eq_ub.mp h with h | ⟨r, -, h⟩
  · exact hdec h
  · cases r with
    | none => cases h
    | some p =>
      obtain ⟨hrp, values⟩ := p
      simp only at h
      split at h
      · cases h
      · rcases Res.bind_eq_ub.mp h with h | ⟨d, -, h⟩
        · exact hfrom _ h
        · cases h

end Verif.Props
