import Verif.Codec.Bech32Lemmas
import Verif.Codec.Armor
import Verif.Codec.WalletRecord
import Verif.Base.Outcome

/-!
# What the text parsers accept

The round-trip theorems say that the written form of a value is read back; the theorems here bound the
other side: what else is accepted.
-/
namespace Verif.Props
open Verif Verif.Codec

/-! ## C11: Bech32 -/

private theorem xor_cancel {a b c : Nat} (h : a ^^^ b = a ^^^ c) : b = c := by
  have := congrArg (a ^^^ ·) h
  simpa [← Nat.xor_assoc] using this

private theorem group_div (a v : Nat) (h : v < 32) : ((a <<< 5) ^^^ v) >>> 5 = a := by
  rw [Nat.shiftRight_xor_distrib, Nat.shiftLeft_shiftRight, Nat.shiftRight_eq_div_pow v,
    Nat.div_eq_of_lt h, Nat.xor_zero]

private theorem horner_inj (vs ws : List Nat) (hl : vs.length = ws.length) (hv : ∀ v ∈ vs, v < 32)
    (hw : ∀ v ∈ ws, v < 32) (h : horner vs = horner ws) : vs = ws := by
  induction vs using List.reverseRecOn generalizing ws with
  | nil => cases ws with
    | nil => rfl
    | cons _ _ => cases hl
  | append_singleton vs v ih =>
    rcases List.eq_nil_or_concat ws with rfl | ⟨ws', w, rfl⟩
    · simp at hl
    · rw [List.concat_eq_append] at hl hw h ⊢
      simp only [List.length_append, List.length_singleton, Nat.add_right_cancel_iff] at hl
      have hvv : v < 32 := hv v (by simp)
      have hww : w < 32 := hw w (by simp)
      simp only [horner, List.foldl_append, List.foldl_cons, List.foldl_nil] at h
      have h1 := congrArg (· >>> 5) h
      simp only [group_div _ _ hvv, group_div _ _ hww] at h1
      have h2 := ih ws' hl (fun x hx => hv x (by simp [hx])) (fun x hx => hw x (by simp [hx])) h1
      rw [h1] at h
      rw [h2, xor_cancel h]

private theorem checksum_unique (hrp : Bytes) (values cs : List Nat) (hl : cs.length = 6)
    (hc : ∀ v ∈ cs, v < 32) (h : verifyChecksum hrp (values ++ cs) = true) :
    cs = createChecksum hrp values := by
  obtain ⟨h1, h2, h3⟩ := checksum_verifies hrp values
  rw [verifyChecksum, decide_eq_true_eq, polyMod, ← List.append_assoc, List.foldl_append] at h h1
  rw [poly_six _ _ hc (by omega), hl] at h
  rw [poly_six _ _ h3 (by omega), h2] at h1
  exact horner_inj _ _ (by omega) hc h3 (xor_cancel (h.trans h1.symm))

private theorem rev_facts (c : UInt8) (h : charsetRev.getD c.toNat 255 ≠ 255) :
    charsetRev.getD c.toNat 255 < 32 ∧
      charset.getD (charsetRev.getD c.toNat 255) 0 = bechLower c := by
  have key : ∀ n : Fin 256, charsetRev.getD n.1 255 ≠ 255 →
      charsetRev.getD n.1 255 < 32 ∧
        charset.getD (charsetRev.getD n.1 255) 0 = bechLower (UInt8.ofNat n.1) := by decide +kernel
  have := key ⟨c.toNat, c.toNat_lt⟩ h
  simpa using this

private theorem rfind_some (s : Bytes) (pos : Nat) (h : rfindOne s = some pos) :
    pos < s.length ∧ s = s.take pos ++ 49 :: s.drop (pos + 1) := by
  unfold rfindOne at h
  split at h
  · rename_i hm
    injection h with h
    have hi : s.reverse.idxOf 49 < s.reverse.length := List.idxOf_lt_length_of_mem (by simpa using hm)
    have hg := List.getElem_idxOf hi
    rw [List.length_reverse] at hi
    have hp : pos < s.length := by omega
    refine ⟨hp, ?_⟩
    rw [List.getElem_reverse] at hg
    have : s[pos] = 49 := by
      rw [← hg]; congr 1; omega
    rw [← this, List.cons_getElem_drop_succ, List.take_append_drop]
  · cases h

/-- **C11, what is accepted.** A text that decodes to a prefix and values is, up to letter case, the text
written for that prefix and those values: it carries their checksum.  It has at most 90 characters, all
printable, and does not mix cases. -/
theorem bech32_accepts_only (s : Bytes) (hrp : Bytes) (values : List Nat)
    (h : bech32Decode s = .ok (some (hrp, values))) :
    bech32Encode hrp values = .ok (s.map bechLower) ∧ s.length ≤ 90 ∧ hrp ≠ [] ∧
      (∀ c ∈ s, 33 ≤ c ∧ c ≤ 126) ∧
      ¬ ((∃ c ∈ s, 97 ≤ c ∧ c ≤ 122) ∧ ∃ c ∈ s, 65 ≤ c ∧ c ≤ 90) := by
  unfold bech32Decode at h
  simp only at h
  by_cases h1 : (s.any fun c => decide (c < 33 ∨ c > 126)) = true
  · rw [if_pos h1] at h; cases h
  rw [if_neg h1] at h
  by_cases h2 : ((s.any fun c => decide (97 ≤ c ∧ c ≤ 122)) && s.any fun c => decide (65 ≤ c ∧ c ≤ 90)) = true
  · rw [if_pos h2] at h; cases h
  rw [if_neg h2] at h
  cases hr : rfindOne s with
  | none => rw [hr] at h; cases h
  | some pos =>
    rw [hr] at h
    simp only at h
    by_cases h3 : s.length > 90 ∨ pos = 0 ∨ pos + 7 > s.length
    · rw [if_pos h3] at h; cases h
    rw [if_neg h3] at h
    split at h
    · cases h
    generalize hval : (List.map (fun c : UInt8 => charsetRev.getD c.toNat 255) (List.drop (pos + 1) s)) = vals at h
    by_cases h4 : (vals.any fun x => decide (x = 255)) = true
    · rw [if_pos h4] at h; cases h
    rw [if_neg h4] at h
    split at h
    · rename_i hver
      simp only [Res.ok.injEq, Option.some.injEq, Prod.mk.injEq] at h
      obtain ⟨rfl, rfl⟩ := h
      obtain ⟨hp, hs⟩ := rfind_some s pos hr
      have hne : ∀ v ∈ vals, v ≠ 255 := by
        intro v hv he
        apply h4
        rw [List.any_eq_true]
        exact ⟨v, hv, by simpa using he⟩
      have hlen : vals.length = s.length - (pos + 1) := by rw [← hval]; simp
      have h32 : ∀ v ∈ vals, v < 32 := by
        intro v hv
        have hn := hne v hv
        rw [← hval] at hv
        obtain ⟨c, -, rfl⟩ := List.mem_map.mp hv
        exact (rev_facts c hn).1
      have hback : vals.map (fun v => charset.getD v 0) = (s.drop (pos + 1)).map bechLower := by
        rw [← hval, List.map_map]
        apply List.map_congr_left
        intro c hc
        exact (rev_facts c (hne _ (by rw [← hval]; exact List.mem_map.mpr ⟨c, hc, rfl⟩))).2
      have hsplit := List.take_append_drop (vals.length - 6) vals
      have hcs := checksum_unique ((s.take pos).map bechLower) (vals.take (vals.length - 6))
        (vals.drop (vals.length - 6)) (by rw [List.length_drop]; omega)
        (fun v hv => h32 v (List.mem_of_mem_drop hv)) (by rw [hsplit]; exact hver)
      refine ⟨?_, by omega, ?_, ?_, ?_⟩
      · rw [bech32Encode, ← hcs, hsplit]
        rw [if_pos (by rw [List.all_eq_true]; intro v hv; simpa using h32 v hv), hback]
        conv => rhs; rw [hs]
        simp [bechLower]
      · intro he
        have := congrArg List.length he
        rw [List.length_map, List.length_take, List.length_nil] at this
        omega
      · intro c hc
        have : ¬ (c < 33 ∨ c > 126) := fun hh => h1 (by rw [List.any_eq_true]; exact ⟨c, hc, by simpa using hh⟩)
        have a1 : ¬ c < 33 := fun hh => this (.inl hh)
        have a2 : ¬ c > 126 := fun hh => this (.inr hh)
        exact ⟨by simpa using a1, by simpa using a2⟩
      · rintro ⟨⟨c, hc, hc'⟩, d, hd, hd'⟩
        apply h2
        rw [Bool.and_eq_true, List.any_eq_true, List.any_eq_true]
        exact ⟨⟨c, hc, by simpa using hc'⟩, d, hd, by simpa using hd'⟩
    · cases h

example : ∃ t, bech32Decode t = .ok (some (str "grin", [1, 2, 3])) ∧
    bech32Encode (str "grin") [1, 2, 3] = .ok (t.map bechLower) := by
  have h : bech32Decode (str "GRIN1PZRMYMX6P") ≠ .ub := by decide +kernel
  have h2 : (match bech32Encode (str "grin") [1, 2, 3] with
    | .ok t => decide (bech32Decode t = .ok (some (str "grin", [1, 2, 3])))
    | _ => false) = true := by decide +kernel
  cases he : bech32Encode (str "grin") [1, 2, 3] with
  | ok t =>
    rw [he] at h2
    have h3 := of_decide_eq_true h2
    exact ⟨t, h3, by rw [← (bech32_accepts_only t _ _ h3).1, he]⟩
  | throw => rw [he] at h2; cases h2
  | ub => rw [he] at h2; cases h2

/-- **C11 for slatepack addresses, what is accepted.** A text parsed as an address gives a key of 32 bytes
that is a point of the curve, and its own prefix and checksum were checked. -/
theorem slatepack_address_accepts_only (valid : Bytes → Bool) (s a : Bytes)
    (h : parseAddress valid s = .ok a) :
    a.length = 32 ∧ valid a = true ∧
      ∃ hrp values, fromBase32 values = .ok a ∧ bech32Encode hrp values = .ok (s.map bechLower) := by
  unfold parseAddress at h
  rw [Res.bind_eq_ok] at h
  obtain ⟨r, hr, h⟩ := h
  split at h
  · cases h
  · rename_i hc
    simp only [not_or, Decidable.not_not] at hc
    have : r.2 = a := by injection h
    subst this
    refine ⟨hc.1, by simpa using hc.2, ?_⟩
    unfold bech32Parse at hr
    rw [Res.bind_eq_ok] at hr
    obtain ⟨d, hd, hr⟩ := hr
    rcases d with _ | ⟨hrp, values⟩
    · cases hr
    · simp only at hr
      split at hr
      · cases hr
      · rw [Res.bind_eq_ok] at hr
        obtain ⟨data, hdata, hr⟩ := hr
        have : (hrp, data) = r := by injection hr
        subst this
        exact ⟨hrp, values, hdata, (bech32_accepts_only s hrp values hd).1⟩

/-! ## C13: key paths -/

private theorem parsePath_slashes (fuel : Nat) (s : Bytes) (p : List Nat) (h : parsePath fuel s = .ok p) :
    p.length ≤ s.count 47 ∧ ∀ i ∈ p, i < 2 ^ 32 := by
  induction fuel generalizing s p with
  | zero =>
    unfold parsePath at h
    split at h
    · cases h
    · injection h with h; subst h; simp
  | succ fuel ih =>
    unfold parsePath at h
    split at h
    · split at h
      · cases h
      · rename_i hh
        rw [Res.bind_eq_ok] at h
        obtain ⟨r, -, h⟩ := h
        rw [Res.bind_eq_ok] at h
        obtain ⟨rest, hrest, h⟩ := h
        have : (r.1 % 2 ^ 32).toNat :: rest = p := by injection h
        subst this
        obtain ⟨h1, h2⟩ := ih _ _ hrest
        have hsub : (((s.drop 1).drop r.2).count 47) ≤ (s.drop 1).count 47 :=
          (List.drop_sublist _ _).count_le _
        have hs : s.count 47 = 1 + (s.drop 1).count 47 := by
          cases s with
          | nil => simp at hh
          | cons c s =>
            simp only [List.head?_cons, ne_eq, Option.some.injEq, Decidable.not_not] at hh
            subst hh
            simp [List.count_cons]; omega
        refine ⟨by rw [List.length_cons]; omega, ?_⟩
        intro i hi
        rcases List.mem_cons.mp hi with rfl | hi
        · have := Int.emod_lt_of_pos r.1 (show (0 : Int) < 2 ^ 32 by decide)
          have := Int.emod_nonneg r.1 (show (2 : Int) ^ 32 ≠ 0 by decide)
          omega
        · exact h2 i hi
    · injection h with h; subst h; simp

/-- **C13, what is accepted as text.** A text read as a path begins with `m`, has a `/` for every index,
and the indices are 32-bit numbers. -/
theorem path_text_accepts_only (s : Bytes) (p : List Nat) (h : pathFromString s = .ok p) :
    s.head? = some 109 ∧ p.length ≤ s.count 47 ∧ ∀ i ∈ p, i < 2 ^ 32 := by
  unfold pathFromString at h
  split at h
  · cases h
  · rename_i hh
    obtain ⟨h1, h2⟩ := parsePath_slashes _ _ _ h
    refine ⟨by simpa using hh, Nat.le_trans h1 ((List.drop_sublist _ _).count_le _), h2⟩

private theorem readMany_length {α : Type} (p : Parser α) (n : Nat) (b b' : Buf) (l : List α)
    (h : readMany p n b = .ok (l, b')) : l.length = n := by
  induction n generalizing b b' l with
  | zero =>
    unfold readMany at h
    have : ([], b) = (l, b') := by injection h
    injection this with h1; rw [← h1]; rfl
  | succ n ih =>
    unfold readMany at h
    rw [Parser.bind_run] at h
    cases h1 : p b with
    | throw => rw [h1] at h; cases h
    | ub => rw [h1] at h; cases h
    | ok r =>
      rw [h1] at h
      simp only [Res.bind] at h
      rw [Parser.bind_run] at h
      cases h2 : readMany p n r.2 with
      | throw => rw [h2] at h; cases h
      | ub => rw [h2] at h; cases h
      | ok q =>
        rw [h2] at h
        simp only [Res.bind, Parser.pure_run, Res.ok.injEq, Prod.mk.injEq] at h
        rw [← h.1, List.length_cons, ih _ _ _ h2]

/-- **C13, what is accepted in hexadecimal**: at most four indices. -/
theorem path_hex_accepts_only (s : Bytes) (p : List Nat) (h : pathFromHex s = .ok p) : p.length ≤ 4 := by
  unfold pathFromHex at h
  rw [Res.bind_eq_ok] at h
  obtain ⟨bs, -, h⟩ := h
  rw [Res.bind_eq_ok] at h
  obtain ⟨r, hr, h⟩ := h
  have : r.1 = p := by injection h
  subst this
  unfold readPath at hr
  rw [Parser.bind_run] at hr
  cases hn : readBE 1 ⟨bs, 0⟩ with
  | throw => rw [hn] at hr; cases hr
  | ub => rw [hn] at hr; cases hr
  | ok q =>
    rw [hn] at hr
    simp only [Res.bind] at hr
    split at hr
    · cases hr
    · rename_i hq
      rw [readMany_length _ _ _ _ _ (show readMany (readBE 4) q.1 q.2 = .ok (r.1, r.2) from hr)]
      omega

example : pathFromHex (str "0300000000000000010000000200000000") = .ok [0, 1, 2] := by decide +kernel
example : pathFromHex (str "050000000000000001000000020000000000000000") = .throw := by decide +kernel
example : pathFromString (str "m/0/1/2") = .ok [0, 1, 2] := by decide +kernel
example : pathFromString (str "m10") = .throw := by decide +kernel

/-! ## C15: wallet records -/

/-- **C15, unknown formats.** A record whose format byte is not 0 or 1 is refused, whatever follows. -/
theorem output_record_format (f : UInt8) (rest : Bytes) (h : 1 < f.toNat) :
    recordDeser ⟨f :: rest, 0⟩ = .throw := by
  have hr : readBE 1 ⟨f :: rest, 0⟩ = .ok (f.toNat, ⟨f :: rest, 1⟩) := by
    have h1 : (0 + 1) % U64 = 1 := by decide
    simp only [readBE, Parser.bind_run, readBytes, h1, List.length_cons]
    rw [if_neg (by omega), if_pos (by omega)]
    simp [Res.bind, Parser.pure_run, beVal]
  unfold recordDeser
  rw [Parser.bind_run, hr]
  simp only [Res.bind]
  rw [if_pos h]
  rfl

example : recordDeser ⟨2 :: List.replicate 2000 0, 0⟩ = .throw := output_record_format _ _ (by decide)

end Verif.Props
