import Verif.Codec.KeyPath
import Verif.Props.Hex

/-!
# C13: key-chain paths
-/
namespace Verif.Props
open Verif.Codec

private theorem dec_step (n : Nat) (h : ¬ n < 10) :
    decStr n = decStr (n / 10) ++ [UInt8.ofNat (48 + n % 10)] := by
  rw [decStr, if_neg h]

private theorem digit_toNat (d : Nat) (h : d < 10) : (UInt8.ofNat (48 + d)).toNat = 48 + d :=
  UInt8.toNat_ofNat_of_lt' (show 48 + d < 256 by omega)

private theorem digit_is (d : Nat) (h : d < 10) : isDigit (UInt8.ofNat (48 + d)) = true := by
  have := digit_toNat d h
  simp only [isDigit, Bool.and_eq_true, decide_eq_true_eq, UInt8.le_iff_toNat_le, this]
  exact ⟨show 48 ≤ 48 + d by omega, show 48 + d ≤ 57 by omega⟩

theorem decStr_facts (n : Nat) :
    decStr n ≠ [] ∧ (∀ c ∈ decStr n, isDigit c = true) ∧ decVal (decStr n) = n := by
  induction n using Nat.strongRecOn with
  | _ n ih =>
    by_cases h : n < 10
    · rw [decStr, if_pos h]
      refine ⟨by simp, ?_, ?_⟩
      · intro c hc
        rw [List.mem_singleton.mp hc]
        exact digit_is n h
      · simp only [decVal, List.foldl_cons, List.foldl_nil, digit_toNat n h]; omega
    · obtain ⟨-, h2, h3⟩ := ih (n / 10) (by omega)
      rw [dec_step n h]
      refine ⟨by simp, ?_, ?_⟩
      · intro c hc
        rcases List.mem_append.mp hc with hc | hc
        · exact h2 c hc
        · rw [List.mem_singleton.mp hc]; exact digit_is _ (Nat.mod_lt _ (by decide))
      · rw [decVal, List.foldl_append] 
        have h3' : List.foldl (fun a (c : UInt8) => 10 * a + (c.toNat - 48)) 0 (decStr (n / 10)) = n / 10 := h3
        rw [h3']
        simp only [List.foldl_cons, List.foldl_nil, digit_toNat (n % 10) (Nat.mod_lt _ (by decide))]
        omega

private theorem isDigit_range (c : UInt8) (h : isDigit c = true) : 48 ≤ c.toNat ∧ c.toNat ≤ 57 := by
  simp only [isDigit, Bool.and_eq_true, decide_eq_true_eq, UInt8.le_iff_toNat_le] at h
  exact h

/-- `stoi` on the text of a number followed by something that is not a digit. -/
private theorem stoi_dec (n : Nat) (rest : Bytes) (hr : ∀ c ∈ rest.head?, isDigit c = false) :
    stoi (decStr n ++ rest) = if n < 2 ^ 31 then .ok ((n : Int), (decStr n).length) else .throw := by
  obtain ⟨hne, hd, hv⟩ := decStr_facts n
  have hhead : ∀ c ∈ (decStr n ++ rest).head?, isDigit c = true := by
    intro c hc
    cases hs : decStr n with
    | nil => exact absurd hs hne
    | cons x xs =>
      rw [hs] at hc
      simp only [List.cons_append, List.head?_cons, Option.mem_some_iff] at hc
      subst hc
      exact hd x (by rw [hs]; simp)
  have hsp : ∀ c, isDigit c = true → isSpace c = false := by
    intro c hc
    have := isDigit_range c hc
    cases hs : isSpace c with
    | false => rfl
    | true =>
      simp only [isSpace, Bool.or_eq_true, beq_iff_eq] at hs
      rcases hs with ((((h | h) | h) | h) | h) | h <;> rw [h] at this <;> exact absurd this (by decide)
  have htw : (decStr n ++ rest).takeWhile isSpace = [] := by
    cases hs : decStr n ++ rest with
    | nil => rfl
    | cons x xs =>
      rw [hs] at hhead
      rw [List.takeWhile_cons, hsp x (hhead x rfl)]; rfl
  have hdw : (decStr n ++ rest).dropWhile isSpace = decStr n ++ rest :=
    dropWhile_head (fun c hc => hsp c (hhead c hc))
  have hn45 : ¬ (decStr n ++ rest).head? = some 45 := by
    intro h; have := hhead 45 h; exact absurd this (by decide)
  have hn43 : ¬ (decStr n ++ rest).head? = some 43 := by
    intro h; have := hhead 43 h; exact absurd this (by decide)
  have hdig : (decStr n ++ rest).takeWhile isDigit = decStr n := by
    rw [List.takeWhile_append_of_pos hd]
    cases rest with
    | nil => simp
    | cons c t => rw [List.takeWhile_cons, hr c rfl]; simp
  simp only [stoi, htw, hdw, hn45, hn43, or_self, if_false, List.drop_zero, hdig, hne, hv,
    List.length_nil, Nat.zero_add]
  by_cases hlt : n < 2 ^ 31
  · rw [if_pos hlt, if_neg (by omega)]
  · rw [if_neg hlt, if_pos (by omega)]

private theorem path_head (p : List Nat) : ∀ c ∈ (p.flatMap fun i => str "/" ++ decStr i).head?,
    isDigit c = false := by
  intro c hc
  cases p with
  | nil => cases hc
  | cons i p =>
    have : ((i :: p).flatMap fun i => str "/" ++ decStr i) =
      47 :: (decStr i ++ p.flatMap fun i => str "/" ++ decStr i) := by
      rw [List.flatMap_cons, List.append_assoc]; rfl
    rw [this] at hc
    simp only [List.head?_cons, Option.mem_some_iff] at hc
    rw [← hc]; decide

private theorem parse_format (p : List Nat) (fuel : Nat)
    (hf : (p.flatMap fun i => str "/" ++ decStr i).length ≤ fuel) :
    parsePath fuel (p.flatMap fun i => str "/" ++ decStr i) =
      if ∀ i ∈ p, i < 2 ^ 31 then .ok p else .throw := by
  induction p generalizing fuel with
  | nil => cases fuel <;> simp [parsePath]
  | cons i p ih =>
    have he : ((i :: p).flatMap fun i => str "/" ++ decStr i) =
      47 :: (decStr i ++ p.flatMap fun i => str "/" ++ decStr i) := by
      rw [List.flatMap_cons, List.append_assoc]; rfl
    obtain ⟨hne, -, -⟩ := decStr_facts i
    have hlen : 0 < (decStr i).length := List.length_pos_iff.mpr hne
    rw [he] at hf ⊢
    rw [List.length_cons, List.length_append] at hf
    cases fuel with
    | zero => omega
    | succ fuel =>
      rw [parsePath, if_pos (by rw [List.length_cons, List.length_append]; omega), if_neg (by simp)]
      rw [List.drop_one, List.tail_cons, stoi_dec i _ (path_head p)]
      by_cases hi : i < 2 ^ 31
      · rw [if_pos hi, Res.ok_bind]
        simp only [List.drop_left]
        rw [ih fuel (by omega)]
        by_cases hp : ∀ j ∈ p, j < 2 ^ 31
        · rw [if_pos hp, if_pos (by
            intro j hj
            rcases List.mem_cons.mp hj with rfl | hj
            · exact hi
            · exact hp j hj), Res.ok_bind]
          have : ((i : Int) % 2 ^ 32).toNat = i := by
            rw [Int.emod_eq_of_lt (by omega) (by omega)]; simp
          rw [this]; rfl
        · rw [if_neg hp, if_neg (fun h => hp (fun j hj => h j (List.mem_cons_of_mem _ hj)))]
          rfl
      · rw [if_neg hi, if_neg (fun h => hi (h i (List.mem_cons_self ..)))]
        rfl

/-- **C13, text.** A formatted path of any length parses to itself exactly when all its indices are below
`2^31`; otherwise parsing throws. -/
theorem path_text_roundtrip_partial (p : List Nat) :
    pathFromString (formatPath p) = if ∀ i ∈ p, i < 2 ^ 31 then .ok p else .throw := by
  have h1 : formatPath p = 109 :: p.flatMap fun i => str "/" ++ decStr i := rfl
  rw [pathFromString, h1, if_neg (by simp), List.drop_one, List.tail_cons]
  exact parse_format p _ (by rw [List.length_cons]; omega)

example : pathFromString (str "m/0/1/2147483647") = .ok [0, 1, 2147483647] ∧
    formatPath [0, 1, 2147483647] = str "m/0/1/2147483647" := by
  have : formatPath [0, 1, 2147483647] = str "m/0/1/2147483647" := by decide +kernel
  refine ⟨?_, this⟩
  rw [← this, path_text_roundtrip_partial]; decide +kernel

/-- **C13 fails** for hardened indices: the text of a path with an index from `2^31` on is refused. -/
theorem path_text_violated : pathFromString (formatPath [0, 2 ^ 31]) = .throw := by
  rw [path_text_roundtrip_partial]; decide

/-- The parser ignores a trailing character that belongs to no index. -/
theorem path_text_lax : pathFromString (str "m5") = .ok [] ∧ pathFromString (str "m/-1") = .ok [2 ^ 32 - 1] := by
  decide +kernel

/-- **C13, hexadecimal.** Paths of up to four 32-bit indices round-trip through their hexadecimal form,
always 34 characters. -/
theorem path_hex_roundtrip (p : List Nat) (hl : p.length ≤ 4) (h : ∀ i ∈ p, i < 2 ^ 32) :
    pathFromHex (pathToHex p) = .ok p := by
  rw [pathFromHex, pathToHex, hex_roundtrip, Res.ok_bind]
  have hR : ∀ tail, beBytes 4 (p.getD 0 0) ++ (beBytes 4 (p.getD 1 0) ++
    (beBytes 4 (p.getD 2 0) ++ beBytes 4 (p.getD 3 0))) = serMany (beBytes 4) p ++ tail →
    (beBytes 1 (p.length % 256) ++ (serMany (beBytes 4) p ++ tail)).length < U64 →
    (readPath ⟨beBytes 1 (p.length % 256) ++ (serMany (beBytes 4) p ++ tail), 0⟩ >>=
      fun r => (pure r.1 : Res (List Nat))) = .ok p := by
    intro tail _ hlen
    have : Reads readPath (beBytes 1 (p.length % 256) ++ serMany (beBytes 4) p) p := by
      unfold readPath
      rw [Nat.mod_eq_of_lt (by omega)]
      refine Reads.bind (reads_u8 (by omega)) ?_
      rw [if_neg (by omega)]
      exact reads_many (fun i hi => reads_u32 (h i hi))
    have := this [] tail (by simpa using hlen)
    simp only [List.nil_append, List.append_assoc, List.length_nil] at this
    rw [this]; rfl
  have hlen4 : ∀ a b c d : Nat, (beBytes 4 a ++ (beBytes 4 b ++ (beBytes 4 c ++ beBytes 4 d))).length = 16 := by
    intro a b c d; simp only [List.length_append, beBytes_length]
  have hU : ∀ t : Bytes, t.length = 16 → (beBytes 1 (p.length % 256) ++ t).length < U64 := by
    intro t ht; rw [List.length_append, beBytes_length, ht]; decide
  have fin : ∀ tail, beBytes 4 (p.getD 0 0) ++ (beBytes 4 (p.getD 1 0) ++
    (beBytes 4 (p.getD 2 0) ++ beBytes 4 (p.getD 3 0))) = serMany (beBytes 4) p ++ tail →
    (readPath ⟨beBytes 1 (p.length % 256) ++ (beBytes 4 (p.getD 0 0) ++ (beBytes 4 (p.getD 1 0) ++
    (beBytes 4 (p.getD 2 0) ++ beBytes 4 (p.getD 3 0)))), 0⟩ >>=
      fun r => (pure r.1 : Res (List Nat))) = .ok p := by
    intro tail e
    have := hU _ (hlen4 (p.getD 0 0) (p.getD 1 0) (p.getD 2 0) (p.getD 3 0))
    rw [e] at this ⊢
    exact hR tail e this
  match p, hl with
  | [], _ => exact fin (beBytes 4 0 ++ (beBytes 4 0 ++ (beBytes 4 0 ++ beBytes 4 0))) (by simp [serMany])
  | [a], _ => exact fin (beBytes 4 0 ++ (beBytes 4 0 ++ beBytes 4 0)) (by simp [serMany])
  | [a, b], _ => exact fin (beBytes 4 0 ++ beBytes 4 0) (by simp [serMany])
  | [a, b, c], _ => exact fin (beBytes 4 0) (by simp [serMany])
  | [a, b, c, d], _ => exact fin [] (by simp [serMany])

example : pathToHex [0, 1] = str "0200000000000000010000000000000000" := by decide +kernel

private theorem many_length (p : List Nat) : (serMany (beBytes 4) p).length = 4 * p.length := by
  induction p with
  | nil => rfl
  | cons i p ih =>
    have : serMany (beBytes 4) (i :: p) = beBytes 4 i ++ serMany (beBytes 4) p := by simp [serMany]
    rw [this, List.length_append, beBytes_length, ih, List.length_cons]; omega

/-- The first three of four words. -/
private def firstThree (p : List Nat) : List Nat := [p.getD 0 0, p.getD 1 0, p.getD 2 0]

private theorem take_three (p : List Nat) (hl : p.length ≤ 4) :
    ∃ tail, serMany (beBytes 4) p ++ List.replicate (16 - 4 * p.length) (0 : UInt8) =
      serMany (beBytes 4) (firstThree p) ++ tail := by
  have hz : beBytes 4 0 = [0, 0, 0, 0] := by decide
  match p, hl with
  | [], _ => exact ⟨[0, 0, 0, 0], by decide⟩
  | [a], _ => exact ⟨[0, 0, 0, 0], by simp [serMany, firstThree, hz, List.replicate]⟩
  | [a, b], _ => exact ⟨[0, 0, 0, 0], by simp [serMany, firstThree, hz, List.replicate]⟩
  | [a, b, c], _ => exact ⟨[0, 0, 0, 0], by simp [serMany, firstThree, List.replicate]⟩
  | [a, b, c, d], _ => exact ⟨beBytes 4 d, by simp [serMany, firstThree]⟩

/-- **C13, range-proof messages.** What a wallet reads back from the message of a path of up to four
32-bit indices: from an enhanced proof the path itself, or three zeros if it was empty; from an original
proof always the first three indices, with zeros for missing ones. -/
theorem proof_message_roundtrip_partial (p : List Nat) (t : ProofType) (hl : p.length ≤ 4)
    (h : ∀ i ∈ p, i < 2 ^ 32) :
    ∃ bs, proofMessage p t = .ok bs ∧ bs.length = 20 ∧
      proofIndices bs t = .ok (match t with
        | .enhanced => if p = [] then [0, 0, 0] else p
        | .original => [p.getD 0 0, p.getD 1 0, p.getD 2 0]) := by
  have hml := many_length p
  have h3 : ∀ i ∈ firstThree p, i < 2 ^ 32 := by
    have hg : ∀ k, p.getD k 0 < 2 ^ 32 := by
      intro k
      rw [List.getD_eq_getElem?_getD]
      cases hk : p[k]? with
      | none => simp
      | some x => exact h x (List.mem_of_getElem? hk)
    intro i hi
    simp only [firstThree, List.mem_cons, List.not_mem_nil, or_false] at hi
    rcases hi with rfl | rfl | rfl <;> exact hg _
  obtain ⟨tail, htail⟩ := take_three p hl
  have hlen : (serMany (beBytes 4) p ++ List.replicate (16 - 4 * p.length) (0 : UInt8)).length = 16 := by
    rw [List.length_append, hml, List.length_replicate]; omega
  -- reading with a given head
  have key : ∀ (head : Bytes) (n : Nat) (q : List Nat) (rest : Bytes), head.length = 4 →
      (serMany (beBytes 4) p ++ List.replicate (16 - 4 * p.length) (0 : UInt8)) =
        serMany (beBytes 4) q ++ rest → (if n = 0 then 3 else n) = q.length → (∀ i ∈ q, i < 2 ^ 32) →
      ∀ (len : Parser Nat), Reads len head n →
      ((len >>= fun length => readMany (readBE 4) (if length = 0 then 3 else length))
        ⟨head ++ serMany (beBytes 4) p ++ List.replicate (16 - 4 * p.length) 0, 0⟩ >>=
        fun r => (pure r.1 : Res (List Nat))) = .ok q := by
    intro head n q rest hh he hn hq len hlen'
    have hR : Reads (len >>= fun length => readMany (readBE 4) (if length = 0 then 3 else length))
        (head ++ serMany (beBytes 4) q) q := by
      refine Reads.bind hlen' ?_
      rw [hn]
      exact reads_many (fun i hi => reads_u32 (hq i hi))
    have := hR [] rest (by
      have e := congrArg List.length he
      rw [hlen, List.length_append] at e
      simp only [List.nil_append, List.length_append, hh]
      have : (20 : Nat) < U64 := by decide
      omega)
    simp only [List.nil_append, List.append_assoc, List.length_nil] at this
    rw [List.append_assoc, he, this]
    rfl
  cases t with
  | original =>
    refine ⟨_, by simp only [proofMessage]; rw [if_neg (by omega)], ?_, ?_⟩
    · rw [List.append_assoc, List.length_append, hlen]; rfl
    · refine key [0, 0, 0, 0] 3 (firstThree p) tail rfl htail rfl h3 _ ?_
      have := Reads.bind (f := fun first => if first ≠ 0 then Parser.fail else pure 3)
        (reads_u32 (x := 0) (by decide)) (by
          rw [if_neg (by simp)]; exact Reads.pure 3)
      exact this
  | enhanced =>
    refine ⟨_, by simp only [proofMessage]; rw [if_neg (by omega)], ?_, ?_⟩
    · rw [List.append_assoc, List.length_append, hlen]; rfl
    · have hhead : Reads (do
          let _ ← readBE 1
          let _ ← readBE 1
          let _ ← readBE 1
          readBE 1 : Parser Nat) [0, 0, 1, UInt8.ofNat p.length] p.length := by
        have := Reads.bind (f := fun _ => (do
          let _ ← readBE 1
          let _ ← readBE 1
          readBE 1 : Parser Nat)) (reads_u8 (x := 0) (by decide)) (Reads.bind (f := fun _ => (do
          let _ ← readBE 1
          readBE 1 : Parser Nat)) (reads_u8 (x := 0) (by decide)) (Reads.bind (f := fun _ => readBE 1)
          (reads_u8 (x := 1) (by decide)) (reads_u8 (x := p.length) (by omega))))
        have e : beBytes 1 0 ++ (beBytes 1 0 ++ (beBytes 1 1 ++ beBytes 1 p.length)) =
            [0, 0, 1, UInt8.ofNat p.length] := by
          have hp : p.length = 0 ∨ p.length = 1 ∨ p.length = 2 ∨ p.length = 3 ∨ p.length = 4 := by omega
          rcases hp with h | h | h | h | h <;> rw [h] <;> decide
        exact Reads.congr this e rfl
      by_cases h0 : p = []
      · subst h0
        rw [if_pos rfl]
        exact key _ 0 [0, 0, 0] [0, 0, 0, 0] rfl (by decide) rfl (by decide) _ hhead
      · rw [if_neg h0]
        have hpl : p.length ≠ 0 := fun h => h0 (List.eq_nil_of_length_eq_zero h)
        exact key _ p.length p _ rfl rfl (if_neg hpl) h _ hhead

/-- **C13 for wallet paths.** The paths the wallet uses for outputs, three indices, are recovered from
proofs of either type. -/
theorem proof_message_wallet (a b c : Nat) (t : ProofType) (ha : a < 2 ^ 32) (hb : b < 2 ^ 32)
    (hc : c < 2 ^ 32) :
    ∃ bs, proofMessage [a, b, c] t = .ok bs ∧ proofIndices bs t = .ok [a, b, c] := by
  obtain ⟨bs, h1, -, h2⟩ := proof_message_roundtrip_partial [a, b, c] t (by simp)
    (by intro i hi; simp at hi; omega)
  refine ⟨bs, h1, ?_⟩
  cases t <;> exact h2

/-- **C13 fails** for an empty path, for original proofs of paths that do not have three indices, and
beyond four indices, where the message buffer is overrun. -/
theorem proof_message_violated :
    (proofMessage [] .enhanced >>= fun bs => proofIndices bs .enhanced) = .ok [0, 0, 0] ∧
    (proofMessage [1, 2] .original >>= fun bs => proofIndices bs .original) = .ok [1, 2, 0] ∧
    (proofMessage [1, 2, 3, 4] .original >>= fun bs => proofIndices bs .original) = .ok [1, 2, 3] ∧
    proofMessage [1, 2, 3, 4, 5] .enhanced = .ub := by decide +kernel

end Verif.Props
