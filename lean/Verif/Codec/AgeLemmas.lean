import Verif.Codec.Age
import Verif.Props.Base64

/-!
# Lemmas on age encryption
-/
namespace Verif.Codec

open Verif.Props

theorem chachaXor_length (E : AgeEnv) (k n p : Bytes) : (chachaXor E k n p).length = p.length := by
  simp [chachaXor]

theorem chachaXor_twice (E : AgeEnv) (k n p : Bytes) : chachaXor E k n (chachaXor E k n p) = p := by
  simp only [chachaXor]
  apply List.ext_getElem
  · simp
  · intro i h1 h2
    simp only [List.getElem_mapIdx]
    rw [UInt8.xor_assoc, UInt8.xor_self, UInt8.xor_zero]

theorem sealBox_length (E : AgeEnv) (k n p : Bytes) : (sealBox E k n p).length = p.length + 16 := by
  simp [sealBox, chachaXor_length, E.tag_length]

theorem openBox_seal (E : AgeEnv) (k n p : Bytes) : openBox E k n (sealBox E k n p) = .ok p := by
  have hl := sealBox_length E k n p
  have h1 : (sealBox E k n p).take (p.length) = chachaXor E k n p := by
    rw [sealBox, List.take_append_of_le_length (by rw [chachaXor_length]; omega),
      List.take_of_length_le (by rw [chachaXor_length]; omega)]
  have h2 : (sealBox E k n p).drop (p.length) = E.tag k n (chachaXor E k n p) := by
    rw [sealBox, List.drop_append_of_le_length (by rw [chachaXor_length]; omega),
      List.drop_of_length_le (by rw [chachaXor_length]; omega)]
    rfl
  unfold openBox
  rw [if_neg (by omega), hl, Nat.add_sub_cancel]
  simp only [h1, h2, if_true, chachaXor_twice]

theorem openBox_ok (E : AgeEnv) (k n c p : Bytes) (h : openBox E k n c = .ok p) : c = sealBox E k n p := by
  unfold openBox at h
  by_cases hl : c.length < 16
  · rw [if_pos hl] at h; cases h
  · rw [if_neg hl] at h
    simp only at h
    by_cases ht : E.tag k n (c.take (c.length - 16)) = c.drop (c.length - 16)
    · rw [if_pos ht] at h
      injection h with h
      rw [sealBox, ← h, chachaXor_twice, ht, List.take_append_drop]
    · rw [if_neg ht] at h; cases h

theorem openBox_ub (E : AgeEnv) (k n c : Bytes) (h : openBox E k n c = .ub) : c.length < 16 := by
  unfold openBox at h
  by_cases hl : c.length < 16
  · exact hl
  · rw [if_neg hl] at h
    simp only at h
    split at h <;> cases h

private theorem incRev_beBytes (n x : Nat) (h : x + 1 < 256 ^ n) :
    incRev (beBytes n x).reverse = .ok (beBytes n (x + 1)).reverse := by
  induction n generalizing x with
  | zero => simp at h
  | succ n ih =>
    rw [beBytes, beBytes, List.reverse_append, List.reverse_append]
    simp only [List.reverse_singleton, List.singleton_append]
    rw [incRev]
    by_cases hx : UInt8.ofNat x = 255
    · have hm : x % 256 = 255 := by
        have := congrArg UInt8.toNat hx
        rw [UInt8.toNat_ofNat'] at this
        exact this
      rw [if_pos hx, ih (x / 256) (by rw [Nat.pow_succ] at h; omega)]
      have h1 : (x + 1) / 256 = x / 256 + 1 := by omega
      have h2 : UInt8.ofNat (x + 1) = 0 := by
        apply UInt8.toNat_inj.mp
        rw [UInt8.toNat_ofNat']
        show (x + 1) % 256 = 0
        omega
      rw [h1, h2]; rfl
    · have hm : x % 256 ≠ 255 := by
        intro hm
        apply hx
        apply UInt8.toNat_inj.mp
        rw [UInt8.toNat_ofNat']
        exact hm
      rw [if_neg hx]
      have h1 : (x + 1) / 256 = x / 256 := by omega
      rw [h1]
      have h2 : UInt8.ofNat x + 1 = UInt8.ofNat (x + 1) := by
        apply UInt8.toNat_inj.mp
        rw [UInt8.toNat_add, UInt8.toNat_ofNat', UInt8.toNat_ofNat']
        show (x % 256 + 1) % 256 = (x + 1) % 256
        omega
      rw [h2]

theorem incBE_beBytes (n x : Nat) (h : x + 1 < 256 ^ n) : incBE (beBytes n x) = .ok (beBytes n (x + 1)) := by
  rw [incBE, incRev_beBytes n x h]
  simp

/-- The chunks of a text, sealed: the nonce of each is its number in eleven bytes and a byte that is one for
the last chunk only. -/
def sealFrom (E : AgeEnv) (k : Bytes) (i : Nat) : List Bytes → Bytes
  | [] => []
  | [q] => sealBox E k (beBytes 11 i ++ [1]) q
  | q :: q' :: qs => sealBox E k (beBytes 11 i ++ [0]) q ++ sealFrom E k (i + 1) (q' :: qs)

/-- All chunks but the last have 65536 bytes, and the last no more. -/
def Chunked : List Bytes → Prop
  | [] => True
  | [q] => q.length ≤ 65536
  | q :: q' :: qs => q.length = 65536 ∧ Chunked (q' :: qs)

theorem sealFrom_length (E : AgeEnv) (k : Bytes) (i : Nat) (qs : List Bytes) :
    (sealFrom E k i qs).length = qs.flatten.length + 16 * qs.length := by
  induction qs generalizing i with
  | nil => rfl
  | cons q qs ih =>
    cases qs with
    | nil => simp [sealFrom, sealBox_length]
    | cons q' qs =>
      rw [sealFrom, List.length_append, sealBox_length, ih]
      simp only [List.flatten_cons, List.length_append, List.length_cons]
      omega

private theorem counter_ok {i : Nat} (h : i < 2 ^ 64) : incBE (beBytes 11 i) = .ok (beBytes 11 (i + 1)) :=
  incBE_beBytes 11 i (Nat.lt_of_lt_of_le (Nat.succ_lt_succ h) (by decide +kernel))

theorem streamEncGo_ok (E : AgeEnv) (k : Bytes) (fuel i : Nat) (data : Bytes) (hf : data.length ≤ fuel)
    (hi : i + data.length < 2 ^ 64) :
    ∃ qs, streamEncGo E k fuel (beBytes 11 i) data = .ok (sealFrom E k i qs) ∧ qs.flatten = data ∧ Chunked qs ∧
      ∀ q ∈ qs, q ≠ [] := by
  induction fuel generalizing i data with
  | zero =>
    have : data = [] := List.length_eq_zero_iff.mp (by omega)
    subst this
    exact ⟨[], by simp [streamEncGo, sealFrom], rfl, trivial, by simp⟩
  | succ fuel ih =>
    by_cases hd : data = []
    · subst hd
      exact ⟨[], by simp [streamEncGo, sealFrom], rfl, trivial, by simp⟩
    · have hpos : 0 < data.length := List.length_pos_iff.mpr hd
      have hlen : (data.drop (min 65536 data.length)).length = data.length - min 65536 data.length := List.length_drop
      obtain ⟨qs, he, hfl, hch, hne⟩ := ih (i + 1) (data.drop (min 65536 data.length)) (by omega) (by omega)
      rw [streamEncGo, if_neg hd, counter_ok (by omega)]
      simp only [Res.ok_bind, he, Res.pure_eq]
      refine ⟨data.take (min 65536 data.length) :: qs, ?_, ?_, ?_, ?_⟩
      · cases qs with
        | nil =>
          have h0 : data.drop (min 65536 data.length) = [] := hfl.symm
          simp only [h0, if_true, sealFrom, List.append_nil]
        | cons q' qs =>
          have h0 : data.drop (min 65536 data.length) ≠ [] := by
            rw [← hfl, List.flatten_cons]
            intro hc
            exact hne q' (List.mem_cons_self ..) (List.append_eq_nil_iff.mp hc).1
          simp only [h0, if_false, sealFrom]
      · rw [List.flatten_cons, hfl, List.take_append_drop]
      · cases qs with
        | nil => show (data.take _).length ≤ 65536; rw [List.length_take]; omega
        | cons q' qs =>
          have h0 : (data.drop (min 65536 data.length)).length ≠ 0 := by
            rw [← hfl, List.flatten_cons, List.length_append]
            have := List.length_pos_iff.mpr (hne q' (List.mem_cons_self ..))
            omega
          refine ⟨?_, hch⟩
          rw [List.length_take]; omega
      · intro q hq
        rcases List.mem_cons.mp hq with rfl | hq
        · intro hc
          have := congrArg List.length hc
          rw [List.length_take] at this
          simp only [List.length_nil] at this
          omega
        · exact hne q hq

theorem streamDecGo_seal (E : AgeEnv) (k : Bytes) (qs : List Bytes) (fuel i : Nat) (hch : Chunked qs)
    (hf : (sealFrom E k i qs).length ≤ fuel) (hi : i + (sealFrom E k i qs).length < 2 ^ 64) :
    streamDecGo E k fuel (beBytes 11 i) (sealFrom E k i qs) = .ok qs.flatten := by
  induction qs generalizing fuel i with
  | nil => cases fuel <;> simp [streamDecGo, sealFrom]
  | cons q qs ih =>
    cases qs with
    | nil =>
      have hq : q.length ≤ 65536 := hch
      rw [sealFrom_length] at hf hi
      simp only [List.flatten_cons, List.length_append, List.flatten_nil, List.length_nil, List.length_cons] at hf hi
      cases fuel with
      | zero => omega
      | succ fuel =>
        have hl := sealBox_length E k (beBytes 11 i ++ [1]) q
        have hne : sealFrom E k i [q] ≠ [] := by
          intro hc
          have := congrArg List.length hc
          rw [sealFrom, hl, List.length_nil] at this
          omega
        have hm : min 65552 (sealFrom E k i [q]).length = (sealFrom E k i [q]).length := by
          rw [sealFrom, hl]; omega
        rw [streamDecGo, if_neg hne, hm, List.drop_length, List.take_length, counter_ok (by omega)]
        simp only [if_true, sealFrom, openBox_seal, Res.ok_bind]
        cases fuel <;> simp [streamDecGo]
    | cons q' qs =>
      obtain ⟨hq, hch'⟩ := hch
      have hL := sealFrom_length E k (i + 1) (q' :: qs)
      have hl := sealBox_length E k (beBytes 11 i ++ [0]) q
      have hs : sealFrom E k i (q :: q' :: qs) = sealBox E k (beBytes 11 i ++ [0]) q ++ sealFrom E k (i + 1) (q' :: qs) := rfl
      simp only [List.length_cons] at hL
      cases fuel with
      | zero => rw [hs, List.length_append] at hf; omega
      | succ fuel =>
        rw [hs, List.length_append] at hf hi
        have hne : sealFrom E k i (q :: q' :: qs) ≠ [] := by
          intro hc
          have := congrArg List.length hc
          rw [hs, List.length_append, List.length_nil] at this
          omega
        have hm : min 65552 (sealFrom E k i (q :: q' :: qs)).length = (sealBox E k (beBytes 11 i ++ [0]) q).length := by
          rw [hs, List.length_append]; omega
        have hrest : sealFrom E k (i + 1) (q' :: qs) ≠ [] := by
          intro hc
          have := congrArg List.length hc
          rw [List.length_nil] at this
          omega
        rw [streamDecGo, if_neg hne, hm, counter_ok (by omega), hs, List.drop_left, List.take_left]
        simp only [hrest, if_false, openBox_seal, Res.ok_bind]
        rw [ih fuel (i + 1) hch' (by omega) (by omega)]
        simp

theorem streamDecGo_ok (E : AgeEnv) (k : Bytes) (fuel i : Nat) (data p : Bytes) (hf : data.length ≤ fuel)
    (hi : i + data.length < 2 ^ 64) (h : streamDecGo E k fuel (beBytes 11 i) data = .ok p) :
    ∃ qs, data = sealFrom E k i qs ∧ p = qs.flatten ∧ Chunked qs := by
  induction fuel generalizing i data p with
  | zero =>
    have : data = [] := List.length_eq_zero_iff.mp (by omega)
    subst this
    simp [streamDecGo] at h
    exact ⟨[], rfl, by simp [h], trivial⟩
  | succ fuel ih =>
    rw [streamDecGo] at h
    by_cases hd : data = []
    · rw [if_pos hd] at h
      injection h with h
      exact ⟨[], hd, h.symm, trivial⟩
    · have hpos : 0 < data.length := List.length_pos_iff.mpr hd
      rw [if_neg hd, counter_ok (by omega)] at h
      simp only [Res.bind_eq_ok, Res.pure_eq, Res.ok_bind] at h
      obtain ⟨q, hq, r, hr, hp⟩ := h
      have hlen : (data.drop (min 65552 data.length)).length = data.length - min 65552 data.length := List.length_drop
      have hlt : (data.take (min 65552 data.length)).length = min 65552 data.length := by rw [List.length_take]; omega
      obtain ⟨qs, he, hfl, hch⟩ := ih (i + 1) _ r (by omega) (by omega) hr
      have hb := openBox_ok _ _ _ _ _ hq
      have hql : min 65552 data.length = q.length + 16 := by rw [← hlt, hb, sealBox_length]
      injection hp with hp
      refine ⟨q :: qs, ?_, ?_, ?_⟩
      · rw [← List.take_append_drop (min 65552 data.length) data]
        cases qs with
        | nil =>
          have h0 : data.drop (min 65552 data.length) = [] := he
          rw [if_pos h0] at hb
          rw [h0, hb, List.append_nil]
          rfl
        | cons q' qs =>
          have h0 : data.drop (min 65552 data.length) ≠ [] := by
            rw [he]
            intro hc
            have := congrArg List.length hc
            rw [sealFrom_length, List.length_nil, List.length_cons] at this
            omega
          rw [if_neg h0] at hb
          rw [he, hb]
          rfl
      · rw [← hp, List.flatten_cons, hfl]
      · cases qs with
        | nil => show q.length ≤ 65536; omega
        | cons q' qs =>
          refine ⟨?_, hch⟩
          have h0 : (data.drop (min 65552 data.length)).length ≠ 0 := by
            rw [he, sealFrom_length, List.length_cons]
            omega
          omega

theorem streamDecGo_ub (E : AgeEnv) (k : Bytes) (fuel i : Nat) (data : Bytes) (hf : data.length ≤ fuel)
    (hi : i + data.length < 2 ^ 64) (h : streamDecGo E k fuel (beBytes 11 i) data = .ub) :
    0 < data.length % 65552 ∧ data.length % 65552 < 16 := by
  induction fuel generalizing i data with
  | zero =>
    have : data = [] := List.length_eq_zero_iff.mp (by omega)
    subst this
    simp [streamDecGo] at h
  | succ fuel ih =>
    rw [streamDecGo] at h
    by_cases hd : data = []
    · rw [if_pos hd] at h; cases h
    · have hpos : 0 < data.length := List.length_pos_iff.mpr hd
      rw [if_neg hd, counter_ok (by omega)] at h
      have hlen : (data.drop (min 65552 data.length)).length = data.length - min 65552 data.length := List.length_drop
      have hlt : (data.take (min 65552 data.length)).length = min 65552 data.length := by rw [List.length_take]; omega
      simp only [Res.ok_bind] at h
      rw [Res.bind_eq_ub] at h
      rcases h with h | ⟨q, _, h⟩
      · have := openBox_ub _ _ _ _ h
        rw [hlt] at this
        rw [Nat.mod_eq_of_lt (by omega)]
        omega
      · rw [Res.bind_eq_ub] at h
        rcases h with h | ⟨r, _, h⟩
        · have := ih (i + 1) _ (by omega) (by omega) h
          rw [hlen] at this
          by_cases hb : 65552 ≤ data.length
          · rw [Nat.min_eq_left hb, ← Nat.mod_eq_sub_mod hb] at this
            exact this
          · rw [Nat.min_eq_right (by omega), Nat.sub_self, Nat.zero_mod] at this
            omega
        · cases h

/-! ## The header -/

theorem str_arrow : str "-> X25519 " = [45, 62, 32, 88, 50, 53, 53, 49, 57, 32] := by decide +kernel
theorem str_dashes : str "---" = [45, 45, 45] := by decide +kernel
theorem str_dashes_sp : str "--- " = [45, 45, 45] ++ [32] := by decide +kernel
theorem str_v1 : str "age-encryption.org/v1\n" = str "age-encryption.org/v1" ++ [10] := by decide +kernel

private theorem alphabet_ok : ∀ c ∈ b64Alphabet, c ≠ 10 ∧ c ≠ 32 ∧ c ≠ 45 ∧ isSpace c = false := by decide +kernel

theorem b64_chars (x : Bytes) : ∀ c ∈ b64Encode false x, c ≠ 10 ∧ c ≠ 32 ∧ c ≠ 45 ∧ isSpace c = false :=
  fun c hc => alphabet_ok c ((base64_text x).2 c hc)

theorem ageLines_line (t s cur : Bytes) (ht : 10 ∉ t) :
    ageLines (t ++ 10 :: s) cur =
      if startsWith (cur ++ t) (str "---") then .ok ([cur ++ t], s)
      else (do let r ← ageLines s []; return ((cur ++ t) :: r.1, r.2)) := by
  induction t generalizing cur with
  | nil => rw [List.nil_append, ageLines, if_pos rfl, List.append_nil]
  | cons c t ih =>
    rw [List.mem_cons, not_or] at ht
    rw [List.cons_append, ageLines, if_neg (fun e => ht.1 e.symm), ih _ ht.2, List.append_assoc]
    rfl

private theorem not_dashes {t : Bytes} (h : 45 ∉ t) : startsWith t (str "---") = false := by
  rw [startsWith, str_dashes]
  cases t with
  | nil => rfl
  | cons c t =>
    rw [List.mem_cons, not_or] at h
    simp [List.isPrefixOf, h.1]

private theorem arrow_not_dashes (t : Bytes) : startsWith (str "-> X25519 " ++ t) (str "---") = false := by
  rw [startsWith, str_dashes, str_arrow]
  simp [List.isPrefixOf]

/-- The lines of the encoded recipients. -/
def linesOf (ls : List RecipientLine) : List Bytes :=
  (ls.map fun l => [str "-> X25519 " ++ b64Encode false l.ephemeral, b64Encode false l.fileKey]).flatten

theorem ageLines_recipients (ls : List RecipientLine) (s : Bytes) (r : List Bytes × Bytes)
    (h : ageLines s [] = .ok r) : ageLines (encodeLines ls ++ s) [] = .ok (linesOf ls ++ r.1, r.2) := by
  induction ls with
  | nil => simpa [encodeLines, linesOf] using h
  | cons l ls ih =>
    have e : encodeLines (l :: ls) ++ s
        = (str "-> X25519 " ++ b64Encode false l.ephemeral) ++ 10 :: (b64Encode false l.fileKey ++ 10 :: (encodeLines ls ++ s)) := by
      simp [encodeLines, encodeLine]
    have h1 : (10 : UInt8) ∉ str "-> X25519 " ++ b64Encode false l.ephemeral := by
      rw [List.mem_append, not_or]
      exact ⟨by decide +kernel, fun hm => (b64_chars _ _ hm).1 rfl⟩
    have h2 : (10 : UInt8) ∉ b64Encode false l.fileKey := fun hm => (b64_chars _ _ hm).1 rfl
    have h3 : (45 : UInt8) ∉ b64Encode false l.fileKey := fun hm => (b64_chars _ _ hm).2.2.1 rfl
    rw [e, ageLines_line _ _ _ h1, List.nil_append, arrow_not_dashes, ageLines_line _ _ _ h2, List.nil_append,
      not_dashes h3, ih]
    simp [linesOf]

theorem ageLines_header (mac : Bytes) (ls : List RecipientLine) (s : Bytes) :
    ageLines (encodeHeader mac ls ++ s) [] =
      .ok (str "age-encryption.org/v1" :: (linesOf ls ++ [str "--- " ++ b64Encode false mac]), s) := by
  have e : encodeHeader mac ls ++ s = str "age-encryption.org/v1" ++
      10 :: (encodeLines ls ++ ((str "--- " ++ b64Encode false mac) ++ 10 :: s)) := by
    rw [encodeHeader, str_v1]
    simp
  have h1 : (10 : UInt8) ∉ str "--- " ++ b64Encode false mac := by
    rw [List.mem_append, not_or]
    exact ⟨by decide +kernel, fun hm => (b64_chars _ _ hm).1 rfl⟩
  have h2 : startsWith ([] ++ (str "--- " ++ b64Encode false mac)) (str "---") = true := by
    rw [List.nil_append, startsWith, str_dashes, str_dashes_sp]
    simp [List.isPrefixOf]
  have h3 : ageLines ((str "--- " ++ b64Encode false mac) ++ 10 :: s) [] = .ok ([str "--- " ++ b64Encode false mac], s) := by
    rw [ageLines_line _ _ _ h1, if_pos h2]
    rfl
  rw [e, ageLines_line _ _ _ (by decide +kernel), if_neg (by decide +kernel), ageLines_recipients ls _ _ h3]
  simp

private theorem arg_arrow (x : Bytes) : x25519Arg (str "-> X25519 " ++ b64Encode false x) = some (b64Encode false x) := by
  have hd : (str "-> X25519 " ++ b64Encode false x).drop 10 = b64Encode false x := by
    rw [str_arrow]; rfl
  rw [x25519Arg, hd, if_pos]
  constructor
  · rw [startsWith, str_arrow]; simp [List.isPrefixOf]
  · rw [List.all_eq_true]
    intro c hc
    have := b64_chars x c hc
    simp [this.2.2.1, this.2.2.2]

private theorem arg_dashes (x : Bytes) : x25519Arg (str "--- " ++ x) = none := by
  rw [x25519Arg, if_neg]
  rintro ⟨h, -⟩
  rw [startsWith, str_arrow, str_dashes_sp] at h
  simp [List.isPrefixOf] at h

theorem decodeLines_header (mac : Bytes) (hm : mac ≠ []) (ls : List RecipientLine)
    (h : ∀ l ∈ ls, l.ephemeral.length = 32 ∧ l.fileKey.length = 32) :
    decodeLines (linesOf ls ++ [str "--- " ++ b64Encode false mac]) = .ok ls := by
  induction ls with
  | nil =>
    show decodeLines [str "--- " ++ b64Encode false mac] = .ok []
    rw [decodeLines, arg_dashes]
    have h2 : startsWith (str "--- " ++ b64Encode false mac) (str "---") = true := by
      rw [startsWith, str_dashes, str_dashes_sp]
      simp [List.isPrefixOf]
    have h3 : split 32 (str "--- " ++ b64Encode false mac) = [[45, 45, 45], b64Encode false mac] := by
      have := split_join 32 [[45, 45, 45], b64Encode false mac] (by
        intro t ht
        simp only [List.mem_cons, List.not_mem_nil, or_false] at ht
        rcases ht with rfl | rfl
        · exact ⟨by simp, by decide⟩
        · refine ⟨?_, fun hm => (b64_chars _ _ hm).2.1 rfl⟩
          intro hc
          have hl := (base64_text mac).1
          rw [hc, List.length_nil] at hl
          have := List.length_pos_iff.mpr hm
          omega)
      rw [str_dashes_sp, List.append_assoc]
      exact this
    simp only [h2, if_true, h3, base64_roundtrip false false (fun h => h)]
    rfl
  | cons l ls ih =>
    obtain ⟨h1, h2⟩ := h l (List.mem_cons_self ..)
    have e : linesOf (l :: ls) ++ [str "--- " ++ b64Encode false mac] = (str "-> X25519 " ++ b64Encode false l.ephemeral)
        :: b64Encode false l.fileKey :: (linesOf ls ++ [str "--- " ++ b64Encode false mac]) := by simp [linesOf]
    rw [e, decodeLines, arg_arrow]
    simp only [base64_roundtrip false false (fun h => h), Res.ok_bind, h1, h2, ne_eq, not_true_eq_false, if_false]
    rw [ih (fun l hl => h l (List.mem_cons_of_mem _ hl))]
    rfl

/-- Reading a message whose header is well formed comes down to trying its recipient lines. -/
theorem ageDecrypt_message (E : AgeEnv) (sk mac : Bytes) (ls : List RecipientLine) (nonce c : Bytes) (hm : mac ≠ [])
    (h : ∀ l ∈ ls, l.ephemeral.length = 32 ∧ l.fileKey.length = 32) (hn : nonce.length = 16) :
    ageDecrypt E sk (encodeHeader mac ls ++ (nonce ++ c)) = tryLines E sk nonce c ls := by
  rw [ageDecrypt, ageLines_header]
  simp only [Res.ok_bind, List.tail_cons, decodeLines_header mac hm ls h]
  rw [if_neg (by rw [List.length_append]; omega)]
  have h1 : (nonce ++ c).take 16 = nonce := by rw [← hn]; exact List.take_left
  have h2 : (nonce ++ c).drop 16 = c := by rw [← hn]; exact List.drop_left
  rw [h1, h2]

end Verif.Codec
