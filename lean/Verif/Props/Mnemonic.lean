import Verif.Codec.MnemonicLemmas
import Mathlib.Data.List.TakeWhile
import Mathlib.Data.List.Nodup
import Mathlib.Data.List.Chain

/-!
# C12: seed phrases
-/
namespace Verif.Props
open Verif.Codec

/-- A usable word list: 2048 different words, none empty, without white space or NUL characters. -/
structure GoodWords (W : List Bytes) : Prop where
  size : W.length = 2048
  nodup : W.Nodup
  words : ∀ w ∈ W, w ≠ [] ∧ ∀ c ∈ w, isSpace c = false ∧ c ≠ 0

/-- A supported entropy length: 16, 20, 24, 28 or 32 bytes. -/
def GoodLength (n : Nat) : Prop := n = 16 ∨ n = 20 ∨ n = 24 ∨ n = 28 ∨ n = 32

private theorem good_length {n : Nat} (h : GoodLength n) : ∃ k, n = 4 * k ∧ 4 ≤ k ∧ k ≤ 8 := by
  rcases h with h | h | h | h | h
  · exact ⟨4, by omega, by decide, by decide⟩
  · exact ⟨5, by omega, by decide, by decide⟩
  · exact ⟨6, by omega, by decide, by decide⟩
  · exact ⟨7, by omega, by decide, by decide⟩
  · exact ⟨8, by omega, by decide, by decide⟩

private theorem spell_find (W : List Bytes) (hW : W.Nodup) (is : List Nat) (h : ∀ i ∈ is, i < W.length) :
    ∃ words, spell W is = .ok words ∧ words.length = is.length ∧ (∀ w ∈ words, w ∈ W) ∧
      findWords W words = .ok is := by
  induction is with
  | nil => exact ⟨[], rfl, rfl, by simp, rfl⟩
  | cons i is ih =>
    have hi := h i (List.mem_cons_self ..)
    obtain ⟨words, h1, h2, h3, h4⟩ := ih (fun j hj => h j (List.mem_cons_of_mem _ hj))
    have e : W.getD i [] = W[i] := by rw [List.getD_eq_getElem?_getD, List.getElem?_eq_getElem hi]; rfl
    refine ⟨W.getD i [] :: words, ?_, by simp [h2], ?_, ?_⟩
    · rw [spell, if_pos hi, h1]; rfl
    · intro w hw
      rcases List.mem_cons.mp hw with rfl | hw
      · rw [e]; exact List.getElem_mem hi
      · exact h3 w hw
    · have hf : W.findIdx? (· == W.getD i []) = some i := by
        rw [List.findIdx?_eq_some_iff_getElem]
        refine ⟨hi, by rw [e]; exact beq_self_eq_true _, ?_⟩
        intro j hj
        simp only [e, beq_iff_eq]
        intro heq
        have := (List.Nodup.getElem_inj_iff hW).mp heq
        omega
      rw [findWords, hf]
      simp only [h4, Res.ok_bind]
      rfl

private theorem find_spell (W : List Bytes) (words : List Bytes) (is : List Nat)
    (h : findWords W words = .ok is) :
    spell W is = .ok words ∧ words.length = is.length ∧ ∀ i ∈ is, i < W.length := by
  induction words generalizing is with
  | nil => cases h; exact ⟨rfl, rfl, by simp⟩
  | cons w ws ih =>
    rw [findWords] at h
    cases hf : W.findIdx? (· == w) with
    | none => rw [hf] at h; cases h
    | some i =>
      rw [hf] at h
      simp only at h
      obtain ⟨rest, hr, he⟩ := Res.bind_eq_ok.mp h
      cases he
      obtain ⟨h1, h2, h3⟩ := ih rest hr
      obtain ⟨hi, hw, -⟩ := List.findIdx?_eq_some_iff_getElem.mp hf
      refine ⟨?_, by simp [h2], ?_⟩
      · rw [spell, if_pos hi, h1, Res.ok_bind]
        have e : W.getD i [] = w := by
          rw [List.getD_eq_getElem?_getD, List.getElem?_eq_getElem hi]; simpa using hw
        rw [e]; rfl
      · intro j hj
        rcases List.mem_cons.mp hj with rfl | hj
        · exact hi
        · exact h3 j hj

private theorem join_chars (ts : List Bytes) (P : UInt8 → Prop) (h32 : P 32) (h : ∀ t ∈ ts, ∀ c ∈ t, P c) :
    ∀ c ∈ join 32 ts, P c := by
  induction ts with
  | nil => intro c hc; cases hc
  | cons t ts ih =>
    cases ts with
    | nil => rw [join]; exact h t (by simp)
    | cons u ts =>
      intro c hc
      rw [join] at hc
      · rcases List.mem_append.mp hc with hc | hc
        · exact h t (by simp) c hc
        · rcases List.mem_cons.mp hc with rfl | hc
          · exact h32
          · exact ih (fun t ht => h t (List.mem_cons_of_mem _ ht)) c hc
      · intro e; cases e

private theorem join_head (t : Bytes) (ts : List Bytes) (ht : t ≠ []) :
    (join 32 (t :: ts)).head? = t.head? := by
  cases ts with
  | nil => rfl
  | cons u ts =>
    rw [join]
    · cases t with
      | nil => exact absurd rfl ht
      | cons => rfl
    · intro e; cases e

private theorem join_last (ts : List Bytes) (h : ∀ t ∈ ts, t ≠ []) (c : UInt8)
    (hc : c ∈ (join 32 ts).getLast?) : ∃ t ∈ ts, c ∈ t := by
  induction ts with
  | nil => cases hc
  | cons t ts ih =>
    cases ts with
    | nil => exact ⟨t, by simp, List.mem_of_mem_getLast? hc⟩
    | cons u ts =>
      have hne : join 32 (u :: ts) ≠ [] := by
        have hu := h u (by simp)
        have := join_head u ts hu
        intro e
        rw [e] at this
        cases u with
        | nil => exact hu rfl
        | cons => simp at this
      rw [join] at hc
      · rw [List.getLast?_append, List.getLast?_cons] at hc
        cases hj : (join 32 (u :: ts)).getLast? with
        | none => rw [List.getLast?_eq_none_iff] at hj; exact absurd hj hne
        | some d =>
          rw [hj] at hc
          simp only [Option.getD_some, Option.some_or, Option.mem_some_iff] at hc
          obtain ⟨t', ht', hc'⟩ := ih (fun t ht => h t (List.mem_cons_of_mem _ ht)) (by rw [hj, hc]; rfl)
          exact ⟨t', List.mem_cons_of_mem _ ht', hc'⟩
      · intro e; cases e

/-- The text of words of the list splits into the words. -/
private theorem words_of_text {W : List Bytes} (hW : GoodWords W) (words : List Bytes)
    (h : ∀ w ∈ words, w ∈ W) : split 32 (trim (cstr (join 32 words))) = words := by
  have hc : cstr (join 32 words) = join 32 words := by
    rw [cstr, List.takeWhile_eq_self_iff]
    intro c hc
    have := join_chars words (fun c => c ≠ 0) (by decide) (fun t ht c hc => ((hW.words t (h t ht)).2 c hc).2) c hc
    simpa using this
  have ht : trim (join 32 words) = join 32 words := by
    apply trim_eq
    · intro c hc
      cases words with
      | nil => cases hc
      | cons t ts =>
        have ht := hW.words t (h t (List.mem_cons_self ..))
        rw [join_head t ts ht.1] at hc
        exact (ht.2 c (List.mem_of_mem_head? hc)).1
    · intro c hc
      obtain ⟨t, ht, hct⟩ := join_last words (fun t ht => (hW.words t (h t ht)).1) c hc
      exact ((hW.words t (h t ht)).2 c hct).1
  rw [hc, ht]
  apply split_join
  intro t ht'
  have := hW.words t (h t ht')
  refine ⟨this.1, fun hm => ?_⟩
  have := (this.2 32 hm).1
  exact absurd this (by decide)

private theorem map_toNat_lt (e : Bytes) : ∀ x ∈ e.map (·.toNat), x < 2 ^ 8 := by
  intro x hx
  obtain ⟨b, -, rfl⟩ := List.mem_map.mp hx
  exact b.toNat_lt

private theorem map_ofNat (e : Bytes) : (e.map (·.toNat)).map UInt8.ofNat = e := by
  rw [List.map_map]
  have : (UInt8.ofNat ∘ fun x : UInt8 => x.toNat) = id := by funext x; simp
  rw [this, List.map_id]

private theorem map_toNat (e : List Nat) (h : ∀ x ∈ e, x < 2 ^ 8) :
    (e.map UInt8.ofNat).map (·.toNat) = e := by
  rw [List.map_map]
  conv_rhs => rw [← List.map_id e]
  apply List.map_congr_left
  intro x hx
  simp only [Function.comp, id]
  exact UInt8.toNat_ofNat_of_lt' (h x hx)

/-- **C12.** The words made from any entropy of a supported length, written with single spaces and
surrounded by any white space, convert back to the same entropy. -/
theorem mnemonic_roundtrip (H : Bytes → Bytes) (W : List Bytes) (hW : GoodWords W) (entropy : Bytes)
    (hl : GoodLength entropy.length) :
    ∃ words : List Bytes, words.length = 3 * (entropy.length / 4) ∧ (∀ w ∈ words, w ∈ W) ∧
      createMnemonic H W entropy = .ok (join 32 words) ∧
      toEntropy H W (join 32 words) = .ok entropy := by
  obtain ⟨k, hk, hk4, hk8⟩ := good_length hl
  obtain ⟨v, c, hv, hc, hvl, hvb, hbits⟩ := wordIndices_spec H entropy k hk hk8
  obtain ⟨words, hs, hwl, hwm, hf⟩ := spell_find W hW.nodup v (fun i hi => by
    rw [hW.size]; exact hvb i hi)
  refine ⟨words, by omega, hwm, ?_, ?_⟩
  · rw [createMnemonic, hv, Res.ok_bind, hs]; rfl
  · obtain ⟨e, c', he, hel, heb, hcb, hb1, hb2⟩ := entropyOf_spec v k hvl (by omega) hk8 hk4 hvb
    have hee : e = entropy.map (·.toNat) := by
      apply bits_ext (w := 8) (by decide) (by rw [List.length_map]; omega) heb (map_toNat_lt _)
      intro p hp
      rw [hb1 p (by omega), hbits p (by omega), if_pos (by omega)]
    have hcc : c' = c := by
      apply Nat.eq_of_testBit_eq
      intro s
      by_cases hsk : s < k
      · have := hb2 (33 * k - 1 - s) (by omega) (by omega)
        rw [show 33 * k - 1 - (33 * k - 1 - s) = s by omega] at this
        rw [this, hbits _ (by omega), if_neg (by omega)]
        congr 1; omega
      · have hp : 2 ^ k ≤ 2 ^ s := Nat.pow_le_pow_right (by decide) (by omega)
        rw [Nat.testBit_lt_two_pow (Nat.lt_of_lt_of_le hcb hp),
          Nat.testBit_lt_two_pow (Nat.lt_of_lt_of_le (checksum_lt hc) hp)]
    simp only [toEntropy, words_of_text hW words hwm]
    rw [if_neg (by omega), hf, Res.ok_bind, he, Res.ok_bind]
    simp only [hee, map_ofNat]
    rw [show words.length / 3 = k by omega, hc, Res.ok_bind, if_neg (by simp [hcc])]
    rfl

/-- **C12, acceptance.** Whatever text is accepted names, up to spacing, exactly the phrase of the
entropy it gives: no two different phrases restore the same seed, and every accepted phrase carries the
right checksum. -/
theorem mnemonic_accepts_only (H : Bytes → Bytes) (W : List Bytes) (hW : W.length = 2048) (s entropy : Bytes)
    (h : toEntropy H W s = .ok entropy) :
    GoodLength entropy.length ∧
      createMnemonic H W entropy = .ok (join 32 (split 32 (trim (cstr s)))) := by
  simp only [toEntropy] at h
  split at h
  · cases h
  · rename_i hn
    obtain ⟨is, hf, h⟩ := Res.bind_eq_ok.mp h
    obtain ⟨r, he, h⟩ := Res.bind_eq_ok.mp h
    obtain ⟨a, hc, h⟩ := Res.bind_eq_ok.mp h
    obtain ⟨hs, hl, hlt⟩ := find_spell W _ is hf
    generalize split 32 (trim (cstr s)) = words at hf hc hs hl hn ⊢
    obtain ⟨k, hk⟩ : ∃ k, words.length = 3 * k := ⟨words.length / 3, by omega⟩
    have hk4 : 4 ≤ k := by omega
    have hk8 : k ≤ 8 := by omega
    have hisb : ∀ x ∈ is, x < 2 ^ 11 := fun x hx => by have := hlt x hx; omega
    obtain ⟨e, c', he', hel, heb, hcb, hb1, hb2⟩ := entropyOf_spec is k (by omega) (by omega) hk8 hk4 hisb
    rw [he'] at he
    cases he
    split at h
    · cases h
    · rename_i hcc
      cases h
      have hcc : a = c' := not_not.mp hcc
      have hlen : (e.map UInt8.ofNat).length = 4 * k := by rw [List.length_map, hel]
      refine ⟨by simp only [GoodLength]; omega, ?_⟩
      obtain ⟨v, c, hv, hc2, hvl, hvb, hbits⟩ := wordIndices_spec H (e.map UInt8.ofNat) k hlen hk8
      have hceq : c = c' := by
        rw [show words.length / 3 = k by omega, hc2] at hc
        cases hc; exact hcc
      have hvis : v = is := by
        apply bits_ext (w := 11) (by decide) (by omega) hvb hisb
        intro p hp
        rw [hbits p (by omega), map_toNat e heb]
        split
        · exact hb1 p (by assumption)
        · rw [hceq]; exact hb2 p (by omega) (by omega)
      rw [createMnemonic, hv, Res.ok_bind, hvis, hs]
      rfl

/-- Surrounding and repeated blanks do not matter: only the words do. -/
theorem mnemonic_spacing (H : Bytes → Bytes) (W : List Bytes) (s t : Bytes)
    (h : split 32 (trim (cstr s)) = split 32 (trim (cstr t))) : toEntropy H W s = toEntropy H W t := by
  simp only [toEntropy, h]

/-- Entropy of more than 32 bytes drives the checksum shift out of range. -/
theorem mnemonic_long_undefined (H : Bytes → Bytes) (W : List Bytes) :
    createMnemonic H W (List.replicate 36 0) = .ub := by
  have : wordIndices H (List.replicate 36 0) = .ub := by
    simp only [wordIndices]
    rw [if_neg (by decide)]
    have h1 : ∃ v, orBits wordPlace ((List.replicate 36 (0 : UInt8)).flatMap fun b => topBits b.toNat 8) 0
        (List.replicate (((List.replicate 36 (0 : UInt8)).length * 8 +
          (List.replicate 36 (0 : UInt8)).length * 8 / 32) / 11) 0) = .ok v := by
      obtain ⟨v, hv, -⟩ := orBits_spec wordPlace
        ((List.replicate 36 (0 : UInt8)).flatMap fun b => topBits b.toNat 8) 0
        (List.replicate (((List.replicate 36 (0 : UInt8)).length * 8 +
          (List.replicate 36 (0 : UInt8)).length * 8 / 32) / 11) 0) (by
          intro q hq
          rw [flatMap_length _ 8 _ (fun b _ => topBits_length _ _), List.length_replicate] at hq
          rw [List.length_replicate, List.length_replicate]
          simp only [wordPlace]; omega)
      exact ⟨v, hv⟩
    obtain ⟨v, hv⟩ := h1
    rw [hv, Res.ok_bind, seedChecksum, if_neg (by decide)]
    rfl
  rw [createMnemonic, this]; rfl

private def increasing : Nat → List Nat → Bool
  | _, [] => true
  | a, b :: l => bif Nat.blt a b then increasing b l else false

private theorem increasing_pairwise (a : Nat) (l : List Nat) (h : increasing a l = true) :
    (a :: l).Pairwise (· < ·) := by
  induction l generalizing a with
  | nil => simp
  | cons b l ih =>
    rw [increasing, Bool.cond_eq_ite, Bool.ite_eq_true_distrib] at h
    have hab : Nat.blt a b = true := by
      by_contra hne
      rw [if_neg hne] at h
      cases h
    rw [if_pos hab] at h
    have h2 := ih b h
    rw [Nat.blt_eq] at hab
    rw [List.pairwise_cons]
    refine ⟨?_, h2⟩
    intro c hc
    rcases List.mem_cons.mp hc with rfl | hc
    · exact hab
    · exact Nat.lt_trans hab ((List.pairwise_cons.mp h2).1 c hc)

/-- The word list of the code is usable. -/
theorem wordList_good : GoodWords wordList := by
  have hs : wordCodes.length = 2048 := by decide +kernel
  refine ⟨by rw [wordList, List.length_map, hs], ?_, ?_⟩
  · have hp : wordCodes.Pairwise (· < ·) := by
      have h : increasing 0 wordCodes = true := by decide +kernel
      exact (List.pairwise_cons.mp (increasing_pairwise 0 _ h)).2
    have hinj : (wordCodes.map wordOfCode).map (fun w => beVal (w ++ List.replicate (8 - w.length) 0)) =
        wordCodes := by decide +kernel
    have : (wordCodes.map wordOfCode).Nodup := by
      apply List.Nodup.of_map (fun w => beVal (w ++ List.replicate (8 - w.length) 0))
      rw [hinj]
      exact hp.imp (fun h => Nat.ne_of_lt h)
    exact this
  · have : (wordCodes.all fun c => decide (wordOfCode c ≠ []) &&
        (wordOfCode c).all fun x => !isSpace x && decide (x ≠ 0)) = true := by decide +kernel
    intro w hw
    obtain ⟨c, hc, rfl⟩ := List.mem_map.mp hw
    have := List.all_eq_true.mp this c hc
    rw [Bool.and_eq_true, decide_eq_true_eq, List.all_eq_true] at this
    refine ⟨this.1, fun x hx => ?_⟩
    have := this.2 x hx
    simpa using this

/-- **C12 for the code's own word list.** -/
theorem mnemonic_roundtrip_english (H : Bytes → Bytes) (entropy : Bytes) (hl : GoodLength entropy.length) :
    ∃ t, createMnemonic H wordList entropy = .ok t ∧ toEntropy H wordList t = .ok entropy := by
  obtain ⟨words, -, -, h1, h2⟩ := mnemonic_roundtrip H wordList wordList_good entropy hl
  exact ⟨_, h1, h2⟩

example : createMnemonic (fun _ => [0x37]) wordList (List.replicate 16 0) =
    .ok (str "abandon abandon abandon abandon abandon abandon abandon abandon abandon abandon abandon about") := by
  decide +kernel

end Verif.Props
