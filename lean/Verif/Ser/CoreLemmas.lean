import Verif.Ser.Core
import Verif.Ser.Reads

/-!
# Round trips of the core models: helper lemmas
-/
namespace Verif

theorem Reads.bind0 {α β : Type} {p : Parser α} {f : α → Parser β} {bs : Bytes} {a : α} {b : β}
    (hp : Reads p bs a) (hf : Reads (f a) [] b) : Reads (p >>= f) bs b := by
  have := Reads.bind hp hf
  simpa using this

theorem reads_i64 {x : Int} (h1 : -2 ^ 63 ≤ x) (h2 : x < 2 ^ 63) : Reads readI64 (serI64 x) x := by
  have hlt : (x % 2 ^ 64).toNat < U64 := by simp only [U64]; omega
  have h := reads_u64 hlt
  refine Reads.congr (Reads.bind0 h (Reads.pure _)) rfl ?_
  by_cases hx : 0 ≤ x
  · have : x % 2 ^ 64 = x := Int.emod_eq_of_lt hx (by omega)
    rw [this, if_pos (by omega)]; omega
  · have : x % 2 ^ 64 = x + 2 ^ 64 := by omega
    rw [this, if_neg (by omega)]; omega

theorem reads_fee {f : Fee} (hs : f.shift < 16) (hf : f.fee < 2 ^ 40) :
    Reads feeDeser (feeSer f) f := by
  unfold feeDeser feeSer
  have h1 : f.fee >>> 32 = f.fee / 2 ^ 32 := Nat.shiftRight_eq_div_pow _ _
  have h2 : f.fee &&& 0xffffffff = f.fee % 2 ^ 32 := Nat.and_two_pow_sub_one_eq_mod f.fee 32
  refine Reads.bind (reads_u16 (by omega)) (Reads.bind (reads_u8 (by omega))
    (Reads.bind (reads_u8 (x := f.fee >>> 32) (by omega))
      (Reads.bind0 (reads_u32 (x := f.fee &&& 0xffffffff) (by omega)) ?_)))
  refine Reads.congr (Reads.pure _) rfl ?_
  have h3 : f.shift &&& 0x0f = f.shift := by
    have := Nat.and_two_pow_sub_one_eq_mod f.shift 4
    simp only [show (2 : Nat) ^ 4 - 1 = 0x0f from rfl] at this
    rw [this]; omega
  rw [h3, Nat.shiftLeft_eq]
  cases f with
  | mk s v => simp only [Fee.mk.injEq, true_and]; simp only at h1 h2; omega

theorem reads_input {coin : Bytes → Nat} {ver : Nat} {i : TxInput} (hc : i.commit.length = 33)
    (hf : i.features < 256) (h3 : ver ≥ 3 → coin i.commit = i.features) :
    Reads (inputDeser coin ver) (inputSer ver i) i := by
  unfold inputDeser inputSer
  by_cases h : ver ≥ 3
  · rw [if_pos h, if_neg (by omega)]
    refine Reads.congr (Reads.bind0 (reads_bytes hc) (Reads.pure _)) (by simp) ?_
    rw [h3 h]
  · rw [if_neg h, if_pos (by omega)]
    exact Reads.bind (reads_u8 hf) (Reads.bind0 (reads_bytes hc) (Reads.pure _))

theorem reads_proof {p : Bytes} (h : p.length ≤ 675) : Reads proofDeser (proofSer p) p := by
  unfold proofDeser proofSer
  refine Reads.bind (reads_u64 (by simp only [U64]; omega)) ?_
  rw [if_neg (by omega)]
  exact reads_bytes rfl

theorem reads_output {o : TxOutput} (hf : o.features < 256) (hc : o.commit.length = 33)
    (hp : o.proof.length ≤ 675) : Reads outputDeser (outputSer o) o := by
  unfold outputDeser outputSer
  exact Reads.bind (reads_u8 hf) (Reads.bind (reads_bytes hc)
    (Reads.bind0 (reads_proof hp) (Reads.pure _)))

theorem reads_outputId {o : TxInput} (hf : o.features < 256) (hc : o.commit.length = 33) :
    Reads outputIdDeser (outputIdSer o) o := by
  unfold outputIdDeser outputIdSer
  exact Reads.bind (reads_u8 hf) (Reads.bind0 (reads_bytes hc) (Reads.pure _))

/-- The bytes between the features byte and the excess in a serialized kernel. -/
def kernelArgsSer (ver : Nat) (k : Kernel) : Bytes :=
  if ver ≥ 2 then
    (if k.features = 0 then feeSer k.fee
        else if k.features = 1 then []
        else if k.features = 2 then feeSer k.fee ++ beBytes 8 k.lockHeight
        else if k.features = 3 then feeSer k.fee ++ beBytes 2 k.lockHeight
        else [])
  else feeSer k.fee ++ beBytes 8 k.lockHeight

theorem kernelSer_eq (ver : Nat) (k : Kernel) : kernelSer ver k =
    beBytes 1 k.features ++ (kernelArgsSer ver k ++ (k.excess ++ k.sig)) := by
  unfold kernelSer kernelArgsSer
  by_cases h : ver ≥ 2
  · rw [if_pos h, if_pos h]
  · rw [if_neg h, if_neg h]; simp [List.append_assoc]

theorem reads_kernelArgs {ver : Nat} {k : Kernel} (hs : k.fee.shift < 16)
    (hf : k.fee.fee < 2 ^ 40) (hl : k.lockHeight < U64)
    (h2 : ver ≥ 2 → k.features ≤ 3 ∧ (k.features = 0 → k.lockHeight = 0) ∧
      (k.features = 1 → k.lockHeight = 0 ∧ k.fee = ⟨0, 0⟩) ∧
      (k.features = 3 → k.lockHeight < 65536)) :
    Reads (kernelArgsDeser ver k.features) (kernelArgsSer ver k) (k.fee, k.lockHeight) := by
  unfold kernelArgsDeser kernelArgsSer
  by_cases h : ver ≥ 2
  · rw [if_pos h, if_pos h]
    obtain ⟨g, g0, g1, g3⟩ := h2 h
    have hc : k.features = 0 ∨ k.features = 1 ∨ k.features = 2 ∨ k.features = 3 := by omega
    rcases hc with hc | hc | hc | hc
    · rw [hc]
      refine Reads.congr (Reads.bind0 (reads_fee hs hf) (Reads.bind0 (Reads.pure 0)
        (Reads.pure _))) rfl ?_
      rw [g0 hc]
    · rw [hc]
      refine Reads.congr (Reads.bind0 (Reads.pure (⟨0, 0⟩ : Fee)) (Reads.bind0 (Reads.pure 0)
        (Reads.pure _))) rfl ?_
      rw [(g1 hc).1, (g1 hc).2]
    · rw [hc]
      exact Reads.bind (reads_fee hs hf) (Reads.bind0 (reads_u64 hl) (Reads.pure _))
    · rw [hc]
      exact Reads.bind (reads_fee hs hf) (Reads.bind0 (reads_u16 (g3 hc)) (Reads.pure _))
  · rw [if_neg h, if_neg h]
    exact Reads.bind (reads_fee hs hf) (Reads.bind0 (reads_u64 hl) (Reads.pure _))

theorem sortByHash_of_sorted {α : Type} {h : α → Nat} {l : List α}
    (hs : l.Pairwise (fun a b => h a < h b)) : sortByHash h l = l := by
  unfold sortByHash
  apply List.mergeSort_of_pairwise
  exact hs.imp (fun hab => by simp; omega)

end Verif
