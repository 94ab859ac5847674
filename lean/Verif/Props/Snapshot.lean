import Verif.Tx.Snapshot
import Verif.Props.Sums
import Verif.Props.MMR

/-!
# C63, C77: a downloaded snapshot
-/
namespace Verif.Props
open Verif.Tx Verif.MMR Verif.PoW

/-- Wherever a node and its two children below `size` are stored, the node is the hash of its position and its children. -/
def ParentsHash (H : Bytes → Bytes) (hashAt : Nat → Res (Option Bytes)) (size : Nat) : Prop :=
  ∀ p l r, Children l r p → p < size → ∀ x y z, hashAt p = .ok (some x) → hashAt l = .ok (some y) → hashAt r = .ok (some z) →
    x = H (beBytes 8 p ++ (y ++ z))

/-- What a snapshot `t` for the header `h` should satisfy. -/
structure SnapshotHolds (H : Bytes → Bytes) (ubmt : Finset Nat → Nat → Bytes) (c : Checks) (t : THS) (h : Header) : Prop where
  kernelSize : t.kernels.hashes.length = h.kernelMMRSize
  outputSize : t.outputs.size = h.outputMMRSize
  proofSize : t.proofs.size = h.outputMMRSize
  kernelNodes : ParentsHash H (kernelHashAt t.kernels) h.kernelMMRSize
  outputNodes : ParentsHash H t.outputs.hashAt h.outputMMRSize
  proofNodes : ParentsHash H t.proofs.hashAt h.outputMMRSize
  kernelRoot : t.kernels.root H h.kernelMMRSize = .ok h.kernelRoot
  proofRoot : t.proofs.root H h.outputMMRSize = .ok h.rangeProofRoot
  outputRoot : ∃ o, t.outputs.root H h.outputMMRSize = .ok o ∧
    h.outputRoot = if h.version < 3 then o else hashParent H o (ubmt t.outputs.leafSet (numOutputs h)) h.outputMMRSize
  history : ∀ n, n ≤ h.height → ∃ hd, c.headerAt n = some hd ∧ t.kernels.root H hd.kernelMMRSize = .ok hd.kernelRoot
  proofs : ∀ n, leafPos n < h.outputMMRSize → t.outputs.getAt n = .ok none ∨ ∃ d p b, t.outputs.getAt n = .ok (some d) ∧
    t.proofs.getAt n = .ok (some p) ∧ (idCommit d, p) ∈ b ∧ c.proofs b = true
  signatures : ∀ d ∈ t.kernels.data, ∃ b, d ∈ b ∧ c.signatures b = true

private theorem children_index {l r p : Nat} (h : Children l r p) (hp : p < 2 ^ 64) :
    (Index.at p).isLeaf = false ∧ (Index.at p).leftChild.pos = l ∧ (Index.at p).rightChild.pos = r := by
  obtain ⟨s, k, hs, e1, e2, e3⟩ := h
  have hk : ht p = k + 1 := by rw [e1]; exact ht_rootPos hs
  have h1 := Nat.pow_succ 2 (k + 1)
  have hpos := two_pow_pos' (k + 1)
  have hcalc : calcHeight p = k + 1 := by rw [calcHeight_eq hp, hk]
  refine ⟨by simp [Index.at, Index.isLeaf, hcalc], ?_, ?_⟩
  · simp only [Index.at, Index.leftChild, hcalc, Nat.shiftLeft_eq, Nat.one_mul]
    rw [e1, e2]; simp only [rootPos]; omega
  · simp only [Index.at, Index.rightChild]
    rw [e1, e3]; simp only [rootPos]; omega

private theorem checkNodes_below {H : Bytes → Bytes} {hashAt : Nat → Res (Option Bytes)} : ∀ n, checkNodes H hashAt n = .ok true →
    ∀ p, p < n → checkNode H hashAt p = .ok true := by
  intro n
  induction n with
  | zero => intro _ p hp; omega
  | succ n ih =>
    intro h p hp
    unfold checkNodes at h
    obtain ⟨b, h1, h2⟩ := Res.bind_eq_ok.1 h
    cases b with
    | false => simp at h2
    | true =>
      simp only [if_true] at h2
      by_cases hpn : p = n
      · subst hpn; exact h2
      · exact ih h1 p (by omega)

private theorem nodes_hash {H : Bytes → Bytes} {hashAt : Nat → Res (Option Bytes)} {size : Nat}
    (h : validateHashes H hashAt size = .ok true) (hs : size ≤ 2 ^ 64) : ParentsHash H hashAt size := by
  have h1 : checkNodes H hashAt size = .ok true := by
    unfold validateHashes at h
    cases e : checkNodes H hashAt size with
    | ok b => rw [e] at h; exact h
    | throw => rw [e] at h; simp at h
    | ub => rw [e] at h; cases h
  intro p l r hc hp x y z hx hy hz
  have h2 := checkNodes_below size h1 p hp
  obtain ⟨e1, e2, e3⟩ := children_index hc (by omega)
  unfold checkNode at h2
  rw [e1, e2, e3, hx] at h2
  simp only [Bool.false_eq_true, if_false, Res.ok_bind, hy, hz, Res.pure_eq, Res.ok.injEq, decide_eq_true_eq] at h2
  exact h2

private theorem history_all {H : Bytes → Bytes} {c : Checks} {k : KMMR} {total : Nat} : ∀ n, historyBelow H c k total n = .ok true →
    ∀ i, i < n → ∃ hd, c.headerAt i = some hd ∧ k.root H hd.kernelMMRSize = .ok hd.kernelRoot := by
  intro n
  induction n with
  | zero => intro _ i hi; omega
  | succ n ih =>
    intro h i hi
    unfold historyBelow at h
    obtain ⟨b, h1, h2⟩ := Res.bind_eq_ok.1 h
    cases b with
    | false => simp at h2
    | true =>
      by_cases hin : i = n
      · subst hin
        simp only [if_true] at h2
        cases e : c.headerAt i with
        | none => rw [e] at h2; simp at h2
        | some hd =>
          rw [e] at h2
          obtain ⟨r, h3, h4⟩ := Res.bind_eq_ok.1 h2
          refine ⟨hd, rfl, ?_⟩
          by_cases hr : r = hd.kernelRoot
          · rw [← hr]; exact h3
          · rw [if_pos hr] at h4; simp at h4
      · exact ih h1 i (by omega)

private theorem proofs_all {c : Checks} {t : THS} : ∀ fuel n batch, proofLoop c t fuel n batch = .ok true →
    (∀ x ∈ batch, ∃ b, x ∈ b ∧ c.proofs b = true) ∧
    ∀ i, n ≤ i → leafPos i < t.outputs.size → t.outputs.getAt i = .ok none ∨ ∃ d p b, t.outputs.getAt i = .ok (some d) ∧
      t.proofs.getAt i = .ok (some p) ∧ (idCommit d, p) ∈ b ∧ c.proofs b = true := by
  intro fuel
  induction fuel with
  | zero => intro n batch h; simp [proofLoop] at h
  | succ fuel ih =>
    intro n batch h
    unfold proofLoop at h
    by_cases hn : leafPos n < t.outputs.size
    · rw [if_pos hn] at h
      obtain ⟨o, h1, h2⟩ := Res.bind_eq_ok.1 h
      cases o with
      | none =>
        obtain ⟨a, b⟩ := ih _ _ h2
        refine ⟨a, fun i hi hs => ?_⟩
        by_cases hin : i = n
        · subst hin; exact .inl h1
        · exact b i (by omega) hs
      | some d =>
        obtain ⟨p, h3, h4⟩ := Res.bind_eq_ok.1 h2
        cases p with
        | none => simp at h4
        | some p =>
          simp only at h4
          -- the pair is in a batch that was checked, and so is what was collected before
          have key : (∀ x ∈ batch ++ [(idCommit d, p)], ∃ b, x ∈ b ∧ c.proofs b = true) ∧
              ∀ i, n + 1 ≤ i → leafPos i < t.outputs.size → t.outputs.getAt i = .ok none ∨ ∃ d p b, t.outputs.getAt i = .ok (some d) ∧
                t.proofs.getAt i = .ok (some p) ∧ (idCommit d, p) ∈ b ∧ c.proofs b = true := by
            by_cases hl : (batch ++ [(idCommit d, p)]).length ≥ 1000
            · rw [if_pos hl] at h4
              by_cases hv : c.proofs (batch ++ [(idCommit d, p)]) = true
              · rw [if_pos hv] at h4
                exact ⟨fun x hx => ⟨_, hx, hv⟩, (ih _ _ h4).2⟩
              · rw [if_neg hv] at h4; simp at h4
            · rw [if_neg hl] at h4
              exact ih _ _ h4
          refine ⟨fun x hx => key.1 x (by simp [hx]), fun i hi hs => ?_⟩
          by_cases hin : i = n
          · subst hin
            obtain ⟨b, hb1, hb2⟩ := key.1 (idCommit d, p) (by simp)
            exact .inr ⟨d, p, b, h1, h3, hb1, hb2⟩
          · exact key.2 i (by omega) hs
    · rw [if_neg hn] at h
      have hno : ∀ i, n ≤ i → ¬ leafPos i < t.outputs.size := by
        intro i hi hs
        rcases Nat.lt_or_ge n i with h' | h'
        · have := leafPos_strictMono h'; omega
        · have : i = n := by omega
          subst this; exact hn hs
      refine ⟨fun x hx => ?_, fun i hi hs => absurd hs (hno i hi)⟩
      by_cases hb : batch = []
      · subst hb; simp at hx
      · rw [if_neg hb] at h
        simp only [Res.pure_eq, Res.ok.injEq] at h
        exact ⟨batch, hx, h⟩

private theorem signatures_all {c : Checks} : ∀ ds batch, signatureLoop c ds batch = true →
    ∀ d, d ∈ ds ∨ d ∈ batch → ∃ b, d ∈ b ∧ c.signatures b = true := by
  intro ds
  induction ds with
  | nil =>
    intro batch h d hd
    rcases hd with hd | hd
    · simp at hd
    · exact ⟨batch, hd, h⟩
  | cons x ds ih =>
    intro batch h d hd
    unfold signatureLoop at h
    have hmem : d ∈ ds ∨ d ∈ batch ++ [x] := by
      rcases hd with hd | hd
      · rcases List.mem_cons.1 hd with rfl | hd
        · right; simp
        · exact .inl hd
      · right; simp [hd]
    simp only at h
    by_cases hl : (batch ++ [x]).length ≥ 2000
    · rw [if_pos hl] at h
      by_cases hv : c.signatures (batch ++ [x]) = true
      · rw [if_pos hv] at h
        rcases hmem with hm | hm
        · exact ih [] h d (.inl hm)
        · exact ⟨_, hm, hv⟩
      · rw [if_neg hv] at h; cases h
    · rw [if_neg hl] at h
      exact ih _ h d hmem

private theorem roots_all {H : Bytes → Bytes} {ubmt : Finset Nat → Nat → Bytes} {t : THS} {h : Header}
    (hv : validateRoots H ubmt t h = .ok true) : t.kernels.root H h.kernelMMRSize = .ok h.kernelRoot ∧
      t.proofs.root H h.outputMMRSize = .ok h.rangeProofRoot ∧ ∃ o, t.outputs.root H h.outputMMRSize = .ok o ∧
        h.outputRoot = if h.version < 3 then o else hashParent H o (ubmt t.outputs.leafSet (numOutputs h)) h.outputMMRSize := by
  unfold validateRoots at hv
  obtain ⟨k, h1, hv⟩ := Res.bind_eq_ok.1 hv
  by_cases hk : k ≠ h.kernelRoot
  · rw [if_pos hk] at hv; simp at hv
  · rw [if_neg hk] at hv
    obtain ⟨o, h2, hv⟩ := Res.bind_eq_ok.1 hv
    simp only at hv
    by_cases ho : (if h.version < 3 then o else hashParent H o (ubmt t.outputs.leafSet (numOutputs h)) h.outputMMRSize) ≠ h.outputRoot
    · rw [if_pos ho] at hv; simp at hv
    · rw [if_neg ho] at hv
      obtain ⟨p, h3, hv⟩ := Res.bind_eq_ok.1 hv
      by_cases hp : p ≠ h.rangeProofRoot
      · rw [if_pos hp] at hv; simp at hv
      · rw [ne_eq, not_not] at hk ho hp
        rw [← hk, ← hp]
        exact ⟨h1, h3, o, h2, ho.symm⟩

section
variable {G : Type} [AddCommGroup G] [DecidableEq G] (C : Curve G)

private theorem validate_steps {H : Bytes → Bytes} {ubmt : Finset Nat → Nat → Bytes} {c : Checks} {t : THS} {h : Header} {s : Bytes × Bytes} :
    validateSnapshot C H ubmt c t h = .ok (some s) ↔ validateSizes t h = true ∧
      validateHashes H (kernelHashAt t.kernels) t.kernels.hashes.length = .ok true ∧
      validateHashes H t.outputs.hashAt t.outputs.size = .ok true ∧ validateHashes H t.proofs.hashAt t.proofs.size = .ok true ∧
      validateRoots H ubmt t h = .ok true ∧ validateHistory H c t.kernels h = .ok true ∧ snapshotSums C t h = .ok s ∧
      validateProofs c t = .ok true ∧ validateSignatures c t.kernels = true := by
  constructor
  · intro hv
    unfold validateSnapshot at hv
    by_cases h0 : validateSizes t h = true
    · rw [h0] at hv
      simp only [Bool.not_true, Bool.false_eq_true, if_false] at hv
      obtain ⟨a, h1, hv⟩ := Res.bind_eq_ok.1 hv
      obtain ⟨b, h2, hv⟩ := Res.bind_eq_ok.1 hv
      obtain ⟨d, h3, hv⟩ := Res.bind_eq_ok.1 hv
      cases a with
      | false => simp at hv
      | true =>
      cases b with
      | false => simp at hv
      | true =>
      cases d with
      | false => simp at hv
      | true =>
      simp only [Bool.and_self, Bool.not_true, Bool.false_eq_true, if_false] at hv
      obtain ⟨r, h4, hv⟩ := Res.bind_eq_ok.1 hv
      cases r with
      | false => simp at hv
      | true =>
      simp only [Bool.not_true, Bool.false_eq_true, if_false] at hv
      obtain ⟨hi, h5, hv⟩ := Res.bind_eq_ok.1 hv
      cases hi with
      | false => simp at hv
      | true =>
      simp only [Bool.not_true, Bool.false_eq_true, if_false] at hv
      cases e : snapshotSums C t h with
      | ub => rw [e] at hv; cases hv
      | throw => rw [e] at hv; simp at hv
      | ok s' =>
        rw [e] at hv
        obtain ⟨p, h6, hv⟩ := Res.bind_eq_ok.1 hv
        cases p with
        | false => simp at hv
        | true =>
        simp only [Bool.not_true, Bool.false_eq_true, if_false] at hv
        by_cases h7 : validateSignatures c t.kernels = true
        · rw [h7] at hv
          simp only [Bool.not_true, Bool.false_eq_true, if_false, Res.pure_eq, Res.ok.injEq, Option.some.injEq] at hv
          exact ⟨h0, h1, h2, h3, h4, h5, by rw [hv], h6, h7⟩
        · simp [h7] at hv
    · simp [h0] at hv
  · rintro ⟨h0, h1, h2, h3, h4, h5, h6, h7, h8⟩
    simp [validateSnapshot, h0, h1, h2, h3, h4, h5, h6, h7, h8]

/-- **C63.** A snapshot that passes validation has the sizes of the header, stored parents that are the hashes of their stored
children, the roots of the header, at every earlier height the kernel root of the header there, accepted kernel sums, for every
output that is there a range proof in a batch that was accepted, and all kernels of the data file in batches whose
signatures were accepted. -/
theorem snapshot_validated (H : Bytes → Bytes) (ubmt : Finset Nat → Nat → Bytes) (c : Checks) (t : THS) (h : Header) (s : Bytes × Bytes)
    (hk : h.kernelMMRSize ≤ 2 ^ 64) (ho : h.outputMMRSize ≤ 2 ^ 64)
    (hv : validateSnapshot C H ubmt c t h = .ok (some s)) : SnapshotHolds H ubmt c t h ∧ snapshotSums C t h = .ok s := by
  obtain ⟨h0, h1, h2, h3, h4, h5, h6, h7, h8⟩ := (validate_steps C).1 hv
  unfold validateSizes at h0
  rw [decide_eq_true_eq] at h0
  obtain ⟨s1, s2, s3⟩ := h0
  rw [s1] at h1; rw [s2] at h2; rw [s3] at h3
  obtain ⟨r1, r2, r3⟩ := roots_all h4
  refine ⟨⟨s1, s2, s3, nodes_hash h1 hk, nodes_hash h2 ho, nodes_hash h3 ho, r1, r2, r3, ?_, ?_, ?_⟩, h6⟩
  · intro n hn; exact history_all _ h5 n (by omega)
  · intro n hn; exact (proofs_all _ _ _ h7).2 n (Nat.zero_le _) (by rw [s2]; exact hn)
  · intro d hd; exact signatures_all _ _ h8 d (.inl hd)

/-! ## The kernel hashes are those of the header -/

/-- The strings hashed in bagging peaks the way the code does, which skips all-zero hashes. -/
def foldInputs (H : Bytes → Bytes) (size : Nat) : List Bytes → List Bytes
  | [] => []
  | x :: xs => (beBytes 8 size ++ (x ++ xs.foldr (bagStep H size) zeroHash)) :: foldInputs H size xs

/-- The strings hashed in validating a hash file: those of the parents and those of the peaks. -/
def fileInputs (H : Bytes → Bytes) (file : List Bytes) (N : Nat) : List Bytes :=
  (List.range file.length).map (fun p =>
      beBytes 8 p ++ (file.getD (Index.at p).leftChild.pos [] ++ file.getD (Index.at p).rightChild.pos [])) ++
    foldInputs H file.length ((rangePeaks N).map (fun t => file.getD (rootPos t.1 t.2.2) []))

private theorem peaksSpec_falling {k : Nat} : ∀ {N s n : Nat}, (∀ t ∈ peaksSpec k N s n, t.2.2 < k) ∧
    (peaksSpec k N s n).Pairwise (fun a b => b.2.2 < a.2.2) := by
  induction k with
  | zero => intro N s n; simp [peaksSpec]
  | succ k ih =>
    intro N s n
    rw [peaksSpec]
    by_cases hN : N ≥ 2 ^ k
    · rw [if_pos hN]
      obtain ⟨a, b⟩ := ih (N := N - 2 ^ k) (s := s + (2 ^ (k + 1) - 1)) (n := n + 2 ^ k)
      refine ⟨?_, List.pairwise_cons.2 ⟨fun t ht => a t ht, b⟩⟩
      intro t ht
      rcases List.mem_cons.1 ht with rfl | ht
      · simp
      · have := a t ht; omega
    · rw [if_neg hN]
      obtain ⟨a, b⟩ := ih (N := N) (s := s) (n := n)
      exact ⟨fun t ht => by have := a t ht; omega, b⟩

private theorem bag_pinned {H : Bytes → Bytes} {size : Nat} {S : Bytes → Prop} (hinj : ∀ x y, S x → S y → H x = H y → x = y)
    (hz : ∀ x, S x → H x ≠ zeroHash) (f g : Nat × Nat × Nat → Bytes) : ∀ ps : List (Nat × Nat × Nat),
      ps.Pairwise (fun a b => b.2.2 < a.2.2) →
      (∀ t ∈ ps, (f t).length = 32 ∧ (g t).length = 32 ∧ (∃ u, S u ∧ g t = H u)) →
      (∀ t ∈ ps, 0 < t.2.2 → ∃ u, S u ∧ f t = H u ∧ ∀ w, u ≠ beBytes 8 size ++ w) →
      (∀ x ∈ foldInputs H size (ps.map f), S x) → (∀ x ∈ bagInputs H size (ps.map g), S x) →
      (ps.map f).foldr (bagStep H size) zeroHash = bag H size (ps.map g) → ∀ t ∈ ps, f t = g t := by
  intro ps
  induction ps with
  | nil => intro _ _ _ _ _ _ t ht; simp at ht
  | cons a ps ih =>
    intro hp hl hf sf sg e
    rw [List.pairwise_cons] at hp
    obtain ⟨la, lb, ub, sb, eb⟩ := hl a (by simp)
    cases ps with
    | nil =>
      simp only [List.map_cons, List.map_nil, List.foldr_cons, List.foldr_nil, bag, bagStep] at e
      intro t ht
      rw [List.mem_singleton] at ht
      subst ht
      by_cases h0 : f t = zeroHash
      · simp only [h0, ne_eq, not_true_eq_false, if_false] at e
        exact absurd (eb ▸ e.symm) (hz ub sb)
      · simpa [h0] using e
    | cons b ps =>
      have hh : 0 < a.2.2 := by have := hp.1 b (by simp); omega
      obtain ⟨u, su, eu, nu⟩ := hf a (by simp) hh
      have hne : f a ≠ zeroHash := by rw [eu]; exact hz u su
      rw [List.map_cons, List.foldr_cons] at e
      rw [List.map_cons] at sf sg
      have hs1 := sf (beBytes 8 size ++ (f a ++ ((b :: ps).map f).foldr (bagStep H size) zeroHash))
        (by simp only [foldInputs]; exact List.mem_cons_self)
      have hs2 := sg (beBytes 8 size ++ (g a ++ bag H size ((b :: ps).map g))) (by simp [bagInputs])
      have hbag : bag H size ((a :: b :: ps).map g) = H (beBytes 8 size ++ (g a ++ bag H size ((b :: ps).map g))) := by
        simp [bag]
      rw [hbag] at e
      by_cases hr : ((b :: ps).map f).foldr (bagStep H size) zeroHash = zeroHash
      · exfalso
        rw [hr] at e
        simp only [bagStep, hne, ne_eq, not_false_eq_true, if_true] at e
        rw [eu] at e
        exact nu _ (hinj _ _ su hs2 e)
      · have e' : H (beBytes 8 size ++ (f a ++ ((b :: ps).map f).foldr (bagStep H size) zeroHash)) =
            H (beBytes 8 size ++ (g a ++ bag H size ((b :: ps).map g))) := by
          rw [← e]
          have hb : ∀ x, x ≠ zeroHash → bagStep H size (f a) x = H (beBytes 8 size ++ (f a ++ x)) := by
            intro x hx
            unfold bagStep
            rw [if_pos hne, if_neg hx]
            rfl
          exact (hb _ hr).symm
        have e2 := List.append_cancel_left (hinj _ _ hs1 hs2 e')
        obtain ⟨e3, e4⟩ := List.append_inj e2 (by rw [la, lb])
        intro t ht
        rcases List.mem_cons.1 ht with rfl | ht
        · exact e3
        · exact ih hp.2 (fun t ht => hl t (by simp [ht])) (fun t ht => hf t (by simp [ht]))
            (fun x hx => sf x (by simp only [foldInputs, List.mem_cons]; exact .inr hx))
            (fun x hx => sg x (by simp only [List.map_cons, bagInputs, List.mem_cons] at hx ⊢; exact .inr hx)) e4 t ht

private theorem tree_pinned {H : Bytes → Bytes} (hlen : ∀ x, (H x).length = 32) {file : List Bytes} {d : List Bytes}
    (h32 : ∀ x ∈ file, x.length = 32) (hl : file.length < 2 ^ 64)
    (hp : ParentsHash H (kernelHashAt ⟨file, d⟩) file.length) {S : Bytes → Prop}
    (hinj : ∀ x y, S x → S y → H x = H y → x = y)
    (hs : ∀ p, p < file.length → S (beBytes 8 p ++ (file.getD (Index.at p).leftChild.pos [] ++ file.getD (Index.at p).rightChild.pos [])))
    {leaf : Nat → Bytes} : ∀ h s n, SubtreeL s n h → rootPos s h < file.length → (∀ x ∈ treeInputs H leaf h s n, S x) →
      file[rootPos s h]? = some (treeHash H leaf h s n) →
      ∀ i, i < 2 ^ h → file[leafPos (n + i)]? = some (hashLeaf H (leaf (n + i)) (leafPos (n + i))) := by
  intro h
  induction h with
  | zero =>
    intro s n hsub _ _ e i hi
    have : i = 0 := by simpa using hi
    subst this
    have hst := hsub.start
    simp only [rootPos] at e
    rw [Nat.add_zero, ← hst]
    simpa [treeHash, hashLeaf] using e
  | succ k ih =>
    intro s n hsub hlt hin e i hi
    have h1 := Nat.pow_succ 2 (k + 1)
    have h2 := Nat.pow_succ 2 k
    have hpos := two_pow_pos' (k + 1)
    have hch : Children (rootPos s k) (rootPos (s + (2 ^ (k + 1) - 1)) k) (rootPos s (k + 1)) :=
      ⟨s, k, hsub.toSubtree, rfl, rfl, rfl⟩
    have hlt1 : rootPos s k < file.length := by simp only [rootPos] at hlt ⊢; omega
    have hlt2 : rootPos (s + (2 ^ (k + 1) - 1)) k < file.length := by simp only [rootPos] at hlt ⊢; omega
    have at_ : ∀ p, (hp : p < file.length) → kernelHashAt ⟨file, d⟩ p = .ok (some file[p]) := by
      intro p hp
      unfold kernelHashAt
      rw [fileAt_ok.2 (List.getElem?_eq_getElem hp)]
      rfl
    have hpar := hp _ _ _ hch hlt _ _ _ (at_ _ hlt) (at_ _ hlt1) (at_ _ hlt2)
    rw [List.getElem?_eq_getElem hlt, Option.some.injEq] at e
    rw [hpar] at e
    obtain ⟨-, c1, c2⟩ := children_index hch (Nat.lt_trans hlt hl)
    have hS := hs _ hlt
    rw [c1, c2, List.getD_eq_getElem _ _ hlt1, List.getD_eq_getElem _ _ hlt2] at hS
    rw [treeInputs] at hin
    have e2 := List.append_cancel_left (hinj _ _ hS (hin _ (by simp)) e)
    have htl : (treeHash H leaf k s n).length = 32 := by
      obtain ⟨y, _, ey⟩ := treeHash_mem_inputs H leaf k s n
      rw [ey]; exact hlen y
    obtain ⟨e3, e4⟩ := List.append_inj e2 (by rw [h32 _ (List.getElem_mem hlt1), htl])
    by_cases hi' : i < 2 ^ k
    · exact ih s n hsub.left hlt1 (fun x hx => hin x (by simp [hx])) (by rw [List.getElem?_eq_getElem hlt1, e3]) i hi'
    · have := ih _ _ hsub.right hlt2 (fun x hx => hin x (by simp [hx])) (by rw [List.getElem?_eq_getElem hlt2, e4]) (i - 2 ^ k) (by omega)
      rw [show n + 2 ^ k + (i - 2 ^ k) = n + i by omega] at this
      exact this

private theorem beBytes8_inj {a b : Nat} (ha : a < 2 ^ 64) (hb : b < 2 ^ 64) (h : beBytes 8 a = beBytes 8 b) : a = b := by
  have h1 := beVal_beBytes 8 a
  have h2 := beVal_beBytes 8 b
  rw [h] at h1
  rw [h1] at h2
  have e : (256 : Nat) ^ 8 = 2 ^ 64 := by decide
  rw [e, Nat.mod_eq_of_lt ha, Nat.mod_eq_of_lt hb] at h2
  exact h2

/-- **C63, the kernel hashes.** If the root in the header is the root of the kernels `ks`, then in a validated snapshot the hash stored for
each kernel is the hash of that kernel, provided the hash function has no collision and no all-zero digest among the strings
hashed for the root and in the validation. -/
theorem snapshot_kernel_hashes (H : Bytes → Bytes) (hlen : ∀ x, (H x).length = 32) (ubmt : Finset Nat → Nat → Bytes) (c : Checks)
    (t : THS) (h : Header) (s : Bytes × Bytes) (ks : List Bytes) (hb : leafPos ks.length < 2 ^ 64) (ho : h.outputMMRSize ≤ 2 ^ 64)
    (hsize : h.kernelMMRSize = rangeSize ks.length) (hroot : h.kernelRoot = rangeRoot H (leafOf ks) ks.length)
    (h32 : ∀ x ∈ t.kernels.hashes, x.length = 32)
    (hinj : ∀ x y, x ∈ rangeInputs H (leafOf ks) ks.length ++ fileInputs H t.kernels.hashes ks.length →
      y ∈ rangeInputs H (leafOf ks) ks.length ++ fileInputs H t.kernels.hashes ks.length → H x = H y → x = y)
    (hz : ∀ x ∈ rangeInputs H (leafOf ks) ks.length ++ fileInputs H t.kernels.hashes ks.length, H x ≠ zeroHash)
    (hv : validateSnapshot C H ubmt c t h = .ok (some s)) :
    ∀ i (hi : i < ks.length), t.kernels.hashes[leafPos i]? = some (H (beBytes 8 (leafPos i) ++ ks[i])) := by
  rw [rangeSize_eq] at hsize
  obtain ⟨hv, -⟩ := snapshot_validated C H ubmt c t h s (by omega) ho hv
  have hkl : t.kernels.hashes.length = leafPos ks.length := by rw [hv.kernelSize, hsize]
  have hnodes : ParentsHash H (kernelHashAt t.kernels) t.kernels.hashes.length := by
    rw [hv.kernelSize]; exact hv.kernelNodes
  have hr := hv.kernelRoot
  rw [hroot, hsize] at hr
  generalize hfile : t.kernels = km at *
  obtain ⟨file, d⟩ := km
  simp only at hkl h32 hinj hz
  let S : Bytes → Prop := fun x => x ∈ rangeInputs H (leafOf ks) ks.length ++ fileInputs H file ks.length
  have hS1 : ∀ p, p < file.length → S (beBytes 8 p ++ (file.getD (Index.at p).leftChild.pos [] ++ file.getD (Index.at p).rightChild.pos [])) := by
    intro p hp
    apply List.mem_append_right
    apply List.mem_append_left
    exact List.mem_map.2 ⟨p, List.mem_range.2 hp, rfl⟩
  -- the peaks
  have hpk : ∀ t ∈ rangePeaks ks.length, rootPos t.1 t.2.2 < file.length := by
    intro t ht
    have hm := rangePeaks_mem ht
    rw [hkl]
    exact rootPos_lt_leafPos hm.1 hm.2
  have hpeaks : ∀ t ∈ rangePeaks ks.length, file.getD (rootPos t.1 t.2.2) [] = treeHash H (leafOf ks) t.2.2 t.1 t.2.1 := by
    by_cases h0 : leafPos ks.length = 0
    · have : ks.length = 0 := by have := leafPos_ge ks.length; omega
      rw [this]
      intro t ht
      simp [rangePeaks, peaksSpec] at ht
    apply bag_pinned (S := S) (size := leafPos ks.length) (fun x y hx hy => hinj x y hx hy) (fun x hx => hz x hx)
    · exact peaksSpec_falling.2
    · intro t ht
      refine ⟨?_, ?_, ?_⟩
      · rw [List.getD_eq_getElem _ _ (hpk t ht)]
        exact h32 _ (List.getElem_mem _)
      · obtain ⟨y, _, ey⟩ := treeHash_mem_inputs H (leafOf ks) t.2.2 t.1 t.2.1
        rw [ey]; exact hlen y
      · obtain ⟨y, hy, ey⟩ := treeHash_mem_inputs H (leafOf ks) t.2.2 t.1 t.2.1
        refine ⟨y, ?_, ey⟩
        apply List.mem_append_left
        exact List.mem_append_left _ (List.mem_flatMap.2 ⟨t, ht, hy⟩)
    · intro t ht hh
      obtain ⟨k, hk⟩ : ∃ k, t.2.2 = k + 1 := ⟨t.2.2 - 1, by omega⟩
      have hlt := hpk t ht
      have hsub := (rangePeaks_mem ht).1
      rw [hk] at hsub hlt
      have h1 := Nat.pow_succ 2 (k + 1)
      have hpos := two_pow_pos' (k + 1)
      have hch : Children (rootPos t.1 k) (rootPos (t.1 + (2 ^ (k + 1) - 1)) k) (rootPos t.1 (k + 1)) :=
        ⟨t.1, k, hsub.toSubtree, rfl, rfl, rfl⟩
      have hlt1 : rootPos t.1 k < file.length := by simp only [rootPos] at hlt ⊢; omega
      have hlt2 : rootPos (t.1 + (2 ^ (k + 1) - 1)) k < file.length := by simp only [rootPos] at hlt ⊢; omega
      have at_ : ∀ p, (hp : p < file.length) → kernelHashAt ⟨file, d⟩ p = .ok (some file[p]) := by
        intro p hp
        unfold kernelHashAt
        rw [fileAt_ok.2 (List.getElem?_eq_getElem hp)]
        rfl
      have hpar := hnodes _ _ _ hch hlt _ _ _ (at_ _ hlt) (at_ _ hlt1) (at_ _ hlt2)
      obtain ⟨-, c1, c2⟩ := children_index hch (by omega)
      have hS := hS1 _ hlt
      rw [c1, c2, List.getD_eq_getElem _ _ hlt1, List.getD_eq_getElem _ _ hlt2] at hS
      rw [hk, List.getD_eq_getElem _ _ hlt]
      refine ⟨_, hS, hpar, ?_⟩
      intro w ew
      have := (List.append_inj ew (by simp [beBytes_length])).1
      have := beBytes8_inj (by omega) hb this
      omega
    · intro x hx
      apply List.mem_append_right
      apply List.mem_append_right
      rw [hkl]
      exact hx
    · intro x hx
      apply List.mem_append_left
      apply List.mem_append_right
      rw [rangeSize_eq]
      exact hx
    · have hr' := hr
      unfold KMMR.root MMR.root at hr'
      rw [if_neg h0, peakIndices_eq hb, rootLoop_reverse none _ ((rangePeaks ks.length).map (fun t => file.getD (rootPos t.1 t.2.2) []))
        (by simp)] at hr'
      · injection hr' with hr'
        rw [hr', rangeRoot, rangeSize_eq]
        rfl
      · intro i hi
        rw [List.length_map] at hi
        simp only [shiftedIndex]
        rw [List.getD_eq_getElem _ _ (by simpa using hi), List.getD_eq_getElem _ _ (by simpa using hi)]
        simp only [List.getElem_map]
        have := hpk _ (List.getElem_mem hi)
        rw [fileAt_ok, List.getElem?_eq_getElem this, List.getD_eq_getElem _ _ this]
  intro i hi
  obtain ⟨t, ht, h1, h2⟩ := peaksSpec_cover (Nat.lt_two_pow_self (n := ks.length)) (s := 0) (n := 0) i (by omega) (by omega)
  have hlt := hpk t ht
  have := tree_pinned (d := d) hlen h32 (by omega) hnodes (fun x y hx hy => hinj x y hx hy) hS1 t.2.2 t.1 t.2.1 (rangePeaks_mem ht).1 hlt
    (fun x hx => by
      apply List.mem_append_left
      exact List.mem_append_left _ (List.mem_flatMap.2 ⟨t, ht, hx⟩))
    (by rw [← hpeaks t ht, List.getElem?_eq_getElem hlt, List.getD_eq_getElem _ _ hlt]) (i - t.2.1) (by omega)
  rw [show t.2.1 + (i - t.2.1) = i by omega] at this
  rw [this, hashLeaf, leafOf, List.getD_eq_getElem _ _ hi]

/-! ## The data files are not bound to the hashes -/

private theorem history_hashes {H : Bytes → Bytes} {c : Checks} {k k' : KMMR} (e : k.hashes = k'.hashes) (total : Nat) : ∀ n,
    historyBelow H c k total n = historyBelow H c k' total n := by
  intro n
  have hr : ∀ m, k.root H m = k'.root H m := by intro m; unfold KMMR.root; rw [e]
  induction n with
  | zero => rfl
  | succ n ih => unfold historyBelow; simp only [ih, hr]

private theorem proofLoop_same {c : Checks} {t t' : THS} (eo : t.outputs = t'.outputs) (ep : t.proofs = t'.proofs) : ∀ fuel n batch,
    proofLoop c t fuel n batch = proofLoop c t' fuel n batch := by
  intro fuel
  induction fuel with
  | zero => intro n batch; rfl
  | succ fuel ih => intro n batch; unfold proofLoop; simp only [ih, eo, ep]

private theorem validateProofs_same {c : Checks} {t t' : THS} (eo : t.outputs = t'.outputs) (ep : t.proofs = t'.proofs) :
    validateProofs c t = validateProofs c t' := by
  unfold validateProofs
  rw [eo]
  exact proofLoop_same eo ep _ _ _

private theorem excessesBelow_ok (k : KMMR) : ∀ n, n ≤ k.data.length → excessesBelow k n = .ok ((k.data.take n).map kernelExcess)
  | 0, _ => by simp [excessesBelow]
  | n + 1, h => by
    unfold excessesBelow
    rw [excessesBelow_ok k n (by omega)]
    simp only [Res.ok_bind, KMMR.at]
    rw [fileAt_ok.2 (List.getElem?_eq_getElem (show n < k.data.length by omega))]
    simp only [Res.ok_bind, Res.pure_eq]
    rw [List.take_add_one, List.getElem?_eq_getElem (show n < k.data.length by omega), List.map_append]
    rfl

/-- **C77, violated.** The data files of a snapshot are compared with nothing but one another: take a snapshot that passes validation and put
any data in its three data files.  If sums, range proofs and signatures of the new data are accepted, so is the whole. -/
theorem snapshot_data_violated (H : Bytes → Bytes) (ubmt : Finset Nat → Nat → Bytes) (c : Checks) (t : THS) (h : Header) (s s' : Bytes × Bytes)
    (kd od pd : List Bytes) (t' : THS)
    (ht : t' = { t with kernels.data := kd, outputs.data := od, proofs.data := pd })
    (hv : validateSnapshot C H ubmt c t h = .ok (some s)) (hs : snapshotSums C t' h = .ok s') (hp : validateProofs c t' = .ok true)
    (hk : validateSignatures c t'.kernels = true) : validateSnapshot C H ubmt c t' h = .ok (some s') := by
  obtain ⟨h0, h1, h2, h3, h4, h5, -, -, -⟩ := (validate_steps C).1 hv
  refine (validate_steps C).2 ⟨?_, ?_, ?_, ?_, ?_, ?_, hs, hp, hk⟩
  · subst ht; exact h0
  · subst ht; exact h1
  · subst ht; exact h2
  · subst ht; exact h3
  · subst ht; exact h4
  · subst ht
    unfold validateHistory at h5 ⊢
    rw [← h5]
    exact history_hashes (k' := t.kernels) (by rfl) _ _

private theorem signatureLoop_all {valid : Bytes → Bool} {c : Checks} (hc : ∀ b, c.signatures b = b.all valid) : ∀ ds batch,
    signatureLoop c ds batch = (batch ++ ds).all valid := by
  intro ds
  induction ds with
  | nil => intro batch; simp [signatureLoop, hc]
  | cons d ds ih =>
    intro batch
    unfold signatureLoop
    simp only [hc, ih]
    by_cases hl : (batch ++ [d]).length ≥ 2000
    · rw [if_pos hl]
      by_cases ha : (batch ++ [d]).all valid = true
      · rw [if_pos ha]
        simp only [List.all_append, List.all_cons, List.all_nil, Bool.and_true, Bool.and_eq_true, Bool.true_and] at ha ⊢
        rw [ha.1, ha.2]; rfl
      · rw [if_neg ha]
        simp only [List.all_append, List.all_cons, List.all_nil, Bool.and_true, Bool.not_eq_true] at ha ⊢
        rw [← Bool.and_assoc, ha]; rfl
    · rw [if_neg hl]; simp

/-- **C77, violated.** In particular the kernels of a snapshot may be reordered: with signatures checked kernel by kernel, a snapshot that
passes validation still does, with the same sums, after any permutation of its kernels. -/
theorem snapshot_swapped_violated (H : Bytes → Bytes) (ubmt : Finset Nat → Nat → Bytes) (c : Checks) (valid : Bytes → Bool)
    (hc : ∀ b, c.signatures b = b.all valid) (t : THS) (h : Header) (s : Bytes × Bytes) (kd : List Bytes)
    (hp : t.kernels.data.Perm kd) (hl : t.kernels.data.length = numKernels h)
    (hv : validateSnapshot C H ubmt c t h = .ok (some s)) :
    validateSnapshot C H ubmt c { t with kernels.data := kd } h = .ok (some s) := by
  obtain ⟨-, -, -, -, -, -, h6, h7, h8⟩ := (validate_steps C).1 hv
  refine snapshot_data_violated C H ubmt c t h s s kd t.outputs.data t.proofs.data _ rfl hv ?_ ((validateProofs_same (t' := t) (by rfl) (by rfl)).trans h7) ?_
  · unfold snapshotSums at h6 ⊢
    simp only at h6 ⊢
    obtain ⟨outs, h9, h6⟩ := Res.bind_eq_ok.1 h6
    obtain ⟨kers, h10, h6⟩ := Res.bind_eq_ok.1 h6
    obtain ⟨h11, h12⟩ := excessesBelow_eq _ _ _ h10
    rw [h9, excessesBelow_ok ⟨t.kernels.hashes, kd⟩ _ (by simp only; rw [← hp.length_eq, hl])]
    simp only [Res.ok_bind]
    unfold kernelSums at h6 ⊢
    obtain ⟨ov, h13, h6⟩ := Res.bind_eq_ok.1 h6
    obtain ⟨u, h14, h6⟩ := Res.bind_eq_ok.1 h6
    obtain ⟨k, h15, h6⟩ := Res.bind_eq_ok.1 h6
    rw [h13]
    simp only [Res.ok_bind]
    rw [h14]
    simp only [Res.ok_bind]
    rw [addCommitments_perm C (b := (kd.take (numKernels h)).map kernelExcess ++ (Option.map (·.2) (none : Option (Bytes × Bytes))).toList)
      _ h15]
    · exact h6
    · simp only [Option.map_none, Option.toList_none]
      rw [h12, List.append_nil, List.take_of_length_le (by omega), List.take_of_length_le (by rw [← hp.length_eq]; omega)]
      simpa using hp.map kernelExcess
  · unfold validateSignatures at h8 ⊢
    rw [signatureLoop_all hc] at h8 ⊢
    simp only [List.nil_append, List.all_eq_true] at h8 ⊢
    intro x hx
    exact h8 x (hp.mem_iff.2 hx)

/-- **C63, violated.** Only the sizes of hash files are compared with the header.  A snapshot that passes validation, but with a shorter file of
kernels, makes the validation read outside the file. -/
theorem snapshot_short_violated (H : Bytes → Bytes) (ubmt : Finset Nat → Nat → Bytes) (c : Checks) (t : THS) (h : Header) (s : Bytes × Bytes)
    (n : Nat) (hn : n < numKernels h) (hv : validateSnapshot C H ubmt c t h = .ok (some s)) :
    validateSnapshot C H ubmt c { t with kernels.data := t.kernels.data.take n } h = .ub := by
  obtain ⟨h0, h1, h2, h3, h4, h5, h6, -, -⟩ := (validate_steps C).1 hv
  have hs : snapshotSums C { t with kernels.data := t.kernels.data.take n } h = .ub := by
    unfold snapshotSums at h6 ⊢
    simp only at h6 ⊢
    obtain ⟨outs, h9, -⟩ := Res.bind_eq_ok.1 h6
    rw [h9]
    have : ∀ m, (t.kernels.data.take n).length < m → excessesBelow ⟨t.kernels.hashes, t.kernels.data.take n⟩ m = .ub := by
      intro m
      induction m with
      | zero => intro h; omega
      | succ m ih =>
        intro hm
        unfold excessesBelow
        by_cases hm' : (t.kernels.data.take n).length < m
        · rw [ih hm']; rfl
        · rw [excessesBelow_ok _ _ (by simp only; omega)]
          simp only [Res.ok_bind, KMMR.at]
          have : fileAt (t.kernels.data.take n) m = .ub := by
            unfold fileAt
            rw [List.getElem?_eq_none (by omega)]
          rw [this]; rfl
    simp only [Res.ok_bind]
    rw [this _ (by simp only [List.length_take]; omega)]
    rfl
  have e1 : validateSizes { t with kernels.data := t.kernels.data.take n } h = true := h0
  have e2 : validateHistory H c ⟨t.kernels.hashes, t.kernels.data.take n⟩ h = .ok true :=
    (history_hashes (k' := t.kernels) (by rfl) _ _).trans h5
  have e3 : validateRoots H ubmt { t with kernels.data := t.kernels.data.take n } h = .ok true := h4
  have e4 : validateHashes H (kernelHashAt ⟨t.kernels.hashes, t.kernels.data.take n⟩) t.kernels.hashes.length = .ok true := h1
  unfold validateSnapshot
  rw [e1, e3, hs]
  simp only [Bool.not_true, Bool.false_eq_true, if_false, e4, h2, h3, e2, Res.ok_bind, Bool.and_self]

/-- **C77, violated.** Kernels behind those the header counts are accepted as long as their signatures are. -/
theorem snapshot_extra_violated (H : Bytes → Bytes) (ubmt : Finset Nat → Nat → Bytes) (c : Checks) (valid : Bytes → Bool)
    (hc : ∀ b, c.signatures b = b.all valid) (t : THS) (h : Header) (s : Bytes × Bytes) (more : List Bytes)
    (hm : ∀ d ∈ more, valid d = true) (hv : validateSnapshot C H ubmt c t h = .ok (some s)) :
    validateSnapshot C H ubmt c { t with kernels.data := t.kernels.data ++ more } h = .ok (some s) := by
  obtain ⟨-, -, -, -, -, -, h6, h7, h8⟩ := (validate_steps C).1 hv
  refine snapshot_data_violated C H ubmt c t h s s _ t.outputs.data t.proofs.data _ rfl hv ?_ ((validateProofs_same (t' := t) (by rfl) (by rfl)).trans h7) ?_
  · unfold snapshotSums at h6 ⊢
    simp only at h6 ⊢
    obtain ⟨outs, h9, h6⟩ := Res.bind_eq_ok.1 h6
    obtain ⟨kers, h10, h6⟩ := Res.bind_eq_ok.1 h6
    obtain ⟨h11, h12⟩ := excessesBelow_eq _ _ _ h10
    rw [h9, excessesBelow_ok ⟨t.kernels.hashes, t.kernels.data ++ more⟩ _ (by simp only [List.length_append]; omega)]
    simp only [Res.ok_bind]
    rw [List.take_append_of_le_length h11, ← h12]
    exact h6
  · unfold validateSignatures at h8 ⊢
    rw [signatureLoop_all hc] at h8 ⊢
    simp only [List.nil_append, List.all_eq_true, List.mem_append] at h8 ⊢
    rintro x (hx | hx)
    · exact h8 x hx
    · exact hm x hx

end

/-! ## Examples -/

/-- A header at height 1 for two outputs and two kernels with the given roots. -/
private def exSnapHeader (k o p : Bytes) (height n : Nat) : Header :=
  { version := 1, height := height, timestamp := 0, prevHash := [], prevRoot := [], outputRoot := o,
    rangeProofRoot := p, kernelRoot := k, offset := [4], outputMMRSize := 3, kernelMMRSize := n,
    totalDifficulty := 0, scaling := 0, nonce := 0, pow := ⟨0, [], []⟩ }

private def exKernel (x : Nat) : Bytes := List.replicate 17 0 ++ toyCurve.ser (x * 1000003)
private def exOut (x : Nat) : Bytes := 1 :: toyCurve.ser (REWARD + x * 1000003)

/-- A snapshot with the header it belongs to, and the header of height 0. -/
private def exSnap : Res (THS × Header × Header) := do
  let k0 ← (KMMR.mk [] []).applyAll toyHash [exKernel 7]
  let k ← k0.applyAll toyHash [exKernel 5]
  let o ← (PMMR.mk [] [] ∅ PruneList.empty).append toyHash (exOut 7)
  let o ← o.append toyHash (exOut 9)
  let p ← (PMMR.mk [] [] ∅ PruneList.empty).append toyHash [1]
  let p ← p.append toyHash [2]
  let r0 ← k.root toyHash 1
  let r ← k.root toyHash 3
  let ro ← o.root toyHash 3
  let rp ← p.root toyHash 3
  let h := exSnapHeader r ro rp 1 3
  return (⟨k, o, p, h⟩, h, exSnapHeader r0 [] [] 0 1)

private def exChecks (h h0 : Header) : Checks :=
  ⟨fun b => b.all (fun x => x.2 ≠ []), fun b => b.all (fun d => d.length > 17), fun n => if n = 0 then some h0 else some h⟩

/-- The snapshot is validated, as it is and with its kernels exchanged; cut short it makes the validation read outside the file. -/
example : (match exSnap with
    | .ok (t, h, h0) =>
      (match validateSnapshot toyCurve toyHash (fun _ _ => []) (exChecks h h0) t h with
        | .ok (some s) => s == (toyCurve.ser (16 * 1000003), toyCurve.ser (12 * 1000003))
        | _ => false) &&
      (match validateSnapshot toyCurve toyHash (fun _ _ => []) (exChecks h h0) { t with kernels.data := t.kernels.data.reverse } h with
        | .ok (some s) => s == (toyCurve.ser (16 * 1000003), toyCurve.ser (12 * 1000003)) && t.kernels.data.reverse != t.kernels.data
        | _ => false) &&
      (match validateSnapshot toyCurve toyHash (fun _ _ => []) (exChecks h h0) { t with kernels.data := t.kernels.data.take 1 } h with
        | .ub => true
        | _ => false) &&
      (match validateSnapshot toyCurve toyHash (fun _ _ => []) (exChecks h h0) { t with kernels.data := t.kernels.data ++ [exKernel 3] } h with
        | .ok (some s) => s == (toyCurve.ser (16 * 1000003), toyCurve.ser (12 * 1000003))
        | _ => false)
    | _ => false) = true := by decide +kernel

/-- The hypotheses of `snapshot_kernel_hashes` hold for the snapshot above. -/
example : (match exSnap with
    | .ok (t, h, _) =>
      let ks := [exKernel 7, exKernel 5]
      let L := rangeInputs toyHash (leafOf ks) ks.length ++ fileInputs toyHash t.kernels.hashes ks.length
      decide (h.kernelMMRSize = rangeSize ks.length ∧ h.kernelRoot = rangeRoot toyHash (leafOf ks) ks.length ∧
        (∀ x ∈ t.kernels.hashes, x.length = 32) ∧ (∀ x ∈ L, ∀ y ∈ L, toyHash x = toyHash y → x = y) ∧ ∀ x ∈ L, toyHash x ≠ zeroHash)
    | _ => false) = true := by decide +kernel

end Verif.Props
