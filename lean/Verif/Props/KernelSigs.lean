import Verif.Tx.KernelSigs
import Verif.Tx.Body
import Verif.Tx.Snapshot
import Verif.Props.Sign
import Mathlib.Algebra.Module.Torsion.Field
import Mathlib.Data.Fintype.BigOperators

/-!
# C108: the signatures of kernels, checked together

A kernel is signed if its excess and its signature are read and the signature is one of Schnorr for the excess and the kernel's
message.  The scalars are any field, the curve any module over it, the challenge any function.
-/
namespace Verif.Props
open Verif.Wallet Verif.Tx

section
variable {F G X M : Type} [Field F] [AddCommGroup G] [Module F G] [DecidableEq G]
variable (L : SigLib F G X M)

/-- The kernel's signature is a Schnorr signature of its features, fee and lock height under its excess. -/
def KernelSigned (k : Kernel) : Prop :=
  ∃ P sig, L.keyOf k.excess = some P ∧ L.sigOf k.sig = some sig ∧
    SchnorrValid L.toScheme sig P (L.msgOf (kernelMsg k.features k.fee k.lockHeight))

/-- One signature, message and public key of a batch belong together. -/
def TermValid (t : (X × F) × M × G) : Prop := SchnorrValid L.toScheme t.1 t.2.2 t.2.1

/-! ## The equation -/

omit [DecidableEq G] in
private theorem term_valid_iff (t : (X × F) × M × G) : TermValid L t ↔ batchTerm L t = some 0 := by
  unfold TermValid SchnorrValid batchTerm
  constructor
  · rintro ⟨R, h1, h2, h3, h4⟩
    rw [← h3, L.lift_all R h1 h2, h3, h4]
    simp
  · intro h
    cases hl : L.lift t.1.1 with
    | none => simp [hl] at h
    | some R =>
      obtain ⟨h1, h2, h3⟩ := L.lift_ok _ _ hl
      refine ⟨R, h1, h2, h3, ?_⟩
      simp only [hl, Option.map_some, Option.some.injEq] at h
      rw [sub_eq_zero] at h
      rw [← h]; abel

omit [DecidableEq G] in
private theorem sum_zero (a : Nat → F) : ∀ (ts : List ((X × F) × M × G)) i, (∀ t ∈ ts, TermValid L t) →
    batchSum L a i ts = some 0
  | [], _, _ => rfl
  | t :: ts, i, h => by
    have h1 := (term_valid_iff L t).1 (h t (by simp))
    have h2 := sum_zero a ts (i + 1) (fun x hx => h x (by simp [hx]))
    simp [batchSum, h1, h2]

/-- A batch of valid signatures is accepted whatever the coefficients. -/
theorem valid_terms_accepted (a : Nat → F) (ts : List ((X × F) × M × G)) (h : ∀ t ∈ ts, TermValid L t) :
    batchEquation L a ts = true := by
  simp [batchEquation, sum_zero L a ts 0 h]

omit [DecidableEq G] in
/-- The sum depends linearly on each coefficient. -/
private theorem sum_change (a b : Nat → F) (j : Nat) (hab : ∀ i, i ≠ j → a i = b i) :
    ∀ (ts : List ((X × F) × M × G)) (i : Nat) (t : (X × F) × M × G) (d : G),
      i ≤ j → ts[j - i]? = some t → batchTerm L t = some d → ∀ x y, batchSum L a i ts = some x →
      batchSum L b i ts = some y → x - y = (a j - b j) • d
  | [], _, _, _, _, h, _, _, _, _, _ => by simp at h
  | u :: us, i, t, d, hij, h, hd, x, y, hx, hy => by
    simp only [batchSum, Option.bind_eq_bind] at hx hy
    cases hu : batchTerm L u with
    | none => simp [hu] at hx
    | some du =>
      simp only [hu, Option.bind_some] at hx hy
      cases hxs : batchSum L a (i + 1) us with
      | none => simp [hxs] at hx
      | some xs =>
        cases hys : batchSum L b (i + 1) us with
        | none => simp [hys] at hy
        | some ys =>
          simp only [hxs, hys, Option.bind_some, Option.pure_def, Option.some.injEq] at hx hy
          subst hx hy
          rcases Nat.lt_or_ge i j with hlt | hge
          · have e : j - i = (j - (i + 1)) + 1 := by omega
            rw [e, List.getElem?_cons_succ] at h
            have := sum_change a b j hab us (i + 1) t d hlt h hd xs ys hxs hys
            rw [← this, hab i (by omega)]; abel
          · have e : i = j := by omega
            subst e
            simp only [Nat.sub_self, List.getElem?_cons_zero, Option.some.injEq] at h
            subst h
            rw [hu] at hd
            injection hd with hd
            subst hd
            have e2 : ∀ (vs : List ((X × F) × M × G)) n, i < n → batchSum L a n vs = batchSum L b n vs := by
              intro vs
              induction vs with
              | nil => intro n _; rfl
              | cons v vs ih =>
                intro n hn
                simp only [batchSum, ih (n + 1) (by omega), hab n (by omega)]
            rw [e2 us (i + 1) (by omega), hys] at hxs
            injection hxs with hxs
            subst hxs
            rw [sub_smul]; abel

/-- Coefficients of a batch of `n`: the first is one, the others are as drawn. -/
def weights {n : Nat} (w : Fin n → F) (i : Nat) : F :=
  if i = 0 then 1 else if h : i < n then w ⟨i, h⟩ else 0

private theorem accepted_sum {a : Nat → F} {ts : List ((X × F) × M × G)} (h : batchEquation L a ts = true) :
    batchSum L a 0 ts = some 0 := by
  unfold batchEquation at h
  split at h
  · cases h
  · simpa using by simp_all

omit [DecidableEq G] in
private theorem sum_terms {a : Nat → F} : ∀ (ts : List ((X × F) × M × G)) i x, batchSum L a i ts = some x →
    ∀ t ∈ ts, ∃ d, batchTerm L t = some d
  | [], _, _, _, _, h => by simp at h
  | u :: us, i, x, hx, t, ht => by
    simp only [batchSum, Option.bind_eq_bind] at hx
    cases hu : batchTerm L u with
    | none => simp [hu] at hx
    | some d =>
      rcases List.mem_cons.1 ht with rfl | ht
      · exact ⟨d, hu⟩
      · cases hs : batchSum L a (i + 1) us with
        | none => simp [hu, hs] at hx
        | some y => exact sum_terms us _ y hs t ht

/-- The first signature is bad and all others are good: no coefficients make the batch pass. -/
private theorem first_bad (a : Nat → F) (ha : a 0 = 1) (t : (X × F) × M × G) (ts : List ((X × F) × M × G))
    (ht : ¬ TermValid L t) (hts : ∀ u ∈ ts, TermValid L u) : batchEquation L a (t :: ts) = false := by
  cases h : batchEquation L a (t :: ts) with
  | false => rfl
  | true =>
    have := accepted_sum L h
    rw [term_valid_iff] at ht
    simp only [batchSum, sum_zero L a ts 1 hts, ha, one_smul] at this
    cases hb : batchTerm L t with
    | none => simp [hb] at this
    | some d => rw [hb] at this ht; simp at this; exact absurd (by rw [this]) ht

/-- **C108.** If a batch holds a signature that is not valid, at most one in `|F|` of the choices of coefficients lets the batch pass —
whatever the other signatures, messages and keys are, and however they were chosen together. -/
theorem invalid_batch_rejected [Fintype F] [DecidableEq F] (ts : List ((X × F) × M × G))
    (hbad : ∃ t ∈ ts, ¬ TermValid L t) :
    Fintype.card F * (Finset.univ.filter (fun w : Fin ts.length → F => batchEquation L (weights w) ts = true)).card ≤
      Fintype.card (Fin ts.length → F) := by
  by_cases hlate : ∃ j, 0 < j ∧ ∃ t, ts[j]? = some t ∧ ¬ TermValid L t
  · obtain ⟨j, hj, t, hjt, htv⟩ := hlate
    have hjl : j < ts.length := by
      rcases Nat.lt_or_ge j ts.length with h | h
      · exact h
      · rw [List.getElem?_eq_none h] at hjt; cases hjt
    rw [← Finset.card_univ, ← Finset.card_univ, ← Finset.card_product]
    refine Finset.card_le_card_of_injOn
      (fun q : F × (Fin ts.length → F) => Function.update q.2 ⟨j, hjl⟩ (q.2 ⟨j, hjl⟩ + q.1)) (fun _ _ => Finset.mem_coe.2 (Finset.mem_univ _)) ?_
    rintro ⟨c, w⟩ hw ⟨c', w'⟩ hw' e
    simp only [Finset.coe_product, Finset.coe_filter, Set.mem_prod, Finset.mem_univ, Finset.coe_univ, Set.mem_univ, true_and,
      Set.mem_ofPred_eq] at hw hw'
    dsimp only at e
    have off : ∀ i, i ≠ ⟨j, hjl⟩ → w i = w' i := by
      intro i hi
      have := congrFun e i
      simpa [Function.update_of_ne hi] using this
    have at_j := congrFun e ⟨j, hjl⟩
    simp only [Function.update_self] at at_j
    have s1 := accepted_sum L hw
    have s2 := accepted_sum L hw'
    obtain ⟨d, hd⟩ := sum_terms L ts 0 0 s1 t (List.mem_of_getElem? hjt)
    have hab : ∀ i, i ≠ j → weights w i = weights w' i := by
      intro i hi
      unfold weights
      split
      · rfl
      · split
        · rename_i h
          exact off ⟨i, h⟩ (fun hh => hi (congrArg Fin.val hh))
        · rfl
    have := sum_change L (weights w) (weights w') j hab ts 0 t d (Nat.zero_le _) hjt hd 0 0 s1 s2
    rw [sub_self] at this
    have hd0 : d ≠ 0 := by
      intro h0
      exact htv ((term_valid_iff L t).2 (by rw [hd, h0]))
    have hw0 : weights w j - weights w' j = 0 := by
      rcases smul_eq_zero.1 this.symm with h | h
      · exact h
      · exact absurd h hd0
    have hwj : w ⟨j, hjl⟩ = w' ⟨j, hjl⟩ := by
      have : ¬ j = 0 := by omega
      simp only [weights, this, if_false, hjl, dif_pos] at hw0
      exact sub_eq_zero.1 hw0
    have hww : w = w' := by
      funext i
      by_cases hi : i = ⟨j, hjl⟩
      · rw [hi]; exact hwj
      · exact off i hi
    rw [hwj] at at_j
    rw [hww, add_left_cancel at_j]
  · have hempty : (Finset.univ.filter (fun w : Fin ts.length → F => batchEquation L (weights w) ts = true)) = ∅ := by
      rw [Finset.filter_eq_empty_iff]
      intro w _
      obtain ⟨t, ht, htv⟩ := hbad
      obtain ⟨i, hi⟩ := List.mem_iff_getElem?.1 ht
      cases i with
      | succ i => exact absurd ⟨i + 1, by omega, t, hi, htv⟩ hlate
      | zero =>
        generalize hwd : (weights w : Nat → F) = a
        have ha : a 0 = 1 := by rw [← hwd]; simp [weights]
        clear hwd
        cases ts with
        | nil => simp at hi
        | cons u us =>
          simp only [List.getElem?_cons_zero, Option.some.injEq] at hi
          subst hi
          rw [first_bad L a ha u us htv]
          · simp
          · intro v hv
            obtain ⟨i, hi⟩ := List.mem_iff_getElem?.1 hv
            by_contra hn
            exact hlate ⟨i + 1, by omega, v, by simpa using hi, hn⟩
    rw [hempty]
    simp

/-! ## Kernels -/

omit [DecidableEq G] in
private theorem parseEach_iff {A B : Type} (f : A → Option B) : ∀ (as : List A) (bs : List B),
    parseEach f as = some bs ↔ as.map f = bs.map some
  | [], bs => by cases bs <;> simp [parseEach]
  | a :: as, bs => by
    simp only [parseEach, Option.bind_eq_bind]
    cases hf : f a with
    | none => cases bs <;> simp [hf]
    | some b =>
      cases hp : parseEach f as with
      | none =>
        simp only [Option.bind_some, Option.bind_none]
        constructor
        · intro h; cases h
        · intro h
          cases bs with
          | nil => simp at h
          | cons c cs =>
            simp only [List.map_cons, List.cons.injEq] at h
            rw [(parseEach_iff f as cs).2 h.2] at hp
            cases hp
      | some cs =>
        have := (parseEach_iff f as cs).1 hp
        cases bs with
        | nil => simp
        | cons d ds =>
          simp only [Option.bind_some, Option.pure_def, Option.some.injEq, List.cons.injEq, List.map_cons, hf]
          rw [this]
          simp [List.map_inj_right]

/-- What a batch of kernels is turned into: signature, message and public key of each. -/
def KernelTerm (k : Kernel) (t : (X × F) × M × G) : Prop :=
  L.keyOf k.excess = some t.2.2 ∧ L.sigOf k.sig = some t.1 ∧ t.2.1 = L.msgOf (kernelMsg k.features k.fee k.lockHeight)

omit [DecidableEq G] in
private theorem zip_terms : ∀ (ks : List Kernel) (keys : List G) (ss : List (X × F)),
    (ks.map (·.excess)).map L.keyOf = keys.map some → (ks.map (·.sig)).map L.sigOf = ss.map some →
    List.Forall₂ (KernelTerm L) ks
      (ss.zip ((ks.map (fun k => L.msgOf (kernelMsg k.features k.fee k.lockHeight))).zip keys))
  | [], keys, ss, h1, h2 => by cases ss <;> simp at h2 ⊢
  | k :: ks, keys, ss, h1, h2 => by
    cases keys with
    | nil => simp at h1
    | cons P keys =>
      cases ss with
      | nil => simp at h2
      | cons s ss =>
        simp only [List.map_cons, List.cons.injEq] at h1 h2
        simp only [List.map_cons, List.zip_cons_cons]
        exact .cons ⟨h1.1, h2.1, rfl⟩ (zip_terms ks keys ss h1.2 h2.2)

/-- **C108.** A batch of kernels that passes has been read in full, and its signatures satisfy the batch equation. -/
theorem batch_checks_each_kernel {ks : List Kernel} (h : batchVerify L ks = true) :
    ∃ ts, List.Forall₂ (KernelTerm L) ks ts ∧ (ks ≠ [] → batchEquation L (L.coef ts) ts = true) := by
  unfold batchVerify at h
  split at h
  · rename_i e; subst e; exact ⟨[], .nil, fun h => absurd rfl h⟩
  · unfold verifyMany at h
    split at h
    · cases h
    · rename_i keys hk
      split at h
      · cases h
      · rename_i ss hs
        exact ⟨_, zip_terms L ks keys ss ((parseEach_iff _ _ _).1 hk) ((parseEach_iff _ _ _).1 hs), fun _ => h⟩

omit [DecidableEq G] in
private theorem signed_terms : ∀ ks : List Kernel, (∀ k ∈ ks, KernelSigned L k) →
    ∃ (keys : List G) (ss : List (X × F)), (ks.map (·.excess)).map L.keyOf = keys.map some ∧
      (ks.map (·.sig)).map L.sigOf = ss.map some ∧
      ∀ t ∈ ss.zip ((ks.map (fun k => L.msgOf (kernelMsg k.features k.fee k.lockHeight))).zip keys), TermValid L t
  | [], _ => ⟨[], [], rfl, rfl, by simp⟩
  | k :: ks, h => by
    obtain ⟨keys, ss, h1, h2, h3⟩ := signed_terms ks (fun x hx => h x (by simp [hx]))
    obtain ⟨P, sig, g1, g2, g3⟩ := h k (by simp)
    refine ⟨P :: keys, sig :: ss, by simp [g1, ← h1], by simp [g2, ← h2], ?_⟩
    simp only [List.map_cons, List.zip_cons_cons, List.mem_cons]
    rintro t (rfl | ht)
    · exact g3
    · exact h3 t ht

/-- **C108.** Kernels that are all signed are accepted together, in whatever order and however they are batched. -/
theorem signed_kernels_accepted (ks : List Kernel) (h : ∀ k ∈ ks, KernelSigned L k) : batchVerify L ks = true := by
  obtain ⟨keys, ss, h1, h2, h3⟩ := signed_terms L ks h
  unfold batchVerify
  split
  · rfl
  · unfold verifyMany
    rw [(parseEach_iff _ _ _).2 h1, (parseEach_iff _ _ _).2 h2]
    exact valid_terms_accepted L _ _ h3

/-- **C108.** A kernel checked alone passes exactly if it is signed. -/
theorem single_kernel_iff (k : Kernel) : verifyKernel L k = true ↔ KernelSigned L k := by
  constructor
  · intro h
    obtain ⟨ts, h1, h2⟩ := batch_checks_each_kernel L h
    cases h1 with
    | cons g1 g2 =>
      cases g2
      rename_i t
      have h3 := h2 (by simp)
      by_cases hv : TermValid L t
      · obtain ⟨a1, a2, a3⟩ := g1
        exact ⟨t.2.2, t.1, a1, a2, a3 ▸ hv⟩
      · rw [first_bad L _ (L.coef_first _) t [] hv (by simp)] at h3
        cases h3
  · intro h
    exact signed_kernels_accepted L [k] (by simpa using h)

/-- **C108.** A batch is turned down if one kernel's excess or signature cannot be read. -/
theorem unreadable_kernel_rejected (ks : List Kernel) (k : Kernel) (hk : k ∈ ks)
    (h : L.keyOf k.excess = none ∨ L.sigOf k.sig = none) : batchVerify L ks = false := by
  cases hb : batchVerify L ks with
  | false => rfl
  | true =>
    obtain ⟨ts, h1, -⟩ := batch_checks_each_kernel L hb
    clear hb
    exfalso
    induction h1 with
    | nil => simp at hk
    | cons g _ ih =>
      rcases List.mem_cons.1 hk with rfl | hk
      · rcases h with h | h
        · rw [g.1] at h; cases h
        · rw [g.2.1] at h; cases h
      · exact ih hk

/-- **C108.** If all kernels but one are signed, the batch passes only if the coefficient of that one is zero. -/
theorem one_unsigned_kernel (before after : List Kernel) (k : Kernel) (hk : ¬ KernelSigned L k)
    (h1 : ∀ x ∈ before, KernelSigned L x) (h2 : ∀ x ∈ after, KernelSigned L x)
    (h : batchVerify L (before ++ k :: after) = true) :
    ∃ ts, List.Forall₂ (KernelTerm L) (before ++ k :: after) ts ∧ L.coef ts before.length = 0 := by
  obtain ⟨ts, g1, g2⟩ := batch_checks_each_kernel L h
  have g2 := g2 (by simp)
  refine ⟨ts, g1, ?_⟩
  generalize L.coef ts = a at g2 ⊢
  have g3 := accepted_sum L g2
  have valid : ∀ x t, KernelSigned L x → KernelTerm L x t → TermValid L t := by
    rintro x t ⟨P, s, a1, a2, a3⟩ ⟨b1, b2, b3⟩
    rw [a1] at b1; rw [a2] at b2
    injection b1 with b1; injection b2 with b2
    unfold TermValid
    rw [← b1, ← b2, b3]
    exact a3
  have main : ∀ (bs : List Kernel) (us : List ((X × F) × M × G)) i, (∀ x ∈ bs, KernelSigned L x) →
      List.Forall₂ (KernelTerm L) (bs ++ k :: after) us → batchSum L a i us = some 0 → a (i + bs.length) = 0 := by
    intro bs
    induction bs with
    | nil =>
      intro us i _ hf hs
      rcases hf with _ | ⟨hf, hr⟩
      rename_i u us
      have hval : ∀ t ∈ us, TermValid L t := by
        intro t ht
        obtain ⟨j, hj, e⟩ := List.mem_iff_getElem.1 ht
        have hl := hr.length_eq
        have hxt := hr.get (by omega : j < after.length) hj
        simp only [List.get_eq_getElem, e] at hxt
        exact valid _ t (h2 _ (List.getElem_mem _)) hxt
      cases hu : batchTerm L u with
      | none => simp [batchSum, hu] at hs
      | some d =>
        simp only [batchSum, hu, sum_zero L a us (i + 1) hval] at hs
        simp only [Option.bind_eq_bind, Option.bind_some, Option.pure_def, add_zero, Option.some.injEq] at hs
        rcases smul_eq_zero.1 hs with h | h
        · simpa using h
        · exfalso
          apply hk
          have := (term_valid_iff L u).2 (by rw [hu, h])
          exact ⟨u.2.2, u.1, hf.1, hf.2.1, hf.2.2 ▸ this⟩
    | cons b bs ih =>
      intro us i hb hf hs
      rcases hf with _ | ⟨hf, hr⟩
      rename_i u us
      have hu := (term_valid_iff L u).1 (valid b u (hb b (by simp)) hf)
      cases hr' : batchSum L a (i + 1) us with
      | none => simp [batchSum, hr'] at hs
      | some y =>
        simp only [batchSum, hu, hr'] at hs
        simp at hs
        subst hs
        have := ih us (i + 1) (fun x hx => hb x (by simp [hx])) hr hr'
        rw [List.length_cons, show i + (bs.length + 1) = i + 1 + bs.length by omega]
        exact this
  simpa using main before ts 0 h1 g1 g3

/-- **C108.** The kernel of a transaction that the wallet finalized passes the check of every node, alone and among other signed
kernels: the two checks agree. -/
theorem finalized_kernel_accepted [DecidableEq X] {key nonce : F} {es out : List (Entry F G X)} {P : G} {sig : X × F}
    (k : Kernel) (hf : finalizeSign L.toScheme key nonce es (L.msgOf (kernelMsg k.features k.fee k.lockHeight)) = .ok (out, P, sig))
    (hP : L.keyOf k.excess = some P) (hs : L.sigOf k.sig = some sig)
    (others : List Kernel) (ho : ∀ x ∈ others, KernelSigned L x) :
    batchVerify L (k :: others) = true := by
  apply signed_kernels_accepted
  intro x hx
  rcases List.mem_cons.1 hx with rfl | hx
  · refine ⟨P, sig, hP, hs, (verifyAggregate_iff L.toScheme sig P _).1 ?_⟩
    unfold finalizeSign at hf
    rw [Res.bind_eq_ok] at hf
    obtain ⟨signed, -, hf⟩ := hf
    rw [Res.bind_eq_ok] at hf
    obtain ⟨ex, -, hf⟩ := hf
    rw [Res.bind_eq_ok] at hf
    obtain ⟨sg, -, hf⟩ := hf
    split at hf
    · rename_i hv
      simp only [Res.pure_eq] at hf
      injection hf with hf
      injection hf with h1 h2
      injection h2 with h2 h3
      rw [← h2, ← h3]; exact hv
    · cases hf
  · exact ho x hx

/-- The check of the snapshot validator, for stored kernels read by `read`. -/
def snapshotChecks (proofs : List (Bytes × Bytes) → Bool) (headerAt : Nat → Option Header) (read : Bytes → Kernel) : Checks :=
  ⟨proofs, fun ds => batchVerify L (ds.map read), headerAt⟩

private theorem loop_signed (p : List (Bytes × Bytes) → Bool) (hd : Nat → Option Header) (read : Bytes → Kernel) :
    ∀ ds batch, (∀ d ∈ batch ++ ds, KernelSigned L (read d)) → signatureLoop (snapshotChecks L p hd read) ds batch = true
  | [], batch, h => by
    simp only [signatureLoop, snapshotChecks]
    exact signed_kernels_accepted L _ (by simpa using h)
  | d :: ds, batch, h => by
    have h0 : ∀ x ∈ batch ++ [d], KernelSigned L (read x) := by
      intro x hx; exact h x (by simp at hx ⊢; tauto)
    have h1 : (snapshotChecks L p hd read).signatures (batch ++ [d]) = true :=
      signed_kernels_accepted L _ (by
        intro k hk
        obtain ⟨x, hx, rfl⟩ := List.mem_map.1 hk
        exact h0 x hx)
    simp only [signatureLoop, h1, if_true]
    split
    · exact loop_signed p hd read ds [] (fun x hx => h x (by simp at hx ⊢; tauto))
    · exact loop_signed p hd read ds (batch ++ [d]) (fun x hx => h x (by simp at hx ⊢; tauto))

/-- **C108.** A snapshot whose kernels are all signed passes the check of its signatures, whatever its number of kernels. -/
theorem signed_snapshot_accepted (p : List (Bytes × Bytes) → Bool) (hd : Nat → Option Header) (read : Bytes → Kernel) (t : MMR.KMMR)
    (h : ∀ d ∈ t.data, KernelSigned L (read d)) : validateSignatures (snapshotChecks L p hd read) t = true :=
  loop_signed L p hd read t.data [] (by simpa using h)

/-- **C108.** A body with a single kernel — that of every transaction from a wallet, and of a block with the coinbase alone — is accepted
only if the kernel is signed. -/
theorem single_kernel_body {H : DigestNum} {proofs : List (Bytes × Bytes) → Bool} {b : Body} {k : Kernel}
    (h : validateBody H proofs (batchVerify L) b = .ok ()) (hk : b.kernels = [k]) : KernelSigned L k := by
  rw [← single_kernel_iff]
  unfold validateBody at h
  rw [Res.bind_eq_ok] at h; obtain ⟨-, -, h⟩ := h
  rw [Res.bind_eq_ok] at h; obtain ⟨-, -, h⟩ := h
  rw [Res.bind_eq_ok] at h; obtain ⟨-, -, h⟩ := h
  rw [hk] at h
  unfold verifyKernel
  cases hb : batchVerify L [k] with
  | true => rfl
  | false => simp [hb] at h

end

/-! ## A concrete library -/

/-- `scheme11` with one byte for a key, two for a signature; the message is the last byte. -/
def lib11 : SigLib (ZMod 11) (ZMod 11) (ZMod 11) (ZMod 11) where
  toScheme := scheme11
  keyOf | [b] => if b.toNat < 11 then some b.toNat else none
        | _ => none
  sigOf | [x, s] => some (x.toNat, s.toNat)
        | _ => none
  msgOf bs := (bs.getLastD 0).toNat
  lift x := [1, 2, 3, 4, 5].find? (fun r => r * r = x)
  coef ts i := if i = 0 then 1 else (ts.map (fun t => t.1.2)).sum + i
  lift_ok := by decide +kernel
  lift_all := by decide +kernel
  coef_first _ := rfl

/-- The kernel finalized in `Props.Sign`: excess 8, signature (3, 2), message 7. -/
def kernel11 : Kernel := ⟨0, ⟨0, 7⟩, 0, [8], [3, 2]⟩

example : verifyKernel lib11 kernel11 = true ∧ verifyKernel lib11 { kernel11 with fee := ⟨0, 6⟩ } = false := by
  decide +kernel

example : finalizeSign lib11.toScheme 3 2 [answer scheme11 3 2 5 4 7]
    (lib11.msgOf (kernelMsg kernel11.features kernel11.fee kernel11.lockHeight)) =
    .ok ([answer scheme11 3 2 5 4 7, closing scheme11 3 2 5 4 7], 8, (3, 2)) := by decide +kernel

/-- The bound is reached: a second signature that is not valid passes with one coefficient of eleven, zero. -/
example : ((List.range 11).filter (fun (c : Nat) =>
    batchEquation lib11 (weights ![0, (c : ZMod 11)]) [((3, 2), 7, 8), ((3, 2), 6, 8)])) = [0] := by decide +kernel

/-- With equal coefficients two signatures that are not valid could cancel: this is why they are drawn. -/
example : ∃ s : ZMod 11, ¬ TermValid lib11 ((3, 2), 6, 8) ∧ batchEquation lib11 (fun _ => 1) [((3, 2), 6, 8), ((3, s), 6, 8)] = true := by
  refine ⟨?_, ?_⟩
  · exact 8
  · rw [TermValid, ← verifyAggregate_iff]
    decide +kernel

end Verif.Props
