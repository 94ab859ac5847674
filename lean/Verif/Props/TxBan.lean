import Verif.P2P.TxBan
import Verif.Props.Pool
import Verif.Props.Net

/-!
# C135, C136: who is banned over a transaction; merging valid transactions
-/
namespace Verif.Props
open Verif Verif.Tx Verif.PoW Verif.P2P Verif.MMR

section
variable {G : Type} [AddCommGroup G] [DecidableEq G] (C : Curve G)

/-! ## Spec: the rules a transaction has to keep by itself -/

/-- Spec: the commitment stands for a point, or is the all-zero string. -/
def Readable (c : Bytes) : Prop := c = zeroCommit ∨ ∃ g, C.parse c = some g

/-- Spec: the fees of a transaction. -/
def feesOf (tx : Tx) : Nat := (tx.body.kernels.map (·.fee.fee)).sum

/-- Spec: outputs plus fees minus inputs are the excesses plus the offset, all commitments being points, and none of the sums formed on the
way being the point at infinity. -/
structure Balances (tx : Tx) : Prop where
  outputs : ∀ o ∈ tx.body.outputs, Readable C o.commit
  inputs : ∀ i ∈ tx.body.inputs, Readable C i.commit
  kernels : ∀ k ∈ tx.body.kernels, Readable C k.excess
  fee : 0 < feesOf tx → feesOf tx • C.genV ≠ 0
  offset : beVal tx.offset ≠ 0 → beVal tx.offset < C.order ∧ beVal tx.offset • C.genB ≠ 0
  excess : total C (tx.body.kernels.map (·.excess)) ≠ 0
  value : total C (tx.body.outputs.map (·.commit)) + feesOf tx • C.genV - total C (tx.body.inputs.map (·.commit)) ≠ 0
  equal : total C (tx.body.outputs.map (·.commit)) + feesOf tx • C.genV - total C (tx.body.inputs.map (·.commit)) =
    total C (tx.body.kernels.map (·.excess)) + beVal tx.offset • C.genB

/-- Spec: the transaction keeps the rules for transactions, whatever the chain and whatever the pools. -/
structure Obeys (H : DigestNum) (proofs : List (Bytes × Bytes) → Bool) (sigs : List Kernel → Bool) (tx : Tx) : Prop where
  weight : tx.body.inputs.length + 21 * (tx.body.outputs.length + 1) + 3 * (tx.body.kernels.length + 1) ≤ 40000
  inputs : tx.body.inputs.Pairwise (fun x y => inputHash H x ≤ inputHash H y)
  outputs : tx.body.outputs.Pairwise (fun x y => outputHash H x ≤ outputHash H y)
  kernels : tx.body.kernels.Pairwise (fun x y => kernelHash H x ≤ kernelHash H y)
  inputsDiffer : NeighboursDiffer (fun x y => x = y) tx.body.inputs
  outputsDiffer : NeighboursDiffer (fun x y => outputHash H x = outputHash H y) tx.body.outputs
  cut : ∀ i ∈ tx.body.inputs, ∀ o ∈ tx.body.outputs, i.commit ≠ o.commit
  proofs : proofs (tx.body.outputs.map (fun o => (o.commit, o.proof))) = true
  sigs : sigs tx.body.kernels = true
  plainOutputs : ∀ o ∈ tx.body.outputs, outIsCoinbase o = false
  plainKernels : ∀ k ∈ tx.body.kernels, kerIsCoinbase k = false
  balances : Balances C tx

/-- Spec: what the wire format can carry: fees of 40 bits, and vectors that fit in memory. -/
def OnWire (tx : Tx) : Prop := InMemory tx.body ∧ ∀ k ∈ tx.body.kernels, k.fee.fee < 2 ^ 40

/-! ## The sums -/

omit [DecidableEq G] in
private theorem parse_iff : ∀ cs : List Bytes,
    (∃ gs, parseAll C (cs.filter (· ≠ zeroCommit)) = .ok gs) ↔ ∀ c ∈ cs, Readable C c
  | [] => by simp [parseAll]
  | c :: cs => by
    have ih := parse_iff cs
    by_cases hc : c = zeroCommit
    · rw [List.filter_cons_of_neg (by simp [hc]), ih]
      simp [Readable, hc]
    · rw [List.filter_cons_of_pos (by simp [hc])]
      unfold parseAll
      simp only [List.mem_cons, forall_eq_or_imp, ← ih]
      cases e : C.parse c with
      | none => simp [Readable, hc, e]
      | some g =>
        simp only [Readable, hc, e, false_or, Option.some.injEq, exists_eq', true_and, Res.bind_eq_ok, Res.pure_eq, Res.ok.injEq]
        constructor
        · rintro ⟨_, gs, h, _⟩; exact ⟨gs, h⟩
        · rintro ⟨gs, h⟩; exact ⟨_, gs, h, rfl⟩

private theorem add_iff (pos neg : List Bytes) (x : Bytes) : addCommitments C pos neg = .ok x ↔
    (∀ c ∈ pos, Readable C c) ∧ (∀ c ∈ neg, Readable C c) ∧ total C pos - total C neg ≠ 0 ∧ x = C.ser (total C pos - total C neg) := by
  rw [← parse_iff, ← parse_iff]
  unfold addCommitments
  constructor
  · intro h
    obtain ⟨p, h1, h⟩ := Res.bind_eq_ok.mp h
    obtain ⟨n, h2, h⟩ := Res.bind_eq_ok.mp h
    rw [parseAll_sum C _ _ h1, parseAll_sum C _ _ h2] at h
    dsimp only at h
    split at h
    · cases h
    · rename_i hne
      simp only [Res.pure_eq, Res.ok.injEq] at h
      exact ⟨⟨p, h1⟩, ⟨n, h2⟩, hne, h.symm⟩
  · rintro ⟨⟨p, h1⟩, ⟨n, h2⟩, hne, rfl⟩
    rw [h1, Res.ok_bind, h2, Res.ok_bind, parseAll_sum C _ _ h1, parseAll_sum C _ _ h2]
    dsimp only
    rw [if_neg hne, Res.pure_eq]

private theorem commit_iff (v b : Nat) (x : Bytes) : commit C v b = .ok x ↔
    b < C.order ∧ v • C.genV + b • C.genB ≠ 0 ∧ x = C.ser (v • C.genV + b • C.genB) := by
  unfold commit
  by_cases h : b ≥ C.order
  · rw [if_pos h]; simp; intro h'; omega
  · rw [if_neg h]
    dsimp only
    by_cases h0 : v • C.genV + b • C.genB = 0
    · rw [if_pos h0]; simp [h0]
    · rw [if_neg h0]; simp only [Res.ok.injEq]
      exact ⟨fun e => ⟨by omega, h0, e.symm⟩, fun e => e.2.2.symm⟩

omit [DecidableEq G] in
private theorem readable_ser (g : G) (h : g ≠ 0) : Readable C (C.ser g) := Or.inr ⟨g, C.parse_ser g h⟩

/-- The check of the sums accepts exactly the transactions that balance. -/
private theorem sums_iff (hord : 0 < C.order) (tx : Tx) (hf : feesOf tx < 2 ^ 63) : (∃ r, txSums C tx = .ok r) ↔ Balances C tx := by
  have hU : (∃ ov u, overageCommits C (feesOf tx : Int) = .ok ov ∧ addCommitments C (tx.body.outputs.map (·.commit) ++ ov.1 ++ [])
      (tx.body.inputs.map (·.commit) ++ ov.2) = .ok u ∧
      u = C.ser (total C (tx.body.outputs.map (·.commit)) + feesOf tx • C.genV - total C (tx.body.inputs.map (·.commit)))) ↔
      (∀ o ∈ tx.body.outputs, Readable C o.commit) ∧ (∀ i ∈ tx.body.inputs, Readable C i.commit) ∧ (0 < feesOf tx → feesOf tx • C.genV ≠ 0) ∧
      total C (tx.body.outputs.map (·.commit)) + feesOf tx • C.genV - total C (tx.body.inputs.map (·.commit)) ≠ 0 := by
    unfold overageCommits
    by_cases h0 : feesOf tx = 0
    · rw [if_neg (by omega), if_neg (by omega)]
      simp only [h0, zero_smul, add_zero, Res.ok.injEq, exists_and_left, exists_eq_left', List.append_nil, add_iff, List.mem_map,
        forall_exists_index, and_imp, forall_apply_eq_imp_iff₂, lt_irrefl, false_imp_iff, true_and]
      constructor
      · rintro ⟨u, h1, h2⟩; exact ⟨h1.1, h1.2.1, h1.2.2.1⟩
      · rintro ⟨h1, h2, h3⟩; exact ⟨_, ⟨h1, h2, h3, rfl⟩, rfl⟩
    · rw [if_pos (by omega), Int.toNat_natCast]
      constructor
      · rintro ⟨ov, u, h1, h2, -⟩
        obtain ⟨c, hc, h1⟩ := Res.bind_eq_ok.mp h1
        simp only [Res.pure_eq, Res.ok.injEq] at h1
        subst h1
        obtain ⟨_, c1, c2⟩ := (commit_iff C _ _ _).mp hc
        simp only [zero_smul, add_zero] at c1 c2
        obtain ⟨a1, a2, a3, _⟩ := (add_iff C _ _ _).mp h2
        simp only [List.append_nil, total_append, total_cons, total_nil, c2, point_ser C _ c1, add_zero] at a3
        refine ⟨fun o ho => a1 _ ?_, fun i hi => a2 _ ?_, fun _ => c1, a3⟩
        · simp only [List.append_nil, List.mem_append, List.mem_map]; exact Or.inl ⟨o, ho, rfl⟩
        · simp only [List.append_nil, List.mem_map]; exact ⟨i, hi, rfl⟩
      · rintro ⟨h1, h2, h3, h4⟩
        have c1 := h3 (by omega)
        refine ⟨([C.ser (feesOf tx • C.genV)], []), _, ?_, ?_, rfl⟩
        · rw [(commit_iff C (feesOf tx) 0 (C.ser (feesOf tx • C.genV))).mpr ⟨hord, by simpa using c1, by simp⟩]; rfl
        · refine (add_iff C _ _ _).mpr ⟨?_, ?_, ?_, ?_⟩
          · intro c hc
            simp only [List.append_nil, List.mem_append, List.mem_map, List.mem_singleton] at hc
            rcases hc with ⟨o, ho, rfl⟩ | rfl
            · exact h1 o ho
            · exact readable_ser C _ c1
          · intro c hc
            simp only [List.append_nil, List.mem_map] at hc
            obtain ⟨i, hi, rfl⟩ := hc
            exact h2 i hi
          · simpa only [List.append_nil, total_append, total_cons, total_nil, point_ser C _ c1, add_zero] using h4
          · simp only [List.append_nil, total_append, total_cons, total_nil, point_ser C _ c1, add_zero]
  have hK : ∀ x, addCommitments C (tx.body.kernels.map (·.excess) ++ []) [] = .ok x ↔
      (∀ k ∈ tx.body.kernels, Readable C k.excess) ∧ total C (tx.body.kernels.map (·.excess)) ≠ 0 ∧
      x = C.ser (total C (tx.body.kernels.map (·.excess))) := by
    intro x
    rw [add_iff]
    simp [total_nil]
  unfold txSums
  change (∃ r, (if feesOf tx ≥ 2 ^ 63 then Res.ub else bodySums C tx.body (feesOf tx : Int) tx.offset none) = .ok r) ↔ _
  rw [if_neg (by omega)]
  unfold bodySums kernelSums
  constructor
  · rintro ⟨r, h⟩
    have hs := kernel_sums_sound C _ _ _ _ _ none r.1 r.2 h
    obtain ⟨ov, h1, h⟩ := Res.bind_eq_ok.mp h
    obtain ⟨u, h2, h⟩ := Res.bind_eq_ok.mp h
    obtain ⟨k, h3, h⟩ := Res.bind_eq_ok.mp h
    obtain ⟨ko, h4, h⟩ := Res.bind_eq_ok.mp h
    split at h
    · cases h
    · rename_i he
      have he : u = ko := not_not.mp he
      simp only [Res.pure_eq, Res.ok.injEq] at h
      subst h
      obtain ⟨s1, s2, s3⟩ := hs
      simp only [Option.map_none, Option.toList_none, total_nil, add_zero, natCast_zsmul] at s1 s2 s3
      have hu := (add_iff C _ _ _).mp h2
      have eU : total C (tx.body.outputs.map (·.commit)) + feesOf tx • C.genV - total C (tx.body.inputs.map (·.commit)) = point C u := by
        rw [s1]; abel
      have hu' : u = C.ser (total C (tx.body.outputs.map (·.commit)) + feesOf tx • C.genV - total C (tx.body.inputs.map (·.commit))) := by
        rw [eU, hu.2.2.2, point_ser C _ hu.2.2.1]
      obtain ⟨g1, g2, g3, g4⟩ := hU.mp ⟨ov, u, h1, h2, hu'⟩
      obtain ⟨k1, k2, k3⟩ := (hK k).mp h3
      refine ⟨g1, g2, k1, g3, ?_, k2, g4, by rw [eU, s3, s2]⟩
      intro h0
      unfold addKernelOffset at h4
      rw [if_neg h0] at h4
      obtain ⟨c, h5, _⟩ := Res.bind_eq_ok.mp h4
      obtain ⟨c1, c2, _⟩ := (commit_iff C _ _ _).mp h5
      exact ⟨c1, by simpa using c2⟩
  · intro b
    obtain ⟨ov, u, h1, h2, h3⟩ := hU.mpr ⟨b.outputs, b.inputs, b.fee, b.value⟩
    have h4 := (hK _).mpr ⟨b.kernels, b.excess, rfl⟩
    have h5 : addKernelOffset C (C.ser (total C (tx.body.kernels.map (·.excess)))) tx.offset = .ok u := by
      unfold addKernelOffset
      by_cases h0 : beVal tx.offset = 0
      · rw [if_pos h0, h3, b.equal, h0, zero_smul, add_zero]
      · rw [if_neg h0]
        obtain ⟨o1, o2⟩ := b.offset h0
        rw [(commit_iff C 0 (beVal tx.offset) (C.ser (beVal tx.offset • C.genB))).mpr ⟨o1, by simpa using o2, by simp⟩, Res.ok_bind]
        refine (add_iff C _ _ _).mpr ⟨?_, by simp, ?_, ?_⟩
        · intro c hc
          simp only [List.mem_cons, List.not_mem_nil, or_false] at hc
          rcases hc with rfl | rfl
          · exact readable_ser C _ b.excess
          · exact readable_ser C _ o2
        · simp only [total_cons, total_nil, point_ser C _ b.excess, point_ser C _ o2, add_zero, sub_zero]
          rw [← b.equal]; exact b.value
        · simp only [total_cons, total_nil, point_ser C _ b.excess, point_ser C _ o2, add_zero, sub_zero]
          rw [h3, b.equal]
    refine ⟨(u, C.ser (total C (tx.body.kernels.map (·.excess)))), Res.bind_eq_ok.mpr ⟨ov, h1, Res.bind_eq_ok.mpr ⟨u, h2, Res.bind_eq_ok.mpr ⟨_, h4, Res.bind_eq_ok.mpr ⟨u, h5, ?_⟩⟩⟩⟩⟩
    rw [if_neg (by simp), Res.pure_eq]

omit [DecidableEq G] in
private theorem parseAll_defined : ∀ cs : List Bytes, parseAll C cs ≠ .ub
  | [] => by simp [parseAll]
  | c :: cs => by
    unfold parseAll
    have ih := parseAll_defined cs
    cases C.parse c with
    | none => simp
    | some g => simpa [Res.bind_eq_ub] using ih

private theorem add_defined (pos neg : List Bytes) : addCommitments C pos neg ≠ .ub := by
  unfold addCommitments
  intro h
  rcases Res.bind_eq_ub.mp h with h | ⟨p, _, h⟩
  · exact parseAll_defined C _ h
  · rcases Res.bind_eq_ub.mp h with h | ⟨n, _, h⟩
    · exact parseAll_defined C _ h
    · dsimp only at h
      split at h <;> simp [Res.pure_eq] at h

private theorem commit_defined (v b : Nat) : commit C v b ≠ .ub := by
  unfold commit
  dsimp only
  split
  · simp
  · split <;> simp

private theorem sums_defined (tx : Tx) (hf : feesOf tx < 2 ^ 63) : txSums C tx ≠ .ub := by
  have e : txSums C tx = bodySums C tx.body (feesOf tx : Int) tx.offset none := by
    unfold txSums
    exact if_neg (show ¬ feesOf tx ≥ 2 ^ 63 by omega)
  rw [e]
  unfold bodySums kernelSums overageCommits addKernelOffset
  intro h
  rcases Res.bind_eq_ub.mp h with h | ⟨ov, _, h⟩
  · split at h
    · rcases Res.bind_eq_ub.mp h with h | ⟨_, _, h⟩
      · exact commit_defined C _ _ h
      · simp [Res.pure_eq] at h
    · split at h
      · rcases Res.bind_eq_ub.mp h with h | ⟨_, _, h⟩
        · exact commit_defined C _ _ h
        · simp [Res.pure_eq] at h
      · simp at h
  · rcases Res.bind_eq_ub.mp h with h | ⟨u, _, h⟩
    · exact add_defined C _ _ h
    · rcases Res.bind_eq_ub.mp h with h | ⟨k, _, h⟩
      · exact add_defined C _ _ h
      · rcases Res.bind_eq_ub.mp h with h | ⟨ko, _, h⟩
        · split at h
          · simp at h
          · rcases Res.bind_eq_ub.mp h with h | ⟨_, _, h⟩
            · exact commit_defined C _ _ h
            · exact add_defined C _ _ h
        · split at h <;> simp [Res.pure_eq] at h

variable (env : Env) (H : DigestNum) (proofs : List (Bytes × Bytes) → Bool) (sigs : List Kernel → Bool)

private theorem fees_small (l : List Kernel) (h : ∀ k ∈ l, k.fee.fee < 2 ^ 40) : (l.map (·.fee.fee)).sum ≤ l.length * 2 ^ 40 := by
  induction l with
  | nil => simp
  | cons k l ih =>
    have h1 := h k List.mem_cons_self
    have h2 := ih fun x hx => h x (List.mem_cons_of_mem _ hx)
    simp only [List.map_cons, List.sum_cons, List.length_cons]
    omega

/-- **C135, the validator.**  Under the current weight rule the validator accepts exactly the transactions that keep the rules, and answers
for every transaction that can arrive. -/
theorem validator_iff (hord : 0 < C.order) (height : Nat) (hv : 5 ≤ headerVersion env height) (tx : Tx) (hw : OnWire tx) :
    (validateTx env C H proofs sigs height tx = .ok () ↔ Obeys C H proofs sigs tx) ∧
    (validateTx env C H proofs sigs height tx = .ok () ∨ validateTx env C H proofs sigs height tx = .throw) := by
  have hwt := (transaction_weight env height tx.body hw.1 hv).1
  have hbd := body_accepts_iff H proofs sigs tx.body
  have hfees : tx.body.inputs.length + 21 * (tx.body.outputs.length + 1) + 3 * (tx.body.kernels.length + 1) ≤ 40000 → feesOf tx < 2 ^ 63 := by
    intro h
    have := fees_small tx.body.kernels hw.2
    unfold feesOf
    omega
  have hft : validateFeatures tx.body = .ok () ↔ (∀ o ∈ tx.body.outputs, outIsCoinbase o = false) ∧ ∀ k ∈ tx.body.kernels, kerIsCoinbase k = false := by
    unfold validateFeatures
    by_cases h1 : tx.body.outputs.any outIsCoinbase = true
    · rw [if_pos h1]
      obtain ⟨o, ho, h⟩ := List.any_eq_true.mp h1
      simp only [reduceCtorEq, false_iff, not_and]
      intro h'; rw [h' o ho] at h; cases h
    · rw [if_neg h1]
      by_cases h2 : tx.body.kernels.any kerIsCoinbase = true
      · rw [if_pos h2]
        obtain ⟨o, ho, h⟩ := List.any_eq_true.mp h2
        simp only [reduceCtorEq, false_iff, not_and]
        intro _ h'; rw [h' o ho] at h; cases h
      · rw [if_neg h2]
        simp only [true_iff]
        rw [Bool.not_eq_true, List.any_eq_false] at h1 h2
        exact ⟨fun o ho => by simpa using h1 o ho, fun o ho => by simpa using h2 o ho⟩
  have hiff : validateTx env C H proofs sigs height tx = .ok () ↔ Obeys C H proofs sigs tx := by
    constructor
    · intro h
      obtain ⟨h1, h2, h3, h4⟩ := validator_ok env C H proofs sigs height tx h
      have hw' := hwt.mp h1
      obtain ⟨b1, b2, b3, b4, b5, b6, b7, b8⟩ := hbd.mp h2
      obtain ⟨f1, f2⟩ := hft.mp h3
      exact ⟨hw', b1, b2, b3, b4, b5, b6, b7, b8, f1, f2, (sums_iff C hord tx (hfees hw')).mp h4⟩
    · intro o
      obtain ⟨r, hr⟩ := (sums_iff C hord tx (hfees o.weight)).mpr o.balances
      unfold validateTx
      rw [hwt.mpr o.weight, Res.ok_bind, hbd.mpr ⟨o.inputs, o.outputs, o.kernels, o.inputsDiffer, o.outputsDiffer, o.cut, o.proofs, o.sigs⟩,
        Res.ok_bind, hft.mpr ⟨o.plainOutputs, o.plainKernels⟩, Res.ok_bind, hr, Res.ok_bind, Res.pure_eq]
  refine ⟨hiff, ?_⟩
  cases hc : validateTx env C H proofs sigs height tx with
  | ok u => exact Or.inl rfl
  | throw => exact Or.inr rfl
  | ub =>
    exfalso
    unfold validateTx at hc
    rcases Res.bind_eq_ub.mp hc with h | ⟨_, h1, hc⟩
    · unfold validateTxWeight at h; split at h <;> cases h
    · rcases Res.bind_eq_ub.mp hc with h | ⟨_, _, hc⟩
      · unfold validateBody at h
        rcases Res.bind_eq_ub.mp h with h | ⟨_, _, h⟩
        · unfold verifySorted at h
          split at h
          · cases h
          · split at h
            · cases h
            · split at h <;> cases h
        · rcases Res.bind_eq_ub.mp h with h | ⟨_, _, h⟩
          · unfold verifyCutThrough at h; dsimp only at h; split at h <;> cases h
          · rcases Res.bind_eq_ub.mp h with h | ⟨_, _, h⟩
            · unfold verifyProofs at h; split at h <;> cases h
            · split at h <;> cases h
      · rcases Res.bind_eq_ub.mp hc with h | ⟨_, _, hc⟩
        · unfold validateFeatures at h
          split at h
          · cases h
          · split at h <;> cases h
        · rcases Res.bind_eq_ub.mp hc with h | ⟨_, _, hc⟩
          · exact sums_defined C tx (hfees (hwt.mp h1)) h
          · simp [Res.pure_eq] at hc

/-! ## C135: who is banned -/

variable (sum : List Bytes → Res Bytes) (txHash : Tx → Nat) (base : Nat)

/-- Spec: what a node in order has at hand: a confirmed tip (after the last change of the rules), and a txhashset in order, or none. -/
def InOrder (Hb : Bytes → Bytes) (v : TxView (DB × THS)) (tip : Nat) : Prop :=
  v.tip = .ok (some tip) ∧ 5 ≤ headerVersion env (tip + 1) ∧
  ∀ s, v.state = some s → ∃ st, Holds Hb s.1 s.2 st ∧ leafPos st.leaves.length < 2 ^ 64

/-- Spec: what is looked at before the transaction is validated: it is not in the public pool already (if meant for it), pays the minimum
fee, and is not locked beyond the next block. -/
def Considered (p : Pools) (tip : Nat) (e : TxEntry Tx) : Prop :=
  (e.mempool = true → ∀ x ∈ p.mem, txHash x.tx ≠ txHash e.tx) ∧ feeMeetsMinimum env base (tip + 1) e.tx = true ∧
  ∀ k ∈ e.tx.body.kernels, k.lockHeight ≤ tip + 1

/-- **C135, one transaction.**  In a node in order adding a transaction answers, and finds it invalid exactly if it is considered and does
not keep the rules: whether its inputs exist or are mature, what else is in the pools, and whether the state is there do not matter. -/
theorem found_invalid_iff (hord : 0 < C.order) (Hb : Bytes → Bytes) (v : TxView (DB × THS)) (tip : Nat) (hv : InOrder env Hb v tip)
    (p : Pools) (e : TxEntry Tx) (hw : OnWire e.tx) :
    ∃ p' st, addTransaction (nodeRules env C H proofs sigs sum txHash base) v p e = .ok (p', st) ∧
      (st = .invalid ↔ Considered env txHash base p tip e ∧ ¬ Obeys C H proofs sigs e.tx) := by
  obtain ⟨h1, h2, h3⟩ := hv
  obtain ⟨g1, g2⟩ := validator_iff C env H proofs sigs hord (tip + 1) h2 e.tx hw
  have hdup : (e.mempool && poolContains (nodeRules env C H proofs sigs sum txHash base) p.mem e.tx) = false ↔
      (e.mempool = true → ∀ x ∈ p.mem, txHash x.tx ≠ txHash e.tx) := by
    change (e.mempool && p.mem.any (fun x => decide (txHash x.tx = txHash e.tx))) = false ↔ _
    cases e.mempool <;> simp
  have hlock : (e.tx.body.kernels.any (fun k => k.lockHeight > tip + 1)) = false ↔
      ∀ k ∈ e.tx.body.kernels, k.lockHeight ≤ tip + 1 := by simp
  unfold addTransaction Considered
  rw [h1, ← hdup, ← hlock]
  dsimp only
  unfold addTx
  dsimp only
  have hck : (nodeRules env C H proofs sigs sum txHash base).check (tip + 1) e.tx = validateTx env C H proofs sigs (tip + 1) e.tx := rfl
  have hfe : (nodeRules env C H proofs sigs sum txHash base).feeOk (tip + 1) e.tx = feeMeetsMinimum env base (tip + 1) e.tx := rfl
  rw [hck, hfe]
  generalize (e.mempool && poolContains (nodeRules env C H proofs sigs sum txHash base) p.mem e.tx) = d
  generalize feeMeetsMinimum env base (tip + 1) e.tx = f
  generalize (e.tx.body.kernels.any (fun k => decide (k.lockHeight > tip + 1))) = l
  cases d
  · cases f
    · exact ⟨_, _, rfl, by simp⟩
    · cases l
      · rcases g2 with g2 | g2
        · have ho := g1.mp g2
          rw [g2]
          cases hs : v.state with
          | none => exact ⟨_, _, rfl, by simp [ho]⟩
          | some s =>
            obtain ⟨st, hh, hb⟩ := h3 s hs
            obtain ⟨r, hr⟩ := (pool_check_iff env Hb s.1 s.2 st e.tx.body hh hb).1
            have hu : (nodeRules env C H proofs sigs sum txHash base).utxo s e.tx = .ok r := hr
            simp only [hu, Res.ok_bind]
            cases r
            · exact ⟨_, _, rfl, by simp [ho]⟩
            · cases e.mempool
              · exact ⟨_, _, rfl, by simp [ho]⟩
              · exact ⟨_, _, rfl, by simp [ho]⟩
        · rw [g2]
          have ho : ¬ Obeys C H proofs sigs e.tx := fun h => by rw [g1.mpr h] at g2; cases g2
          exact ⟨_, _, rfl, by simp [ho]⟩
      · exact ⟨_, _, rfl, by simp⟩
  · exact ⟨_, _, rfl, by simp⟩

/-- **C135, a round of the pipe.**  The peer of the transaction at the front is banned exactly if the transaction is considered and does not
keep the rules; nobody else is. -/
theorem round_bans_iff (hord : 0 < C.order) (Hb : Bytes → Bytes) (v : TxView (DB × THS)) (tip : Nat) (hv : InOrder env Hb v tip)
    (announce : Pools → Tx → Res Unit) (s : Pipe Tx Pools) (e : TxEntry Tx) (rest : List (TxEntry Tx)) (hq : s.queue = e :: rest)
    (hw : OnWire e.tx) :
    let s' := s.round (addOr (nodeRules env C H proofs sigs sum txHash base) v) announce
    (Considered env txHash base s.pool tip e ∧ ¬ Obeys C H proofs sigs e.tx → s'.banned = s.banned ++ [e.peer] ∧ s'.queue = rest) ∧
    (¬ (Considered env txHash base s.pool tip e ∧ ¬ Obeys C H proofs sigs e.tx) → s'.banned = s.banned) := by
  obtain ⟨p', st, h1, h2⟩ := found_invalid_iff C env H proofs sigs sum txHash base hord Hb v tip hv s.pool e hw
  have ha : addOr (nodeRules env C H proofs sigs sum txHash base) v s.pool e = (p', st) := by unfold addOr; rw [h1]
  have hr := (pipe_round (addOr (nodeRules env C H proofs sigs sum txHash base) v) announce s e rest hq).2.1
  rw [ha] at hr
  refine ⟨fun hc => ?_, fun hc => ?_⟩
  · have hst := h2.mpr hc
    rw [if_pos hst] at hr
    refine ⟨hr, ?_⟩
    unfold Pipe.round
    simp only [hq, ha, hst]
    simp
  · rw [if_neg (fun h => hc (h2.mp h)), List.append_nil] at hr
    exact hr

/-- Spec: during the run every round found the node in order, and what arrived came over the wire. -/
def RunInOrder (Hb : Bytes → Bytes) (es : List (TxEvent (DB × THS))) : Prop :=
  ∀ ev ∈ es, (∀ e, ev = .arrive e → OnWire e.tx) ∧ ∀ v pool, ev = .round v pool → ∃ tip, InOrder env Hb v tip

/-- **C135, any run.**  Whatever arrives in whatever order, and whatever happens to chain and pools in between: a peer is banned by the
transaction pipe only if one of the transactions it sent does not keep the rules. -/
theorem banned_broke_rules (hord : 0 < C.order) (Hb : Bytes → Bytes) (announce : Pools → Tx → Res Unit) (pool : Pools)
    (es : List (TxEvent (DB × THS))) (hes : RunInOrder env Hb es) :
    ∀ peer ∈ (es.foldl (txEvent (nodeRules env C H proofs sigs sum txHash base) announce) ⟨[], pool, [], []⟩).banned,
      ∃ e, TxEvent.arrive e ∈ es ∧ e.peer = peer ∧ ¬ Obeys C H proofs sigs e.tx := by
  have key : ∀ (es all : List (TxEvent (DB × THS))) (s : Pipe Tx Pools), (∀ ev ∈ es, ev ∈ all) → RunInOrder env Hb all →
      (∀ e ∈ s.queue, TxEvent.arrive e ∈ all) → (∀ peer ∈ s.banned, ∃ e, TxEvent.arrive e ∈ all ∧ e.peer = peer ∧ ¬ Obeys C H proofs sigs e.tx) →
      ∀ peer ∈ (es.foldl (txEvent (nodeRules env C H proofs sigs sum txHash base) announce) s).banned,
        ∃ e, TxEvent.arrive e ∈ all ∧ e.peer = peer ∧ ¬ Obeys C H proofs sigs e.tx := by
    intro es all
    induction es with
    | nil => intro s _ _ _ hb; exact hb
    | cons ev es ih =>
      intro s hsub hall hq hb
      rw [List.foldl_cons]
      refine ih _ (fun x hx => hsub x (List.mem_cons_of_mem _ hx)) hall ?_ ?_
      · cases ev with
        | arrive e =>
          intro x hx
          simp only [txEvent, Pipe.push, pushUnique] at hx
          split at hx
          · exact hq x hx
          · rcases List.mem_append.1 hx with hx | hx
            · exact hq x hx
            · rw [List.mem_singleton.1 hx]; exact hsub _ List.mem_cons_self
        | round v pool =>
          intro x hx
          apply hq
          simp only [txEvent] at hx
          unfold Pipe.round at hx
          dsimp only at hx
          split at hx
          · rename_i h; rw [h] at hx; cases hx
          · rename_i e rest h
            split at hx
            · split at hx
              · dsimp only at hx; rw [h]; exact List.mem_cons_of_mem _ hx
              · exact hx
            · split at hx <;> (dsimp only at hx; rw [h]; exact List.mem_cons_of_mem _ hx)
      · cases ev with
        | arrive e =>
          intro peer hp
          apply hb
          simpa only [txEvent, Pipe.push] using hp
        | round v pool =>
          intro peer hp
          obtain ⟨tip, hv⟩ := (hall _ (hsub _ List.mem_cons_self)).2 v pool rfl
          simp only [txEvent] at hp
          cases hqq : s.queue with
          | nil =>
            unfold Pipe.round at hp
            simp only [hqq] at hp
            exact hb peer hp
          | cons e rest =>
            have hin : TxEvent.arrive e ∈ all := hq e (by rw [hqq]; exact List.mem_cons_self)
            have hr := round_bans_iff C env H proofs sigs sum txHash base hord Hb v tip hv announce { s with pool := pool } e rest hqq
              ((hall _ hin).1 e rfl)
            by_cases hc : Considered env txHash base pool tip e ∧ ¬ Obeys C H proofs sigs e.tx
            · rw [(hr.1 hc).1] at hp
              rcases List.mem_append.1 hp with hp | hp
              · exact hb peer hp
              · exact ⟨e, hin, (List.mem_singleton.1 hp).symm, hc.2⟩
            · rw [hr.2 hc] at hp
              exact hb peer hp
  exact key es es ⟨[], pool, [], []⟩ (fun _ h => h) hes (by simp) (by simp)

/-- **C135.**  A peer all of whose transactions keep the rules is never banned by the pipe. -/
theorem honest_never_banned (hord : 0 < C.order) (Hb : Bytes → Bytes) (announce : Pools → Tx → Res Unit) (pool : Pools)
    (es : List (TxEvent (DB × THS))) (hes : RunInOrder env Hb es) (peer : Nat)
    (hp : ∀ e, TxEvent.arrive e ∈ es → e.peer = peer → Obeys C H proofs sigs e.tx) :
    peer ∉ (es.foldl (txEvent (nodeRules env C H proofs sigs sum txHash base) announce) ⟨[], pool, [], []⟩).banned := by
  intro h
  obtain ⟨e, h1, h2, h3⟩ := banned_broke_rules C env H proofs sigs sum txHash base hord Hb announce pool es hes peer h
  exact h3 (hp e h1 h2)

/-- **C135, between nodes.**  What one node admitted to its pools keeps the rules, so no other node in order bans it for sending it on, whatever
that node's chain and pools are. -/
theorem admitted_never_banned (hord : 0 < C.order) (Hb : Bytes → Bytes) (pA pA' : Pools) (sA : Option (DB × THS)) (tipA : Nat)
    (hA : 5 ≤ headerVersion env (tipA + 1)) (tx : Tx) (hw : OnWire tx) (toMem stemIt : Bool)
    (ha : addTx (nodeRules env C H proofs sigs sum txHash base) pA sA tipA tx toMem stemIt = .ok (pA', .added))
    (v : TxView (DB × THS)) (tip : Nat) (hv : InOrder env Hb v tip) (sumB : List Bytes → Res Bytes) (txHashB : Tx → Nat) (baseB : Nat)
    (announce : Pools → Tx → Res Unit) (s : Pipe Tx Pools) (peer : Nat) (mempool : Bool) (rest : List (TxEntry Tx))
    (hq : s.queue = ⟨peer, tx, mempool⟩ :: rest) :
    (s.round (addOr (nodeRules env C H proofs sigs sumB txHashB baseB) v) announce).banned = s.banned := by
  obtain ⟨-, -, -, hc, -⟩ := (admitted_iff _ pA sA tipA tx toMem stemIt).1 ⟨pA', ha⟩
  have ho := (validator_iff C env H proofs sigs hord (tipA + 1) hA tx hw).1.mp hc
  exact (round_bans_iff C env H proofs sigs sumB txHashB baseB hord Hb v tip hv announce s ⟨peer, tx, mempool⟩ rest hq hw).2
    (fun h => h.2 ho)

omit [AddCommGroup G] [DecidableEq G] in
/-- **C135, violated: a node that cannot read its own tip bans.**  If the confirmed tip cannot be read, or is missing from the database, the peer
of whatever transaction is at the front is banned. -/
theorem unreadable_tip_bans_violated {S : Type} (R : PoolRules S) (v : TxView S) (hv : v.tip = .throw ∨ v.tip = .ok none)
    (announce : Pools → Tx → Res Unit) (s : Pipe Tx Pools) (e : TxEntry Tx) (rest : List (TxEntry Tx)) (hq : s.queue = e :: rest) :
    (s.round (addOr R v) announce).banned = s.banned ++ [e.peer] := by
  have ha : addOr R v s.pool e = (s.pool, .invalid) := by
    unfold addOr addTransaction
    rcases hv with h | h <;> rw [h]
  rw [(pipe_round (addOr R v) announce s e rest hq).2.1, ha]
  simp

/-! ## C136: merging -/

private theorem differ_of_nodup {α β : Type} (f : α → β) (l : List α) (h : (l.map f).Nodup) (eq : α → α → Prop)
    (he : ∀ a ∈ l, ∀ b ∈ l, eq a b → f a = f b) : NeighboursDiffer eq l := by
  rintro pre a b post rfl hab
  have hf := he a (by simp) b (by simp) hab
  rw [List.map_append, List.map_cons, List.map_cons] at h
  have := (List.nodup_append.mp h).2.1
  rw [List.nodup_cons] at this
  exact this.1 (by rw [hf]; exact List.mem_cons_self)

/-- Spec: a batch verifies exactly if each item does. -/
def ByItem {α : Type} (f : List α → Bool) : Prop := ∀ l, f l = true ↔ ∀ x ∈ l, f [x] = true

omit [DecidableEq G] in
/-- **C136.**  Merging transactions that each keep the rules gives a transaction that keeps the rules, if no commitment is spent twice or created
twice among them, the result is not too heavy, hashes of its outputs do not collide, the sum of the offsets is right, and no sum
formed is the point at infinity.  Nothing the validator of another node looks at is lost by cut-through and sorting. -/
theorem merged_obeys (hproofs : ByItem proofs) (hsigs : ByItem sigs)
    (hsum : ∀ l o, sum l = .ok o → beVal o • C.genB = (l.map (fun x => beVal x • C.genB)).sum ∧ (beVal o ≠ 0 → beVal o < C.order))
    (txs : List Tx) (r : Tx) (hr : aggregate H sum txs = .ok r) (hall : ∀ t ∈ txs, Obeys C H proofs sigs t)
    (hi : ((txs.flatMap (·.body.inputs)).map (·.commit)).Nodup) (ho : ((txs.flatMap (·.body.outputs)).map (·.commit)).Nodup)
    (hcol : ∀ x ∈ txs.flatMap (·.body.outputs), ∀ y ∈ txs.flatMap (·.body.outputs), outputHash H x = outputHash H y → x = y)
    (hweight : r.body.inputs.length + 21 * (r.body.outputs.length + 1) + 3 * (r.body.kernels.length + 1) ≤ 40000)
    (hfee : 0 < feesOf r → feesOf r • C.genV ≠ 0) (hoff : beVal r.offset ≠ 0 → beVal r.offset • C.genB ≠ 0)
    (hex : total C (r.body.kernels.map (·.excess)) ≠ 0)
    (hval : total C (r.body.kernels.map (·.excess)) + beVal r.offset • C.genB ≠ 0) :
    Obeys C H proofs sigs r ∧ feesOf r = (txs.map feesOf).sum := by
  obtain ⟨k1, k2, k3, k4⟩ := aggregate_partial H sum txs r (point C) hr hi ho
  have hfees : feesOf r = (txs.map feesOf).sum := by
    unfold feesOf
    rw [(k1.map (·.fee.fee)).sum_eq]
    clear * -
    induction txs with
    | nil => simp
    | cons t l ih => simp only [List.flatMap_cons, List.map_append, List.sum_append, List.map_cons, List.sum_cons, ih]
  refine ⟨?_, hfees⟩
  by_cases hlen : txs.length = 1
  · rw [k4 hlen] at hall
    exact hall r List.mem_cons_self
  obtain ⟨m1, m2, m3, m4, m5⟩ := k3 hlen
  obtain ⟨ins, outs⟩ : (∃ l, r.body.inputs.Perm l ∧ l.Sublist (txs.flatMap (·.body.inputs))) ∧
      (∃ l, r.body.outputs.Perm l ∧ l.Sublist (txs.flatMap (·.body.outputs))) := by
    have hcut := cut_through_disjoint (txs.flatMap (·.body.inputs)) (txs.flatMap (·.body.outputs))
    have : r.body.inputs = sortByHash (inputHash H) (cutThrough (txs.flatMap (·.body.inputs)) (txs.flatMap (·.body.outputs))).1 ∧
        r.body.outputs = sortByHash (outputHash H) (cutThrough (txs.flatMap (·.body.inputs)) (txs.flatMap (·.body.outputs))).2 := by
      unfold aggregate at hr
      split at hr
      · simp at hlen
      · obtain ⟨off, _, hr⟩ := Res.bind_eq_ok.mp hr
        simp only [Res.pure_eq, Res.ok.injEq] at hr
        subst hr
        exact ⟨rfl, rfl⟩
    rw [this.1, this.2]
    exact ⟨⟨_, List.mergeSort_perm _ _, hcut.2.2.2.1⟩, ⟨_, List.mergeSort_perm _ _, hcut.2.2.2.2⟩⟩
  obtain ⟨li, pi, si⟩ := ins
  obtain ⟨lo, po, so⟩ := outs
  have memI : ∀ i ∈ r.body.inputs, ∃ t ∈ txs, i ∈ t.body.inputs := fun i h => by
    simpa using List.mem_flatMap.1 (si.subset (pi.mem_iff.1 h))
  have memO' : ∀ o ∈ r.body.outputs, o ∈ txs.flatMap (·.body.outputs) := fun o h => so.subset (po.mem_iff.1 h)
  have memO : ∀ o ∈ r.body.outputs, ∃ t ∈ txs, o ∈ t.body.outputs := fun o h => by
    simpa using List.mem_flatMap.1 (memO' o h)
  have memK : ∀ k ∈ r.body.kernels, ∃ t ∈ txs, k ∈ t.body.kernels := fun k h => by
    simpa using List.mem_flatMap.1 (k1.mem_iff.1 h)
  have ndI : (r.body.inputs.map (·.commit)).Nodup := (pi.map _).nodup_iff.2 (hi.sublist (si.map _))
  have ndO : (r.body.outputs.map (·.commit)).Nodup := (po.map _).nodup_iff.2 (ho.sublist (so.map _))
  refine ⟨hweight, m3, m4, m5, differ_of_nodup _ _ ndI _ (fun a _ b _ h => by rw [h]),
    differ_of_nodup _ _ ndO _ (fun a ha b hb h => by rw [hcol a (memO' a ha) b (memO' b hb) h]), m2, ?_, ?_, ?_, ?_, ?_⟩
  · rw [hproofs]
    intro x hx
    obtain ⟨o, ho', rfl⟩ := List.mem_map.1 hx
    obtain ⟨t, ht, hot⟩ := memO o ho'
    exact (hproofs _).1 (hall t ht).proofs _ (List.mem_map.2 ⟨o, hot, rfl⟩)
  · rw [hsigs]
    intro k hk
    obtain ⟨t, ht, hkt⟩ := memK k hk
    exact (hsigs _).1 (hall t ht).sigs k hkt
  · intro o ho'
    obtain ⟨t, ht, hot⟩ := memO o ho'
    exact (hall t ht).plainOutputs o hot
  · intro k hk
    obtain ⟨t, ht, hkt⟩ := memK k hk
    exact (hall t ht).plainKernels k hkt
  · obtain ⟨o1, o2⟩ := hsum _ _ m1
    have heq : total C (r.body.outputs.map (·.commit)) + feesOf r • C.genV - total C (r.body.inputs.map (·.commit)) =
        total C (r.body.kernels.map (·.excess)) + beVal r.offset • C.genB := by
      have hb : total C (r.body.outputs.map (·.commit)) - total C (r.body.inputs.map (·.commit)) =
          balance (point C) r.body.inputs r.body.outputs := by
        simp only [total, balance, List.map_map]; rfl
      have hk : total C (r.body.kernels.map (·.excess)) = (txs.map (fun t => total C (t.body.kernels.map (·.excess)))).sum := by
        simp only [total, List.map_map]
        rw [(k1.map (point C ∘ (·.excess))).sum_eq]
        clear * -
        induction txs with
        | nil => simp
        | cons t l ih => simp only [List.flatMap_cons, List.map_append, List.sum_append, List.map_cons, List.sum_cons, ih]
      rw [add_sub_right_comm, hb, k2, hk, o1, hfees, List.map_map]
      have hall' : ∀ t ∈ txs, balance (point C) t.body.inputs t.body.outputs + feesOf t • C.genV =
          total C (t.body.kernels.map (·.excess)) + beVal t.offset • C.genB := by
        intro t ht
        rw [← (hall t ht).balances.equal, add_sub_right_comm]
        simp only [total, balance, List.map_map]; rfl
      clear * - hall'
      induction txs with
      | nil => simp
      | cons t l ih =>
        have h1 := hall' t List.mem_cons_self
        have h2 := ih fun x hx => hall' x (List.mem_cons_of_mem _ hx)
        simp only [List.map_cons, List.sum_cons, Function.comp_apply, add_smul] at h2 ⊢
        rw [show ∀ a b c d : G, a + b + (c + d) = (a + c) + (b + d) by intros; abel, h1, h2]
        abel
    refine ⟨?_, ?_, ?_, hfee, fun h => ⟨o2 h, hoff h⟩, hex, by rw [heq]; exact hval, heq⟩
    · intro o ho'
      obtain ⟨t, ht, hot⟩ := memO o ho'
      exact (hall t ht).balances.outputs o hot
    · intro i hi'
      obtain ⟨t, ht, hit⟩ := memI i hi'
      exact (hall t ht).balances.inputs i hit
    · intro k hk
      obtain ⟨t, ht, hkt⟩ := memK k hk
      exact (hall t ht).balances.kernels k hkt

end

/-! ## Examples -/

private def exH (bs : Bytes) : Nat := beVal bs
private def zeroSum (l : List Bytes) : Res Bytes := if l.all (fun x => beVal x = 0) then .ok [0] else .throw
private def exIn : Bytes := toyCurve.ser (1000 + 7 * 1000003)
private def exMid : Bytes := toyCurve.ser (900 + 9 * 1000003)

/-- Pays 900 with a fee of 100. -/
private def exPay : Tx := ⟨[0], ⟨[⟨0, exIn⟩], [⟨0, exMid, [5]⟩], [⟨0, ⟨0, 100⟩, 0, toyCurve.ser (2 * 1000003), [9]⟩]⟩⟩

/-- Spends what `exPay` created, with a fee of 50. -/
private def exPay2 : Tx := ⟨[0], ⟨[⟨0, exMid⟩], [⟨0, toyCurve.ser (850 + 12 * 1000003), [5]⟩],
  [⟨0, ⟨0, 50⟩, 0, toyCurve.ser (3 * 1000003), [9]⟩]⟩⟩

/-- Creates 1 out of nothing. -/
private def exMint : Tx := ⟨[0], ⟨[⟨0, exIn⟩], [⟨0, toyCurve.ser (901 + 9 * 1000003), [5]⟩], [⟨0, ⟨0, 100⟩, 0, toyCurve.ser (2 * 1000003), [9]⟩]⟩⟩

private theorem exWire (t : Tx) (h : t = exPay ∨ t = exPay2 ∨ t = exMint) : OnWire t := by
  rcases h with rfl | rfl | rfl <;> exact ⟨⟨by decide, by decide, by decide⟩, by decide⟩

private theorem exVersion : 5 ≤ headerVersion .testing (1048319 + 1) := current_weight_rule _ _ (by decide)

/-- Two transactions keep the rules, the third does not. -/
private theorem exObeys : Obeys toyCurve exH (fun _ => true) (fun _ => true) exPay ∧ Obeys toyCurve exH (fun _ => true) (fun _ => true) exPay2 ∧
    ¬ Obeys toyCurve exH (fun _ => true) (fun _ => true) exMint := by
  have hv : ∀ t, (t = exPay ∨ t = exPay2 ∨ t = exMint) → (validateTx .testing toyCurve exH (fun _ => true) (fun _ => true) (1048319 + 1) t = .ok () ↔
      Obeys toyCurve exH (fun _ => true) (fun _ => true) t) := fun t ht =>
    (validator_iff toyCurve .testing exH (fun _ => true) (fun _ => true) (by decide) _ exVersion t (exWire t ht)).1
  refine ⟨(hv _ (Or.inl rfl)).1 (by decide +kernel), (hv _ (Or.inr (Or.inl rfl))).1 (by decide +kernel), fun h => ?_⟩
  have := (hv _ (Or.inr (Or.inr rfl))).2 h
  exact absurd this (by decide +kernel)

/-- A node in order, with a txhashset. -/
example (h : Header) (db : DB) (hdb : ∀ c, db.pos c = none) :
    InOrder .testing toyHash ⟨.ok (some 1048319), some (db, emptySet h), false⟩ 1048319 := by
  refine ⟨rfl, exVersion, ?_⟩
  rintro s ⟨rfl⟩
  obtain ⟨st, h1, h2, _⟩ := reachable_holds .testing toyHash (fun _ => []) db h hdb [] _ _ .nil (by decide +kernel) (by decide +kernel)
  exact ⟨st, h1, by rw [h2]; decide +kernel⟩

/-- Peer 1 relays the good ones, peer 2 the bad one: only peer 2 is banned. -/
example : (([.arrive ⟨1, exPay, true⟩, .arrive ⟨2, exMint, true⟩, .arrive ⟨1, exPay2, false⟩, .round ⟨.ok (some 1048319), none, false⟩ ⟨[], []⟩,
    .round ⟨.ok (some 1048320), none, false⟩ ⟨[], []⟩, .round ⟨.ok (some 1048320), none, false⟩ ⟨[], []⟩] : List (TxEvent (DB × THS))).foldl
      (txEvent (nodeRules .testing toyCurve exH (fun _ => true) (fun _ => true) zeroSum (fun t => beVal (t.body.outputs.flatMap (·.commit))) 1)
        (fun _ _ => .ok ())) ⟨[], ⟨[], []⟩, [], []⟩).banned = [2] := by
  decide +kernel

/-- The two merged keep the rules; the output passed on disappears. -/
example : ∃ r, aggregate exH zeroSum [exPay2, exPay] = .ok r ∧ r.body.inputs.map (·.commit) = [exIn] ∧ feesOf r = 150 ∧
    Obeys toyCurve exH (fun _ => true) (fun _ => true) r := by
  have e : aggregate exH zeroSum [exPay2, exPay] = .ok ⟨[0], ⟨[⟨0, exIn⟩], [⟨0, toyCurve.ser (850 + 12 * 1000003), [5]⟩],
      [⟨0, ⟨0, 50⟩, 0, toyCurve.ser (3 * 1000003), [9]⟩, ⟨0, ⟨0, 100⟩, 0, toyCurve.ser (2 * 1000003), [9]⟩]⟩⟩ := by
    have hc : cutThrough ([exPay2, exPay].flatMap (·.body.inputs)) ([exPay2, exPay].flatMap (·.body.outputs)) =
        ([⟨0, exIn⟩], [⟨0, toyCurve.ser (850 + 12 * 1000003), [5]⟩]) := by decide +kernel
    have hz : zeroSum ([exPay2, exPay].map (·.offset)) = .ok [0] := by decide +kernel
    unfold aggregate
    dsimp only
    rw [hc, hz, Res.ok_bind, Res.pure_eq]
    unfold sortByHash
    rw [List.mergeSort_singleton, List.mergeSort_singleton, List.mergeSort_of_pairwise (by decide +kernel)]
    rfl
  refine ⟨_, e, rfl, rfl, ?_⟩
  refine (merged_obeys toyCurve exH (fun _ => true) (fun _ => true) zeroSum (fun l => by simp) (fun l => by simp) ?_ _ _ e ?_
    (by decide +kernel) (by decide +kernel) (by decide +kernel) (by decide) (fun _ => by decide) (fun h => absurd rfl h) (by decide +kernel)
    (by decide +kernel)).1
  · intro l o h
    unfold zeroSum at h
    split at h
    · rename_i hz
      simp only [Res.ok.injEq] at h
      subst h
      refine ⟨?_, fun h => absurd rfl h⟩
      rw [show beVal [0] = 0 from rfl, zero_smul, List.map_congr_left (g := fun _ => (0 : Int))]
      · simp
      · intro x hx
        have := List.all_eq_true.mp hz x hx
        simp only [decide_eq_true_eq] at this
        rw [this, zero_smul]
    · cases h
  · intro t ht
    simp only [List.mem_cons, List.not_mem_nil, or_false] at ht
    rcases ht with rfl | rfl
    · exact exObeys.2.1
    · exact exObeys.1

end Verif.Props
