import Verif.Tx.BlockRules
import Verif.Props.Sums
import Verif.Props.TxBody
import Verif.Props.Pool

/-!
# C81: the rules for a block alone
-/
namespace Verif.Props
open Verif.Tx Verif.PoW Verif.MMR

variable {G : Type} [AddCommGroup G] [DecidableEq G] (C : Curve G)

private theorem locks_iff (b : Block) :
    verifyLockHeights b = .ok () ↔ ∀ k ∈ b.body.kernels, k.lockHeight ≤ b.header.height := by
  unfold verifyLockHeights
  by_cases h : (b.body.kernels.any fun k => decide (k.lockHeight > b.header.height)) = true
  · rw [if_pos h]
    obtain ⟨k, hk, hl⟩ := List.any_eq_true.1 h
    have hl := of_decide_eq_true hl
    constructor
    · intro e; cases e
    · intro e; have := e k hk; omega
  · rw [if_neg h]
    refine ⟨fun _ k hk => ?_, fun _ => rfl⟩
    rw [Bool.not_eq_true, List.any_eq_false] at h
    have := h k hk
    simp only [decide_eq_true_eq] at this
    omega

/-- **C81.**  What holds of a block found consistent: the weight is at most 40000 (at heights from 1048320 on, where inputs weigh 1,
outputs 21 and kernels 3), no kernel is locked beyond the height of the block, nothing is both created and spent, range
proofs and signatures verify, and the outputs marked as coinbase are worth 60 grin plus the fees, up to the excesses of
the kernels marked so. -/
theorem consistent_block (env : Env) (H : DigestNum) (proofs : List (Bytes × Bytes) → Bool)
    (sigs : List Kernel → Bool) (b : Block) (h : selfConsistent env C H proofs sigs b = .ok ()) :
    (1048320 ≤ b.header.height → InMemory b.body →
      b.body.inputs.length + 21 * b.body.outputs.length + 3 * b.body.kernels.length ≤ 40000) ∧
    (∀ k ∈ b.body.kernels, k.lockHeight ≤ b.header.height) ∧
    (∀ i ∈ b.body.inputs, ∀ o ∈ b.body.outputs, i.commit ≠ o.commit) ∧
    proofs (b.body.outputs.map (fun o => (o.commit, o.proof))) = true ∧ sigs b.body.kernels = true ∧
    (60000000000 + (b.body.kernels.map (·.fee.fee)).sum < 2 ^ 64 →
      total C ((b.body.outputs.filter (fun o => o.features % 2 = 1)).map (·.commit)) =
        (60000000000 + (b.body.kernels.map (·.fee.fee)).sum) • C.genV +
          total C ((b.body.kernels.filter (fun k => k.features % 2 = 1)).map (·.excess))) := by
  unfold selfConsistent at h
  obtain ⟨_, h1, h⟩ := Res.bind_eq_ok.1 h
  obtain ⟨_, h2, h⟩ := Res.bind_eq_ok.1 h
  obtain ⟨_, h3, h4⟩ := Res.bind_eq_ok.1 h
  obtain ⟨-, -, -, -, -, g1, g2, g3⟩ := (body_accepts_iff H proofs sigs b.body).1 h3
  refine ⟨fun hh hm => ?_, (locks_iff b).1 h2, g1, g2, g3, fun hf => ?_⟩
  · have := (block_weight env b hm (current_weight_rule env _ hh)).1.1 h1
    omega
  · have e1 : (fun o : TxOutput => decide (o.features % 2 = 1)) = outIsCoinbase := by
      funext o; simp only [outIsCoinbase, Nat.and_one_is_mod]
    have e2 : (fun k : Kernel => decide (k.features % 2 = 1)) = kerIsCoinbase := by
      funext k; simp only [kerIsCoinbase, Nat.and_one_is_mod]
    rw [e1, e2]
    exact coinbase_balances C b.body hf h4

private theorem accepted_consistent {env : Env} {H : Bytes → Bytes} {hh : Header → Bytes}
    {ubmt : Finset Nat → Nat → Bytes} {consistent : Block → Res Unit} {n0 n : Node} {bs : List Block}
    (ha : Accepted C env H hh ubmt consistent n0 bs n) : ∀ b ∈ bs, consistent b = .ok () := by
  induction ha with
  | nil => simp
  | @snoc bs n n' b ha hp hht hv ih =>
    intro c hc
    rw [List.mem_append, List.mem_singleton] at hc
    rcases hc with hc | rfl
    · exact ih c hc
    · unfold validateAndAdd at hv
      cases e0 : n.db.header c.header.prevHash with
      | none => rw [e0] at hv; cases hv
      | some ph =>
        rw [e0] at hv
        simp only at hv
        obtain ⟨r, h1, hv⟩ := Res.bind_eq_ok.mp hv
        cases r with
        | none => cases hv
        | some r =>
          obtain ⟨db', t'⟩ := r
          simp only at hv
          obtain ⟨_, h2, hv⟩ := Res.bind_eq_ok.mp hv
          exact h2

/-- **C81, the whole chain.**  Of every block accepted, along any chain: no kernel is locked beyond the height of its block,
and the coinbase outputs are worth 60 grin plus the fees of that block, up to the excesses of the coinbase kernels. -/
theorem chain_rules (env : Env) (D : DigestNum) (proofs : List (Bytes × Bytes) → Bool) (sigs : List Kernel → Bool)
    (H : Bytes → Bytes) (hh : Header → Bytes) (ubmt : Finset Nat → Nat → Bytes) (n0 n : Node) (bs : List Block)
    (ha : Accepted C env H hh ubmt (selfConsistent env C D proofs sigs) n0 bs n) :
    ∀ b ∈ bs, (∀ k ∈ b.body.kernels, k.lockHeight ≤ b.header.height) ∧
      (60000000000 + (b.body.kernels.map (·.fee.fee)).sum < 2 ^ 64 →
        total C ((b.body.outputs.filter (fun o => o.features % 2 = 1)).map (·.commit)) =
          (60000000000 + (b.body.kernels.map (·.fee.fee)).sum) • C.genV +
            total C ((b.body.kernels.filter (fun k => k.features % 2 = 1)).map (·.excess))) := by
  intro b hb
  obtain ⟨-, h1, -, -, -, h2⟩ := consistent_block C env D proofs sigs b (accepted_consistent C ha b hb)
  exact ⟨h1, h2⟩

/-- **C81, nothing else is refused.**  A block of allowed weight, without kernels locked beyond its height, with a valid body and
whose coinbase adds up is found consistent, if the commitments of its coinbase are points that do not cancel out. -/
theorem consistent_block_accepted (env : Env) (H : DigestNum) (proofs : List (Bytes × Bytes) → Bool)
    (sigs : List Kernel → Bool) (b : Block) (hm : InMemory b.body) (hh : 1048320 ≤ b.header.height)
    (hw : b.body.inputs.length + 21 * b.body.outputs.length + 3 * b.body.kernels.length ≤ 40000)
    (hl : ∀ k ∈ b.body.kernels, k.lockHeight ≤ b.header.height)
    (hb : validateBody H proofs sigs b.body = .ok ())
    (hf : 60000000000 + (b.body.kernels.map (·.fee.fee)).sum < 2 ^ 64)
    (ho : ∀ o ∈ b.body.outputs, o.features % 2 = 1 → (C.parse o.commit).isSome)
    (hk : ∀ k ∈ b.body.kernels, k.features % 2 = 1 → (C.parse k.excess).isSome)
    (hr : (60000000000 + (b.body.kernels.map (·.fee.fee)).sum) • C.genV ≠ 0) (hord : 0 < C.order)
    (hc : total C ((b.body.outputs.filter (fun o => o.features % 2 = 1)).map (·.commit)) =
        (60000000000 + (b.body.kernels.map (·.fee.fee)).sum) • C.genV +
          total C ((b.body.kernels.filter (fun k => k.features % 2 = 1)).map (·.excess)))
    (hx : total C ((b.body.kernels.filter (fun k => k.features % 2 = 1)).map (·.excess)) ≠ 0) :
    selfConsistent env C H proofs sigs b = .ok () := by
  have e1 : (fun o : TxOutput => decide (o.features % 2 = 1)) = outIsCoinbase := by
    funext o; simp only [outIsCoinbase, Nat.and_one_is_mod]
  have e2 : (fun k : Kernel => decide (k.features % 2 = 1)) = kerIsCoinbase := by
    funext k; simp only [kerIsCoinbase, Nat.and_one_is_mod]
  rw [e1, e2] at hc
  rw [e2] at hx
  have parse : ∀ cs : List Bytes, (∀ c ∈ cs, (C.parse c).isSome) → ∃ gs, parseAll C (cs.filter (· ≠ zeroCommit)) = .ok gs := by
    intro cs
    induction cs with
    | nil => intro _; exact ⟨[], rfl⟩
    | cons c cs ih =>
      intro h
      obtain ⟨gs, hg⟩ := ih (fun c hc => h c (by simp [hc]))
      by_cases hz : c = zeroCommit
      · rw [List.filter_cons_of_neg (by simp [hz])]; exact ⟨gs, hg⟩
      · rw [List.filter_cons_of_pos (by simp [hz])]
        obtain ⟨g, hg'⟩ := Option.isSome_iff_exists.1 (h c (by simp))
        unfold parseAll
        rw [hg']
        simp only
        rw [hg]
        exact ⟨_, rfl⟩
  have add : ∀ pos neg : List Bytes, (∀ c ∈ pos, (C.parse c).isSome) → (∀ c ∈ neg, (C.parse c).isSome) →
      total C pos - total C neg ≠ 0 → addCommitments C pos neg = .ok (C.ser (total C pos - total C neg)) := by
    intro pos neg h1 h2 h3
    obtain ⟨gp, hp⟩ := parse pos h1
    obtain ⟨gn, hn⟩ := parse neg h2
    have tp := parseAll_sum C _ _ hp
    have tn := parseAll_sum C _ _ hn
    unfold addCommitments
    rw [hp, Res.ok_bind, hn, Res.ok_bind]
    simp only
    rw [tp, tn, if_neg h3]
    rfl
  have hcb : ∀ c ∈ (b.body.outputs.filter outIsCoinbase).map (·.commit), (C.parse c).isSome := by
    intro c h
    obtain ⟨o, h1, rfl⟩ := List.mem_map.1 h
    obtain ⟨h1, h2⟩ := List.mem_filter.1 h1
    exact ho o h1 (by rw [← e1] at h2; exact of_decide_eq_true h2)
  have hkb : ∀ c ∈ (b.body.kernels.filter kerIsCoinbase).map (·.excess), (C.parse c).isSome := by
    intro c h
    obtain ⟨k, h1, rfl⟩ := List.mem_map.1 h
    obtain ⟨h1, h2⟩ := List.mem_filter.1 h1
    exact hk k h1 (by rw [← e2] at h2; exact of_decide_eq_true h2)
  have hcoin : verifyCoinbase C b.body = .ok () := by
    unfold verifyCoinbase
    simp only [show REWARD = 60000000000 from rfl, Nat.mod_eq_of_lt hf]
    generalize 60000000000 + (b.body.kernels.map (·.fee.fee)).sum = r at *
    have hcm : commit C r 0 = .ok (C.ser (r • C.genV)) := by
      unfold commit
      rw [if_neg (by omega)]
      simp only [zero_smul, add_zero]
      rw [if_neg hr]
    have ht : total C [C.ser (r • C.genV)] = r • C.genV := by
      rw [total_cons, total_nil, point_ser C _ hr, add_zero]
    have hd : total C ((b.body.outputs.filter outIsCoinbase).map (·.commit)) - total C [C.ser (r • C.genV)] =
        total C ((b.body.kernels.filter kerIsCoinbase).map (·.excess)) := by
      rw [hc, ht]; abel
    have a1 := add _ [C.ser (r • C.genV)] hcb (by
      intro c h; rw [List.mem_singleton] at h; subst h; rw [C.parse_ser _ hr]; rfl) (by rw [hd]; exact hx)
    have a2 := add _ [] hkb (by simp) (by rw [total_nil, sub_zero]; exact hx)
    rw [hcm, Res.ok_bind, a1, Res.ok_bind, a2, Res.ok_bind, hd, total_nil, sub_zero]
    simp
  unfold selfConsistent
  rw [(block_weight env b hm (current_weight_rule env _ hh)).1.2 hw, Res.ok_bind, (locks_iff b).2 hl, Res.ok_bind, hb,
    Res.ok_bind, hcoin]

/-- **C74, no coinbase.**  A transaction admitted to the pools has no output and no kernel marked as coinbase. -/
theorem admitted_no_coinbase (env : Env) (H : DigestNum) (proofs : List (Bytes × Bytes) → Bool)
    (sigs : List Kernel → Bool) (sum : List Bytes → Res Bytes) (txHash : Tx → Nat) (base : Nat) (p p' : Pools)
    (s : Option (DB × THS)) (tip : Nat) (tx : Tx) (toMem stemIt : Bool)
    (h : addTx (nodeRules env C H proofs sigs sum txHash base) p s tip tx toMem stemIt = .ok (p', .added)) :
    (∀ o ∈ tx.body.outputs, o.features % 2 = 0) ∧ ∀ k ∈ tx.body.kernels, k.features % 2 = 0 := by
  obtain ⟨-, -, -, hc, -⟩ := (admitted_iff _ p s tip tx toMem stemIt).1 ⟨p', h⟩
  have hv := (validator_ok env C H proofs sigs _ tx hc).2.2.1
  unfold validateFeatures at hv
  by_cases h1 : tx.body.outputs.any outIsCoinbase = true
  · rw [if_pos h1] at hv; cases hv
  · rw [if_neg h1] at hv
    by_cases h2 : tx.body.kernels.any kerIsCoinbase = true
    · rw [if_pos h2] at hv; cases hv
    · rw [Bool.not_eq_true, List.any_eq_false] at h1 h2
      constructor
      · intro o ho
        have := h1 o ho
        simp only [outIsCoinbase, Nat.and_one_is_mod, decide_eq_true_eq] at this
        omega
      · intro k hk
        have := h2 k hk
        simp only [kerIsCoinbase, Nat.and_one_is_mod, decide_eq_true_eq] at this
        omega

/-- A block that pays its reward with a kernel of given features. -/
private def paid (f lock : Nat) : Block :=
  ⟨{ version := 5, height := 1100000, timestamp := 0, prevHash := [], prevRoot := [], outputRoot := [],
     rangeProofRoot := [], kernelRoot := [], offset := [], outputMMRSize := 0, kernelMMRSize := 0,
     totalDifficulty := 0, scaling := 0, nonce := 0, pow := ⟨0, [], []⟩ },
   ⟨[], [⟨1, toyCurve.ser (60000000500 + 9 * 1000003), [2]⟩],
    [⟨f, ⟨0, 500⟩, lock, toyCurve.ser (9 * 1000003), [9]⟩]⟩⟩

/-- A block with its coinbase is consistent; with a kernel locked by one block more than its height it is not. -/
example : selfConsistent .mainnet toyCurve (fun _ => 0) (fun _ => true) (fun _ => true) (paid 1 1100000) = .ok () ∧
    selfConsistent .mainnet toyCurve (fun _ => 0) (fun _ => true) (fun _ => true) (paid 1 1100001) = .throw := by
  decide +kernel

/-- **C81 fails.**  Blocks whose coinbase kernel is a no-recent-duplicate kernel, which the network has not
enabled, or has features nobody has defined, are found consistent. -/
theorem coinbase_features_violated : ∀ f ∈ [3, 5, 255],
    selfConsistent .mainnet toyCurve (fun _ => 0) (fun _ => true) (fun _ => true) (paid f 10) = .ok () := by
  decide +kernel

end Verif.Props
