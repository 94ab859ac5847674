import Verif.Wallet.Estimate
import Verif.Props.Send

/-!
# C84: the fee shown is the fee paid
-/
namespace Verif.Props
open Verif.Wallet Verif.Codec Verif.Tx Verif.PoW

private theorem calcFee_lt (b i o k : Nat) : calcFee b i o k < U64 := Nat.mod_lt _ (by decide)

private theorem sum64_lt (l : List OutputRecord) : sum64 l < U64 := by
  unfold sum64
  have : ∀ (l : List OutputRecord) (s : Nat), s < U64 → l.foldl (fun s o => (s + o.amount) % U64) s < U64 := by
    intro l
    induction l with
    | nil => intro s h; exact h
    | cons a l ih => intro s _; exact ih _ (Nat.mod_lt _ (by decide))
  exact this l 0 (by decide)

/-- **C84.**  If no spendable coin is waiting for confirmations, and the request asks for the entire balance or for at least one
change output, then what the estimate shows is what sending does: the same coins, the same amount, the same fee; and a
request refused by the estimate for its amount is refused by the send.

Partial: without change output the fee is not that of the estimate, and coins waiting for confirmations count in the estimate only. -/
theorem estimate_is_paid_partial (env : Env) (conf tip : Nat) (up down : List OutputRecord → List OutputRecord)
    (outs : List OutputRecord) (r : Request)
    (hmat : ∀ o ∈ outs, o.status = SPENDABLE → immature env conf o.output.features (o.height.getD 0) tip = false)
    (hch : r.amount = none ∨ r.change % 256 ≠ 0) :
    (∀ e, estimateFee up down outs r = .ok e → ∃ change, sendRequest env conf tip up down outs r = .ok ⟨e.inputs, e.amount, e.fee, change⟩) ∧
      (estimateFee up down outs r = .throw → r.amount ≠ none → sendRequest env conf tip up down outs r = .throw) := by
  have hcoins : availableCoins env conf tip outs = outs.filter (fun o => o.status = SPENDABLE) := by
    unfold availableCoins
    apply List.filter_congr
    intro o ho
    by_cases hs : o.status = SPENDABLE
    · rw [hmat o ho hs]; simp
    · simp [hs]
  unfold estimateFee sendRequest sendPlan
  rw [hcoins]
  generalize outs.filter (fun o => o.status = SPENDABLE) = coins
  cases ha : r.amount with
  | none =>
    simp only [Option.isNone_none, if_true, Option.getD_none]
    constructor
    · intro e he
      split at he
      · cases he
      · rename_i hlt
        injection he with he
        subst he
        simp only [Res.ok_bind, Res.pure_eq]
        have h1 := calcFee_lt r.base coins.length ((0 + 1) % 256) 1
        have h2 := sum64_lt coins
        have e1 : (1 + 0) % 256 = (0 + 1) % 256 := rfl
        rw [e1]
        generalize calcFee r.base coins.length ((0 + 1) % 256) 1 = fee at *
        generalize sum64 coins = total at *
        refine ⟨[], ?_⟩
        simp only [Nat.lt_irrefl, if_false, Res.ok.injEq, Plan.mk.injEq, true_and, and_true]
        simp only [U64] at *
        omega
    · intro _ hn; exact absurd rfl hn
  | some a =>
    have hc : r.change % 256 ≠ 0 := by
      rcases hch with h | h
      · rw [ha] at h; cases h
      · exact h
    simp only [Option.isNone_some, Bool.false_eq_true, if_false, Option.getD_some]
    rw [Nat.add_comm (r.change % 256) 1]
    cases selectCoins up down coins a r.base r.strategy r.wanted ((1 + r.change % 256) % 256) 1 with
    | throw => exact ⟨fun e he => by simp [Bind.bind, Res.bind] at he, fun _ _ => rfl⟩
    | ub => exact ⟨fun e he => by simp [Bind.bind, Res.bind] at he, fun h => by simp [Bind.bind, Res.bind] at h⟩
    | ok inputs =>
      simp only [Res.ok_bind, Res.pure_eq]
      constructor
      · intro e he
        injection he with he
        subst he
        rw [if_neg hc]
        exact ⟨_, rfl⟩
      · intro h; cases h

/-- **C84 violated: no change output.**  With an amount and no change output (or a number that is a multiple of 256), the
estimate shows the fee by weight, and the transaction pays everything above the amount as fee. -/
theorem fee_without_change_violated (env : Env) (conf tip : Nat) (up down : List OutputRecord → List OutputRecord)
    (outs : List OutputRecord) (r : Request) (a : Nat) (ha : r.amount = some a) (hc : r.change % 256 = 0)
    (hmat : ∀ o ∈ outs, o.status = SPENDABLE → immature env conf o.output.features (o.height.getD 0) tip = false)
    (e : Estimate) (he : estimateFee up down outs r = .ok e) (hle : a ≤ sum64 e.inputs) :
    e.fee = calcFee r.base e.inputs.length 1 1 ∧
      sendRequest env conf tip up down outs r = .ok ⟨e.inputs, a, sum64 e.inputs - a, []⟩ := by
  have hcoins : availableCoins env conf tip outs = outs.filter (fun o => o.status = SPENDABLE) := by
    unfold availableCoins
    apply List.filter_congr
    intro o ho
    by_cases hs : o.status = SPENDABLE
    · rw [hmat o ho hs]; simp
    · simp [hs]
  unfold estimateFee at he
  unfold sendRequest sendPlan
  rw [hcoins]
  generalize outs.filter (fun o => o.status = SPENDABLE) = coins at *
  simp only [ha, Option.isNone_some, Bool.false_eq_true, if_false, Option.getD_some, hc] at he ⊢
  rw [Res.bind_eq_ok] at he
  obtain ⟨inputs, e1, e2⟩ := he
  rw [Res.pure_eq] at e2
  injection e2 with e2
  subst e2
  have e1' : selectCoins up down coins a r.base r.strategy r.wanted ((1 + 0) % 256) 1 = .ok inputs := e1
  rw [e1']
  refine ⟨rfl, ?_⟩
  simp only [Res.ok_bind, Res.pure_eq, if_true, Nat.lt_irrefl, if_false, Res.ok.injEq, Plan.mk.injEq, true_and, and_true]
  simp only at hle
  have h2 := sum64_lt inputs
  generalize sum64 inputs = total at *
  simp only [U64] at *
  omega

/-- A plain coin of 60 grin confirmed at the given height. -/
private def coin60 (height : Nat) : OutputRecord := ⟨[0, 0, 1], [], ⟨0, [1], []⟩, 60000000000, SPENDABLE, none, some height, none, []⟩

/-- A request to send one grin at the usual fee base. -/
private def oneGrin (change : Nat) : Request := ⟨some 1000000000, 500000, change, .smallest, []⟩

example : (∀ o ∈ [coin60 10], o.status = SPENDABLE → immature .mainnet 10 o.output.features (o.height.getD 0) 1000 = false) ∧
    (oneGrin 1).change % 256 ≠ 0 ∧
    estimateFee sortUp (fun l => (sortUp l).reverse) [coin60 10] (oneGrin 1) = .ok ⟨1000000000, 23000000, [coin60 10]⟩ := by
  decide +kernel

example : estimateFee sortUp (fun l => (sortUp l).reverse) [coin60 10] ⟨none, 500000, 1, .smallest, []⟩ =
    .ok ⟨59987500000, 12500000, [coin60 10]⟩ := by decide +kernel

/-- Sixty grin in the wallet, one to be sent without change: the estimate says 0.0125 grin, the transaction pays 59; the same
if 256 change outputs are asked for, the number being read as a byte. -/
theorem fee_without_change_case_violated :
    estimateFee sortUp (fun l => (sortUp l).reverse) [coin60 10] (oneGrin 0) = .ok ⟨1000000000, 12500000, [coin60 10]⟩ ∧
      sendRequest .mainnet 10 1000 sortUp (fun l => (sortUp l).reverse) [coin60 10] (oneGrin 0) =
        .ok ⟨[coin60 10], 1000000000, 59000000000, []⟩ ∧
      estimateFee sortUp (fun l => (sortUp l).reverse) [coin60 10] (oneGrin 256) = .ok ⟨1000000000, 12500000, [coin60 10]⟩ ∧
      sendRequest .mainnet 10 1000 sortUp (fun l => (sortUp l).reverse) [coin60 10] (oneGrin 256) =
        .ok ⟨[coin60 10], 1000000000, 59000000000, []⟩ := by
  refine ⟨?_, ?_, ?_, ?_⟩ <;> decide +kernel

/-- **C84 violated: coins waiting for confirmations.**  The estimate counts them; the send refuses. -/
theorem estimate_immature_violated :
    estimateFee sortUp (fun l => (sortUp l).reverse) [coin60 995] (oneGrin 1) = .ok ⟨1000000000, 23000000, [coin60 995]⟩ ∧
      sendRequest .mainnet 10 1000 sortUp (fun l => (sortUp l).reverse) [coin60 995] (oneGrin 1) = .throw := by
  refine ⟨?_, ?_⟩ <;> decide +kernel

/-- **C84 violated: a balance below the fee.**  The estimate for the entire balance refuses whenever the fee is above the total;
the send goes on, for every such wallet, with an amount that has wrapped around. -/
theorem estimate_below_fee_violated (env : Env) (conf tip : Nat) (up down : List OutputRecord → List OutputRecord)
    (outs : List OutputRecord) (r : Request) (ha : r.amount = none)
    (hmat : ∀ o ∈ outs, o.status = SPENDABLE → immature env conf o.output.features (o.height.getD 0) tip = false)
    (he : estimateFee up down outs r = .throw) :
    ∃ inputs fee, sum64 inputs < fee ∧ fee < U64 ∧
      sendRequest env conf tip up down outs r = .ok ⟨inputs, U64 - (fee - sum64 inputs), fee, []⟩ := by
  have hcoins : availableCoins env conf tip outs = outs.filter (fun o => o.status = SPENDABLE) := by
    unfold availableCoins
    apply List.filter_congr
    intro o ho
    by_cases hs : o.status = SPENDABLE
    · rw [hmat o ho hs]; simp
    · simp [hs]
  unfold estimateFee at he
  unfold sendRequest sendPlan
  rw [hcoins]
  generalize outs.filter (fun o => o.status = SPENDABLE) = coins at *
  simp only [ha, Option.isNone_none, if_true, Option.getD_none] at he ⊢
  have e1 : (1 + 0) % 256 = (0 + 1) % 256 := rfl
  rw [e1]
  have h1 := calcFee_lt r.base coins.length ((0 + 1) % 256) 1
  have h2 := sum64_lt coins
  split at he
  · rename_i hlt
    refine ⟨coins, _, hlt, h1, ?_⟩
    simp only [Res.ok_bind, Res.pure_eq, Nat.lt_irrefl, if_false, Res.ok.injEq, Plan.mk.injEq, true_and, and_true]
    generalize calcFee r.base coins.length ((0 + 1) % 256) 1 = fee at *
    generalize sum64 coins = total at *
    simp only [U64] at *
    omega
  · cases he

example : estimateFee sortUp (fun l => (sortUp l).reverse) [coinOf 5 [1]] ⟨none, 500000, 1, .smallest, []⟩ = .throw := by
  decide +kernel

end Verif.Props
