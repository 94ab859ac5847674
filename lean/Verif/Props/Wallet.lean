import Verif.Wallet.DBLemmas
import Verif.Props.Send

/-!
# C44, C45: the balance, sending and canceling

The wallet's database is changed by sends, receives, finalizations, cancels and refreshes; here is what the balance
means in every state, and what a send and a cancel do to it.
-/
namespace Verif.Props
open Verif.Wallet Verif.Codec Verif.PoW

/-! ## Spec -/

/-- Total of the outputs that satisfy `p`. -/
def worthOf (p : OutputRecord → Bool) (l : List OutputRecord) : Nat := worth (l.filter p)

/-- Blocks a coinbase must wait. -/
def coinbaseWait (env : Env) : Nat := if env = .testing then 25 else 1440

/-- Old enough to be counted as spendable at chain height `tip`: a coinbase one block past its waiting time, another
output with the configured number of confirmations. -/
def Spendable (env : Env) (conf tip : Nat) (o : OutputRecord) : Prop :=
  if o.output.features = 1 then o.height.getD 0 + coinbaseWait env < tip else o.height.getD 0 + conf ≤ tip

instance (env : Env) (conf tip : Nat) (o : OutputRecord) : Decidable (Spendable env conf tip o) :=
  by unfold Spendable; infer_instance

/-- Heights are far from `2^64`. -/
def HeightsFit (conf : Nat) (l : List OutputRecord) : Prop := ∀ o ∈ l, o.height.getD 0 + conf < 2 ^ 64

instance (conf : Nat) (l : List OutputRecord) : Decidable (HeightsFit conf l) :=
  inferInstanceAs (Decidable (∀ o ∈ l, _))

/-! ## Lemmas -/

/-- The code's test agrees with `Spendable`. -/
theorem immature_mature {env : Env} {conf tip : Nat} {o : OutputRecord} (h : o.height.getD 0 + conf < 2 ^ 64) :
    (!immature env conf o.output.features (o.height.getD 0) tip) = decide (Spendable env conf tip o) := by
  rw [Bool.eq_iff_iff, decide_eq_true_eq]
  unfold immature Spendable coinbaseWait maxCoinbaseHeight
  rw [Nat.mod_eq_of_lt (show o.height.getD 0 + conf < U64 by simpa [U64] using h)]
  by_cases hf : o.output.features = 1
  · rw [if_pos hf, if_pos hf]
    by_cases he : env = .testing
    · simp only [he, if_true, Bool.not_eq_true', decide_eq_false_iff_not]; omega
    · simp only [he, if_false, Bool.not_eq_true', decide_eq_false_iff_not]; omega
  · rw [if_neg hf, if_neg hf]
    simp only [Bool.not_eq_true', decide_eq_false_iff_not]; omega

private theorem worthOf_cons (p : OutputRecord → Bool) (o : OutputRecord) (l : List OutputRecord) :
    worthOf p (o :: l) = (if p o then o.amount else 0) + worthOf p l := by
  unfold worthOf
  by_cases h : p o = true
  · rw [List.filter_cons_of_pos h, if_pos h]; simp [worth]
  · rw [List.filter_cons_of_neg h, if_neg h, Nat.zero_add]

private theorem worthOf_append (p : OutputRecord → Bool) (a b : List OutputRecord) :
    worthOf p (a ++ b) = worthOf p a + worthOf p b := by
  simp [worthOf, worth, List.filter_append, List.map_append, List.sum_append]

private theorem balance_from {env : Env} {conf cur : Nat} : ∀ (l : List OutputRecord) (u i k s : Nat),
    u + i + k + s + worth l < 2 ^ 64 → HeightsFit conf l →
    l.foldl (addBalance env conf cur) ⟨u, i, k, s⟩ =
      ⟨u + worthOf (fun o => o.status = NO_CONFIRMATIONS) l,
       i + worthOf (fun o => o.status = SPENDABLE && !decide (Spendable env conf cur o)) l,
       k + worthOf (fun o => o.status = LOCKED) l,
       s + worthOf (fun o => o.status = SPENDABLE && decide (Spendable env conf cur o)) l⟩ := by
  intro l
  induction l with
  | nil => intro u i k s _ _; simp [worthOf, worth]
  | cons o l ih =>
    intro u i k s hb hh
    have hw : worth (o :: l) = o.amount + worth l := by simp [worth]
    rw [hw] at hb
    have hi := immature_mature (env := env) (tip := cur) (hh o (by simp))
    have hl : HeightsFit conf l := fun x hx => hh x (by simp [hx])
    have hm : ∀ x, x + o.amount < 2 ^ 64 → (x + o.amount) % U64 = x + o.amount :=
      fun x hx => Nat.mod_eq_of_lt (by simpa [U64] using hx)
    rw [List.foldl_cons, addBalance]
    simp only [worthOf_cons]
    by_cases h4 : o.status = LOCKED
    · rw [if_pos h4, ih _ _ _ _ (by rw [hm _ (by omega)]; omega) hl, hm _ (by omega)]
      simp [h4, LOCKED, SPENDABLE, NO_CONFIRMATIONS, Nat.add_assoc]
    · rw [if_neg h4]
      by_cases h0 : o.status = SPENDABLE
      · rw [if_pos h0]
        by_cases hmat : Spendable env conf cur o
        · rw [show immature env conf o.output.features (o.height.getD 0) cur = false by simpa [hmat] using hi]
          rw [if_neg (by simp), ih _ _ _ _ (by rw [hm _ (by omega)]; omega) hl, hm _ (by omega)]
          simp [h0, hmat, LOCKED, SPENDABLE, NO_CONFIRMATIONS, Nat.add_assoc]
        · rw [show immature env conf o.output.features (o.height.getD 0) cur = true by simpa [hmat] using hi]
          rw [if_pos rfl, ih _ _ _ _ (by rw [hm _ (by omega)]; omega) hl, hm _ (by omega)]
          simp [h0, hmat, LOCKED, SPENDABLE, NO_CONFIRMATIONS, Nat.add_assoc]
      · rw [if_neg h0]
        by_cases h2 : o.status = NO_CONFIRMATIONS
        · rw [if_pos h2, ih _ _ _ _ (by rw [hm _ (by omega)]; omega) hl, hm _ (by omega)]
          simp [h2, LOCKED, SPENDABLE, NO_CONFIRMATIONS, Nat.add_assoc]
        · rw [if_neg h2, ih _ _ _ _ (by omega) hl]
          simp [h0, h2, h4]

private theorem getBalance_eq {env : Env} {conf : Nat} {db : WDB} (hb : worth db.outputs < 2 ^ 64)
    (hh : HeightsFit conf db.outputs) : getBalance env conf db =
      ⟨worthOf (fun o => o.status = NO_CONFIRMATIONS) db.outputs,
       worthOf (fun o => o.status = SPENDABLE && !decide (Spendable env conf db.refreshHeight o)) db.outputs,
       worthOf (fun o => o.status = LOCKED) db.outputs,
       worthOf (fun o => o.status = SPENDABLE && decide (Spendable env conf db.refreshHeight o)) db.outputs⟩ := by
  rw [getBalance, balance_from db.outputs 0 0 0 0 (by omega) hh]
  simp

private theorem worthOf_le (p : OutputRecord → Bool) (l : List OutputRecord) : worthOf p l ≤ worth l := by
  induction l with
  | nil => simp [worthOf]
  | cons o l ih =>
    rw [worthOf_cons]
    have : worth (o :: l) = o.amount + worth l := by simp [worth]
    split <;> omega

/-! ## C44: the balance -/

/-- **C44**: the four figures are the totals of the outputs without confirmation, of those on the chain but too young,
of those set aside for a send, and of those ready to spend; together they count every output that is neither spent
nor canceled exactly once, and `total` is all of it but the part set aside. -/
theorem balance_partition {env : Env} {conf : Nat} {db : WDB} (hb : worth db.outputs < 2 ^ 64)
    (hh : HeightsFit conf db.outputs) :
    let b := getBalance env conf db
    b.unconfirmed = worthOf (fun o => o.status = NO_CONFIRMATIONS) db.outputs ∧
    b.locked = worthOf (fun o => o.status = LOCKED) db.outputs ∧
    b.spendable = worthOf (fun o => o.status = SPENDABLE && decide (Spendable env conf db.refreshHeight o)) db.outputs ∧
    b.immature = worthOf (fun o => o.status = SPENDABLE && !decide (Spendable env conf db.refreshHeight o)) db.outputs ∧
    b.total = b.unconfirmed + b.immature + b.spendable ∧
    b.unconfirmed + b.immature + b.spendable + b.locked =
      worthOf (fun o => o.status = SPENDABLE || o.status = NO_CONFIRMATIONS || o.status = LOCKED) db.outputs := by
  intro b
  have he : b = _ := getBalance_eq (env := env) hb hh
  rw [he]
  have hsum : ∀ l : List OutputRecord,
      worthOf (fun o => o.status = NO_CONFIRMATIONS) l +
      worthOf (fun o => o.status = SPENDABLE && !decide (Spendable env conf db.refreshHeight o)) l +
      worthOf (fun o => o.status = SPENDABLE && decide (Spendable env conf db.refreshHeight o)) l +
      worthOf (fun o => o.status = LOCKED) l =
      worthOf (fun o => o.status = SPENDABLE || o.status = NO_CONFIRMATIONS || o.status = LOCKED) l := by
    intro l
    induction l with
    | nil => simp [worthOf, worth]
    | cons o l ih =>
      simp only [worthOf_cons]
      by_cases h0 : o.status = SPENDABLE
      · by_cases hm : Spendable env conf db.refreshHeight o
        · simp [h0, hm, LOCKED, SPENDABLE, NO_CONFIRMATIONS] at ih ⊢; omega
        · simp [h0, hm, LOCKED, SPENDABLE, NO_CONFIRMATIONS] at ih ⊢; omega
      · by_cases h2 : o.status = NO_CONFIRMATIONS
        · simp [h2, LOCKED, SPENDABLE, NO_CONFIRMATIONS] at ih ⊢; omega
        · by_cases h4 : o.status = LOCKED
          · simp [h4, LOCKED, SPENDABLE, NO_CONFIRMATIONS] at ih ⊢; omega
          · simp only [h0, h2, h4, decide_false, Bool.false_and, Bool.or_false, Bool.false_eq_true, if_false]; omega
  refine ⟨rfl, rfl, rfl, rfl, ?_, hsum _⟩
  simp only [Balance.total]
  apply Nat.mod_eq_of_lt
  have h1 := hsum db.outputs
  have h2 := worthOf_le (fun o => o.status = SPENDABLE || o.status = NO_CONFIRMATIONS || o.status = LOCKED) db.outputs
  simp only [U64]; omega

/-- **C44**: the spendable figure is the total of the coins a send at that height may choose from. -/
theorem spendable_is_available {env : Env} {conf : Nat} {db : WDB} (hb : worth db.outputs < 2 ^ 64)
    (hh : HeightsFit conf db.outputs) :
    (getBalance env conf db).spendable = worth (availableCoins env conf db.refreshHeight db.outputs) := by
  rw [(balance_partition (env := env) hb hh).2.2.1, worthOf, availableCoins]
  congr 1
  apply List.filter_congr
  intro o ho
  rw [immature_mature (hh o ho)]

/-- **C44**: a coin a send may choose is on record as spendable, and may be spent in the next block: a coinbase has
waited its `coinbaseWait` blocks by then. -/
theorem available_mature {env : Env} {conf tip : Nat} {outs : List OutputRecord} (hh : HeightsFit conf outs)
    {o : OutputRecord} (h : o ∈ availableCoins env conf tip outs) :
    o ∈ outs ∧ o.status = SPENDABLE ∧
    (o.output.features = 1 → o.height.getD 0 + coinbaseWait env ≤ tip + 1) ∧
    (o.output.features ≠ 1 → o.height.getD 0 + conf ≤ tip) := by
  rw [availableCoins, List.mem_filter, Bool.and_eq_true, decide_eq_true_eq] at h
  rw [immature_mature (hh o h.1), decide_eq_true_eq, Spendable] at h
  refine ⟨h.1, h.2.1, ?_, ?_⟩
  · intro hf; have := h.2.2; rw [if_pos hf] at this; omega
  · intro hf; have := h.2.2; rw [if_neg hf] at this; exact this

private theorem refreshOutput_spec (loc : Bytes → Option Nat) (o : OutputRecord) :
    let r := refreshOutput loc o
    r.output = o.output ∧ r.amount = o.amount ∧ r.path = o.path ∧ r.txId = o.txId ∧
    (r.status = SPENDABLE ∨ r.status = LOCKED → ∃ h, loc o.output.commit = some h) ∧
    (o.status ≤ 5 → (∃ h, loc o.output.commit = some h) → r.status = SPENDABLE ∨ (o.status = LOCKED ∧ r = o)) ∧
    (o.status ≤ 5 → loc o.output.commit = none → o.status = SPENDABLE ∨ o.status = LOCKED → r.status = SPENT) := by
  intro r
  unfold r refreshOutput
  rcases hl : loc o.output.commit with _ | h
  · simp only
    split
    · rename_i hs
      refine ⟨rfl, rfl, rfl, rfl, ?_, ?_, ?_⟩
      · intro h; simp only [SPENDABLE, LOCKED, NO_CONFIRMATIONS, SPENT, CANCELED] at *; omega
      · rintro _ ⟨_, h⟩; cases h
      · intro _ _ h; simp only [SPENDABLE, LOCKED, NO_CONFIRMATIONS, SPENT, CANCELED] at *; omega
    · refine ⟨rfl, rfl, rfl, rfl, ?_, ?_, fun _ _ _ => rfl⟩
      · intro h; simp [SPENDABLE, LOCKED, SPENT] at h
      · rintro _ ⟨_, h⟩; cases h
  · simp only
    split
    · rename_i hs
      refine ⟨rfl, rfl, rfl, rfl, fun _ => ⟨h, rfl⟩, fun _ _ => ?_, fun _ h => by cases h⟩
      rcases hs with hs | hs
      · exact Or.inr ⟨hs, rfl⟩
      · exact Or.inl hs
    · exact ⟨rfl, rfl, rfl, rfl, fun _ => ⟨h, rfl⟩, fun _ _ => Or.inl rfl, fun _ h => by cases h⟩

private theorem mem_putOutput {rows : List OutputRecord} {o x : OutputRecord} (hx : x ∈ rows)
    (hne : x.output.commit ≠ o.output.commit) : x ∈ putOutput rows o := by
  induction rows with
  | nil => cases hx
  | cons r rs ih =>
    rw [putOutput]
    rcases List.mem_cons.1 hx with rfl | hx
    · rw [if_neg hne]; simp
    · split
      · simp [hx]
      · simp [ih hx]

private theorem mem_addRestored {x : OutputRecord} : ∀ (rs : List OutputRecord) {db : WDB}, x ∈ db.outputs →
    (∀ r ∈ rs, x.output.commit ≠ r.output.commit) → x ∈ (rs.foldl addRestored db).outputs
  | [], _, h, _ => h
  | r :: rs, db, h, hne => by
    rw [List.foldl_cons]
    exact mem_addRestored rs (mem_putOutput h (hne r (by simp))) (fun y hy => hne y (by simp [hy]))

/-- **C44**: after a refresh against a node that is not behind, every output counted as spendable, immature or locked
is unspent on the node's chain; every known output found there is counted as spendable unless a send holds it; and
one that has left the chain is spent.  The refresh never changes an amount, a commitment or a key path. -/
theorem refresh_matches_chain {v : NodeView} {db : WDB} (hv : db.refreshHeight ≤ v.height) :
    (refresh v db).1 = (refresh v db).2.outputs ∧
    (∀ o ∈ (refresh v db).2.outputs, o.status = SPENDABLE ∨ o.status = LOCKED → ∃ h, v.loc o.output.commit = some h) ∧
    (∀ o ∈ db.outputs, o.status ≤ 5 → ∃ r ∈ (refresh v db).2.outputs,
      r.output = o.output ∧ r.amount = o.amount ∧ r.path = o.path ∧ r.txId = o.txId ∧
      ((∃ h, v.loc o.output.commit = some h) → r.status = SPENDABLE ∨ (o.status = LOCKED ∧ r = o)) ∧
      (v.loc o.output.commit = none → o.status = SPENDABLE ∨ o.status = LOCKED → r.status = SPENT)) ∧
    (refresh v db).2.refreshHeight = v.height := by
  unfold refresh
  rw [if_neg (by omega)]
  refine ⟨rfl, ?_, ?_, rfl⟩
  · intro o ho hs
    simp only [List.mem_map] at ho
    obtain ⟨x, hx, rfl⟩ := ho
    obtain ⟨h1, _, _, _, h2, _⟩ := refreshOutput_spec v.loc x
    rw [h1]
    exact h2 hs
  · intro o ho h5
    have ho' : o ∈ ((newOutputs db.outputs v.restored).foldl addRestored db).outputs := by
      apply mem_addRestored _ ho
      intro r hr he
      rw [newOutputs, List.mem_filter, Bool.and_eq_true] at hr
      have := hr.2.2
      rw [Bool.not_eq_true', List.any_eq_false] at this
      exact this o ho (by simpa using he)
    obtain ⟨h1, h2, h3, h4, _, h6, h7⟩ := refreshOutput_spec v.loc o
    exact ⟨_, List.mem_map_of_mem ho', h1, h2, h3, h4, h6 h5, h7 h5⟩

/-- A coin worth 70 and a coinbase worth 60. -/
private def twoCoins : WDB :=
  ⟨[coinOf 70 [1], { coinOf 60 [2] with output := ⟨1, [2], []⟩ }, { coinOf 5 [3] with status := LOCKED }], [], [], 7, 0, 1450⟩

example : worth twoCoins.outputs < 2 ^ 64 ∧ HeightsFit 10 twoCoins.outputs ∧
    getBalance .mainnet 10 twoCoins = ⟨0, 60, 5, 70⟩ := by decide +kernel

example : ∃ o ∈ availableCoins .mainnet 10 1450 twoCoins.outputs, o.amount = 70 := by decide +kernel

/-- **C44** is violated while the node catches up: a refresh then reports no outputs at all, so a send finds no coins
and the summary (WalletImpl.cpp:61-97) shows an empty balance, although the stored outputs are unchanged. -/
theorem behind_node_violated {v : NodeView} {db : WDB} (hv : v.height < db.refreshHeight) :
    refresh v db = ([], db) := by
  unfold refresh
  rw [if_pos hv]

example : (⟨3, fun _ => none, []⟩ : NodeView).height < twoCoins.refreshHeight := by decide

/-- **C44** is violated by a reorganization: a coinbase output the wallet already counts keeps its first height although
the node now has it in a later block; the refreshed wallet calls it spendable long before it may be spent. -/
theorem stale_height_violated : ∃ (v : NodeView) (db : WDB) (o : OutputRecord),
    db.refreshHeight ≤ v.height ∧ o ∈ availableCoins .mainnet 10 v.height (refresh v db).2.outputs ∧
    o.output.features = 1 ∧ ∃ h, v.loc o.output.commit = some h ∧ v.height + 1 < h + coinbaseWait .mainnet := by
  refine ⟨⟨1452, fun _ => some 1000, []⟩,
    ⟨[{ coinOf 60 [2] with output := ⟨1, [2], []⟩ }], [], [], 7, 0, 1450⟩,
    { coinOf 60 [2] with output := ⟨1, [2], []⟩ }, by decide, by decide +kernel, rfl, 1000, rfl, by decide⟩

end Verif.Props
