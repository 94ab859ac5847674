import Verif.Tx.Pool
import Verif.Props.TxBody
import Verif.Props.TxHashSet
import Verif.Props.Sums
import Mathlib.Data.List.Nodup

/-!
# C40, C41, C74: the transaction pools
-/
namespace Verif.Props
open Verif Verif.Tx Verif.PoW

/-! ## C74: what the pool admits -/

/-- **C74.**  A transaction is admitted exactly if it is not already in the public pool (when meant
for it), pays the minimum fee, has no kernel locked beyond the next block, passes the transaction
validator for the next block, and a state is there against whose unspent outputs it is valid. -/
theorem admitted_iff {S : Type} (R : PoolRules S) (p : Pools) (s : Option S) (tip : Nat) (tx : Tx)
    (toMem stemIt : Bool) :
    (∃ p', addTx R p s tip tx toMem stemIt = .ok (p', .added)) ↔
      (toMem = true → ∀ e ∈ p.mem, R.hash e.tx ≠ R.hash tx) ∧ R.feeOk (tip + 1) tx = true ∧
      (∀ k ∈ tx.body.kernels, k.lockHeight ≤ tip + 1) ∧ R.check (tip + 1) tx = .ok () ∧
      ∃ s', s = some s' ∧ R.utxo s' tx = .ok true := by
  have hdup : (toMem && poolContains R p.mem tx) = false ↔
      (toMem = true → ∀ e ∈ p.mem, R.hash e.tx ≠ R.hash tx) := by
    cases toMem <;> simp [poolContains]
  have hlock : (tx.body.kernels.any (fun k => k.lockHeight > tip + 1)) = false ↔
      ∀ k ∈ tx.body.kernels, k.lockHeight ≤ tip + 1 := by
    simp
  rw [← hdup, ← hlock]
  unfold addTx
  dsimp only
  generalize (toMem && poolContains R p.mem tx) = d
  generalize R.feeOk (tip + 1) tx = f
  generalize (tx.body.kernels.any (fun k => decide (k.lockHeight > tip + 1))) = l
  cases d <;> cases f <;> cases l <;> simp
  cases hc : R.check (tip + 1) tx <;> simp
  cases s with
  | none => simp
  | some s =>
    simp
    cases hu : R.utxo s tx with
    | ok v => cases v <;> cases toMem <;> simp [Bind.bind, Res.bind]
    | throw => simp [Bind.bind, Res.bind]
    | ub => simp [Bind.bind, Res.bind]

/-- Where an admitted transaction goes, and that a refused one changes nothing. -/
theorem admitted_effect {S : Type} (R : PoolRules S) (p p' : Pools) (s : Option S) (tip : Nat)
    (tx : Tx) (toMem stemIt : Bool) (st : AddStatus)
    (h : addTx R p s tip tx toMem stemIt = .ok (p', st)) :
    (st ≠ .added → p' = p) ∧
    (st = .added → toMem = true →
      p'.mem = p.mem ++ [⟨tx, .fluffed, 0⟩] ∧ p'.stem = poolRemove R p.stem tx) ∧
    (st = .added → toMem = false →
      p'.mem = p.mem ∧ p'.stem = p.stem ++ [⟨tx, if stemIt then .toStem else .toFluff, 0⟩]) := by
  unfold addTx at h
  dsimp only at h
  split at h
  · cases h; simp
  split at h
  · cases h; simp
  split at h
  · cases h; simp
  split at h
  · cases h; simp
  · cases h
  · split at h
    · cases h; simp
    · rename_i s'
      rw [Res.bind_eq_ok] at h
      obtain ⟨v, hv, h⟩ := h
      cases v with
      | false => simp [Pure.pure] at h; obtain ⟨rfl, rfl⟩ := h; simp
      | true =>
        cases toMem with
        | true => simp [Pure.pure] at h; obtain ⟨rfl, rfl⟩ := h; simp [poolAdd]
        | false => simp [Pure.pure] at h; obtain ⟨rfl, rfl⟩ := h; simp [poolAdd]

private theorem foldl_shift : ∀ (l : List Kernel) (m : Nat),
    (∀ k ∈ l, k.fee.shift ≤ l.foldl (fun m k => if k.fee.shift > m then k.fee.shift else m) m) ∧
    m ≤ l.foldl (fun m k => if k.fee.shift > m then k.fee.shift else m) m ∧
    (m ≤ 15 → (∀ k ∈ l, k.fee.shift ≤ 15) →
      l.foldl (fun m k => if k.fee.shift > m then k.fee.shift else m) m ≤ 15)
  | [], m => by simp
  | k :: l, m => by
    obtain ⟨h1, h2, h3⟩ := foldl_shift l (if k.fee.shift > m then k.fee.shift else m)
    simp only [List.foldl_cons]
    refine ⟨?_, ?_, ?_⟩
    · intro x hx
      rcases List.mem_cons.1 hx with rfl | hx
      · refine Nat.le_trans ?_ h2
        split <;> omega
      · exact h1 x hx
    · refine Nat.le_trans ?_ h2
      split <;> omega
    · intro hm hk
      refine h3 ?_ (fun x hx => hk x (List.mem_cons_of_mem _ hx))
      have := hk k List.mem_cons_self
      split <;> omega

/-- What passing the transaction validator means, check by check. -/
theorem validator_ok {G : Type} [AddCommGroup G] [DecidableEq G] (env : Env) (C : Curve G)
    (H : DigestNum) (proofs : List (Bytes × Bytes) → Bool) (sigs : List Kernel → Bool)
    (height : Nat) (tx : Tx) (h : validateTx env C H proofs sigs height tx = .ok ()) :
    validateTxWeight env height tx.body = .ok () ∧ validateBody H proofs sigs tx.body = .ok () ∧
    validateFeatures tx.body = .ok () ∧ ∃ r, txSums C tx = .ok r := by
  unfold validateTx at h
  obtain ⟨_, h1, h⟩ := Res.bind_eq_ok.1 h
  obtain ⟨_, h2, h⟩ := Res.bind_eq_ok.1 h
  obtain ⟨_, h3, h⟩ := Res.bind_eq_ok.1 h
  obtain ⟨r, h4, _⟩ := Res.bind_eq_ok.1 h
  exact ⟨h1, h2, h3, r, h4⟩

/-- **C74, the fee.**  From the last version change on, a transaction admitted under the rules of
the node pays at least the fee base times its weight (inputs 1, outputs 21, kernels 3), doubled as
often as the fee shift of any of its kernels says.  Fees below 2^40 and shifts below 16 are what
the wire format can carry; the fee base is assumed to be below 2^32 (the default is 500000). -/
theorem admitted_pays {G : Type} [AddCommGroup G] [DecidableEq G] (env : Env) (C : Curve G)
    (H : DigestNum) (proofs : List (Bytes × Bytes) → Bool) (sigs : List Kernel → Bool)
    (sum : List Bytes → Res Bytes) (txHash : Tx → Nat) (base : Nat) (p p' : Pools)
    (s : Option (DB × THS)) (tip : Nat) (tx : Tx) (toMem stemIt : Bool)
    (h : addTx (nodeRules env C H proofs sigs sum txHash base) p s tip tx toMem stemIt =
      .ok (p', .added))
    (hh : 1048320 ≤ tip + 1) (hbase : base < 2 ^ 32) (hm : InMemory tx.body)
    (hfee : ∀ k ∈ tx.body.kernels, k.fee.fee < 2 ^ 40 ∧ k.fee.shift < 16) :
    ∀ k ∈ tx.body.kernels,
      base * (tx.body.inputs.length + 21 * tx.body.outputs.length + 3 * tx.body.kernels.length) *
        2 ^ k.fee.shift ≤ (tx.body.kernels.map (·.fee.fee)).sum := by
  intro k hk
  obtain ⟨-, hf, -, hc, -⟩ := (admitted_iff _ p s tip tx toMem stemIt).1 ⟨p', h⟩
  have hw := (validator_ok env C H proofs sigs _ tx hc).1
  have hv := current_weight_rule env _ hh
  have hle := (transaction_weight env _ _ hm hv).1.1 hw
  obtain ⟨hi, ho, hk'⟩ := hm
  have hcw : calcWeight env (tip + 1) tx.body =
      tx.body.inputs.length + 21 * tx.body.outputs.length + 3 * tx.body.kernels.length := by
    unfold calcWeight
    rw [if_neg (show ¬ headerVersion env (tip + 1) < 5 by omega)]
    unfold weightV5
    rw [Nat.mod_eq_of_lt] <;> omega
  have hf' : feeMeetsMinimum env base (tip + 1) tx = true := hf
  unfold feeMeetsMinimum at hf'
  simp only [ge_iff_le, decide_eq_true_eq, hcw] at hf'
  generalize hW : tx.body.inputs.length + 21 * tx.body.outputs.length +
    3 * tx.body.kernels.length = W at *
  have hWb : W < 2 ^ 16 := by omega
  obtain ⟨f1, -, f3⟩ := foldl_shift tx.body.kernels 0
  have hsh : feeShift tx.body ≤ 15 := f3 (by omega) (fun x hx => by have := (hfee x hx).2; omega)
  have hks : k.fee.shift ≤ feeShift tx.body := f1 k hk
  have hbw : base * W < 2 ^ 48 := by
    calc base * W ≤ 2 ^ 32 * W := Nat.mul_le_mul_right _ (by omega)
      _ < 2 ^ 32 * 2 ^ 16 := by omega
  have hp : (2 : Nat) ^ feeShift tx.body ≤ 2 ^ 15 := Nat.pow_le_pow_right (by omega) hsh
  have hbig : base * W * 2 ^ feeShift tx.body < 2 ^ 64 := by
    calc base * W * 2 ^ feeShift tx.body ≤ base * W * 2 ^ 15 := Nat.mul_le_mul_left _ hp
      _ < 2 ^ 64 := by omega
  rw [Nat.mod_eq_of_lt (show base * W < 2 ^ 64 by omega), Nat.mod_eq_of_lt hbig] at hf'
  calc base * W * 2 ^ k.fee.shift ≤ base * W * 2 ^ feeShift tx.body :=
        Nat.mul_le_mul_left _ (Nat.pow_le_pow_right (by omega) hks)
    _ ≤ (tx.body.kernels.map (·.fee.fee)).sum % 2 ^ 64 := hf'
    _ ≤ _ := Nat.mod_le _ _

/-! ## C41: the embargo of the stem pool -/

/-- The pools after any sequence of submissions, blocks and relay runs, starting empty. -/
inductive PoolReach {S : Type} (R : PoolRules S) : Pools → Prop
  | empty : PoolReach R ⟨[], []⟩
  | add {p p' : Pools} {s : Option S} {tip : Nat} {tx : Tx} {toMem stemIt : Bool} {st : AddStatus} :
      PoolReach R p → addTx R p s tip tx toMem stemIt = .ok (p', st) → PoolReach R p'
  | block {p p' : Pools} {s : S} {b : Block} :
      PoolReach R p → reconcile R p s b = .ok p' → PoolReach R p'
  | stem {p p' : Pools} {s : S} {r : Option Tx} :
      PoolReach R p → toStem R p s = .ok (p', r) → PoolReach R p'
  | fluff {p p' : Pools} {s : S} {r : Option Tx} :
      PoolReach R p → toFluff R p s = .ok (p', r) → PoolReach R p'

private theorem reconcile_mem {S : Type} {R : PoolRules S} {l l' : List Entry} {s : S} {b : Block}
    {extra : Option Tx} (h : poolReconcile R l s b extra = .ok l') : ∀ e ∈ l', e ∈ l := by
  unfold poolReconcile at h
  obtain ⟨v, _, h⟩ := Res.bind_eq_ok.1 h
  simp only [Res.pure_eq, Res.ok.injEq] at h
  subst h
  intro e he
  obtain ⟨t, _, ht⟩ := List.mem_filterMap.1 he
  exact (List.mem_filter.1 (List.mem_of_find?_eq_some ht)).1

private theorem foldl_remove_mem {S : Type} {R : PoolRules S} : ∀ (txs : List Tx) (l : List Entry),
    ∀ e ∈ txs.foldl (poolRemove R) l, e ∈ l
  | [], _, _, he => he
  | t :: txs, l, e, he => List.mem_of_mem_eraseP (foldl_remove_mem txs (poolRemove R l t) e he)

/-- The time stored with every entry is zero. -/
theorem stored_time {S : Type} (R : PoolRules S) (p : Pools) (h : PoolReach R p) :
    ∀ e, e ∈ p.mem ∨ e ∈ p.stem → e.time = 0 := by
  induction h with
  | empty => simp
  | @add p p' s tip tx toMem stemIt st _ ha ih =>
    obtain ⟨h1, h2, h3⟩ := admitted_effect R p p' s tip tx toMem stemIt st ha
    by_cases hst : st = .added
    · cases toMem with
      | true =>
        obtain ⟨e1, e2⟩ := h2 hst rfl
        rintro e (he | he)
        · rw [e1, List.mem_append, List.mem_singleton] at he
          rcases he with he | rfl
          · exact ih e (Or.inl he)
          · rfl
        · rw [e2] at he
          exact ih e (Or.inr (List.mem_of_mem_eraseP he))
      | false =>
        obtain ⟨e1, e2⟩ := h3 hst rfl
        rintro e (he | he)
        · rw [e1] at he
          exact ih e (Or.inl he)
        · rw [e2, List.mem_append, List.mem_singleton] at he
          rcases he with he | rfl
          · exact ih e (Or.inr he)
          · rfl
    · rw [h1 hst]
      exact ih
  | @block p p' s b _ hb ih =>
    unfold reconcile at hb
    obtain ⟨mem, h1, hb⟩ := Res.bind_eq_ok.1 hb
    obtain ⟨extra, _, hb⟩ := Res.bind_eq_ok.1 hb
    obtain ⟨stem, h2, hb⟩ := Res.bind_eq_ok.1 hb
    simp only [Res.pure_eq, Res.ok.injEq] at hb
    subst hb
    rintro e (he | he)
    · exact ih e (Or.inl (reconcile_mem h1 e he))
    · exact ih e (Or.inr (reconcile_mem h2 e he))
  | @stem p p' s r _ hs ih =>
    unfold toStem at hs
    dsimp only at hs
    split at hs
    · cases hs; exact ih
    · obtain ⟨extra, _, hs⟩ := Res.bind_eq_ok.1 hs
      obtain ⟨valid, _, hs⟩ := Res.bind_eq_ok.1 hs
      split at hs
      · cases hs; exact ih
      · obtain ⟨t, _, hs⟩ := Res.bind_eq_ok.1 hs
        simp only [Res.pure_eq, Res.ok.injEq, Prod.mk.injEq] at hs
        obtain ⟨rfl, _⟩ := hs
        rintro e (he | he)
        · exact ih e (Or.inl he)
        · obtain ⟨x, hx, rfl⟩ := List.mem_map.1 he
          have := ih x (Or.inr hx)
          split <;> exact this
  | @fluff p p' s r _ hs ih =>
    unfold toFluff at hs
    dsimp only at hs
    split at hs
    · cases hs; exact ih
    · obtain ⟨extra, _, hs⟩ := Res.bind_eq_ok.1 hs
      obtain ⟨valid, _, hs⟩ := Res.bind_eq_ok.1 hs
      split at hs
      · cases hs; exact ih
      · obtain ⟨t, _, hs⟩ := Res.bind_eq_ok.1 hs
        simp only [Res.pure_eq, Res.ok.injEq, Prod.mk.injEq] at hs
        obtain ⟨rfl, _⟩ := hs
        rintro e (he | he)
        · simp only [poolAdd, List.mem_append, List.mem_singleton] at he
          rcases he with he | rfl
          · exact ih e (Or.inl he)
          · rfl
        · exact ih e (Or.inr (foldl_remove_mem valid p.stem e he))

/-- **C41 (partial).**  A transaction is reported expired exactly if an entry of the stem pool
holds it whose stored time is more than the embargo ago.  Missing: the stored time is not the time
of arrival, see `stem_expired_at_once_violated`. -/
theorem expired_iff_partial (p : Pools) (now : Int) (embargo : Nat) (he : embargo < 2 ^ 16)
    (tx : Tx) :
    tx ∈ expired p now embargo ↔ ∃ e ∈ p.stem, e.tx = tx ∧ e.time + embargo < now := by
  unfold expired
  rw [Nat.mod_eq_of_lt he]
  simp only [List.mem_map, List.mem_filter, decide_eq_true_eq]
  constructor
  · rintro ⟨e, ⟨h1, h2⟩, h3⟩
    exact ⟨e, h1, h3, by omega⟩
  · rintro ⟨e, h1, h3, h2⟩
    exact ⟨e, ⟨h1, by omega⟩, h3⟩

/-- **C41, violated.**  Whatever the history, whatever the configured embargo and whatever the time
(any clock more than 65535 seconds after 1970): every transaction in the stem pool is reported
expired.  In particular one that has just been added: it is handed to the public pool and broadcast
on the next run instead of being kept to the stem. -/
theorem stem_expired_at_once_violated {S : Type} (R : PoolRules S) (p : Pools)
    (h : PoolReach R p) (now : Int) (embargo : Nat) (hnow : 2 ^ 16 ≤ now) :
    expired p now embargo = p.stem.map (·.tx) := by
  unfold expired
  dsimp only
  rw [List.filter_eq_self.2]
  intro e he
  rw [stored_time R p h e (Or.inr he)]
  have : embargo % 2 ^ 16 < 2 ^ 16 := Nat.mod_lt _ (by decide)
  simp only [decide_eq_true_eq]
  omega

/-- **C41, violated: the case of a new transaction.** -/
theorem new_stem_expired_violated {S : Type} (R : PoolRules S) (p p' : Pools) (h : PoolReach R p)
    (s : Option S) (tip : Nat) (tx : Tx) (stemIt : Bool)
    (ha : addTx R p s tip tx false stemIt = .ok (p', .added)) (now : Int) (embargo : Nat)
    (hnow : 2 ^ 16 ≤ now) : tx ∈ expired p' now embargo := by
  rw [stem_expired_at_once_violated R p' (.add h ha) now embargo hnow]
  rw [((admitted_effect R p p' s tip tx false stemIt .added ha).2.2 rfl rfl).2]
  simp

/-- Rules that accept everything, for examples. -/
private def exRules : PoolRules Unit :=
  ⟨fun t => beVal t.offset, fun k => beVal k.excess, fun l => match l with
    | t :: _ => .ok t
    | [] => .throw, fun _ _ => .ok (), fun _ _ => .ok true, fun _ => 0, fun _ _ => true⟩

example : ∃ p', addTx exRules ⟨[], []⟩ (some ()) 5 ⟨[1], ⟨[], [], []⟩⟩ false true =
      .ok (p', .added) ∧ (⟨[1], ⟨[], [], []⟩⟩ : Tx) ∈ expired p' 1700000000 180 := by
  refine ⟨⟨[], [⟨⟨[1], ⟨[], [], []⟩⟩, .toStem, 0⟩]⟩, rfl, ?_⟩
  exact new_stem_expired_violated exRules _ _ .empty (some ()) 5 _ true rfl _ _ (by decide)

/-! ## C40: what is kept and offered together -/

/-- The transactions of `l`, merged into one, pass the transaction validator for the next block and
the check against the unspent outputs of state `s`. -/
def Joint {S : Type} (R : PoolRules S) (s : S) (l : List Tx) : Prop :=
  ∃ a, R.agg l = .ok a ∧ R.check (R.flushed s + 1) a = .ok () ∧ R.utxo s a = .ok true

private theorem isValidTx_iff {S : Type} (R : PoolRules S) (s : S) (a : Tx) :
    isValidTx R s a = .ok true ↔ R.check (R.flushed s + 1) a = .ok () ∧ R.utxo s a = .ok true := by
  unfold isValidTx
  cases R.check (R.flushed s + 1) a <;> simp
  cases R.utxo s a <;> simp

private theorem findValidLoop_spec {S : Type} (R : PoolRules S) (s : S) (extra : Option Tx) :
    ∀ (ts valid out : List Tx), findValidLoop R s extra ts valid = .ok out →
      ∃ new, out = valid ++ new ∧ new.Sublist ts ∧
        (∀ pre x post, new = pre ++ x :: post →
          Joint R s (valid ++ pre ++ extra.toList ++ [x])) ∧
        (∀ t ∈ ts, t ∈ new ∨ ∃ pre post, new = pre ++ post ∧
          ¬ Joint R s (valid ++ pre ++ extra.toList ++ [t]))
  | [], valid, out, h => by
    simp only [findValidLoop, Res.ok.injEq] at h
    exact ⟨[], by simp [h], List.Sublist.refl _, by simp, by simp⟩
  | t :: ts, valid, out, h => by
    unfold findValidLoop at h
    obtain ⟨a, ha, h⟩ := Res.bind_eq_ok.1 h
    obtain ⟨v, hv, h⟩ := Res.bind_eq_ok.1 h
    obtain ⟨new, h1, h2, h3, h4⟩ := findValidLoop_spec R s extra ts _ out h
    cases v with
    | true =>
      simp only [if_true] at h1 h3 h4
      refine ⟨t :: new, by simp [h1], h2.cons_cons t, ?_, ?_⟩
      · intro pre x post he
        match pre, he with
        | [], he =>
          simp only [List.nil_append, List.cons.injEq] at he
          obtain ⟨rfl, rfl⟩ := he
          exact ⟨a, by simpa using ha, (isValidTx_iff R s a).1 hv⟩
        | y :: pre, he =>
          simp only [List.cons_append, List.cons.injEq] at he
          obtain ⟨rfl, he⟩ := he
          have := h3 pre x post he
          simpa using this
      · intro t' ht'
        rcases List.mem_cons.1 ht' with rfl | ht'
        · exact Or.inl List.mem_cons_self
        · rcases h4 t' ht' with hm | ⟨pre, post, he, hn⟩
          · exact Or.inl (List.mem_cons_of_mem _ hm)
          · refine Or.inr ⟨t :: pre, post, by rw [he]; rfl, ?_⟩
            simpa using hn
    | false =>
      simp only [Bool.false_eq_true, if_false] at h1 h3 h4
      refine ⟨new, h1, h2.cons t, h3, ?_⟩
      intro t' ht'
      rcases List.mem_cons.1 ht' with rfl | ht'
      · refine Or.inr ⟨[], new, rfl, ?_⟩
        rintro ⟨a', ha', hc⟩
        simp only [List.append_nil] at ha'
        rw [ha] at ha'
        cases ha'
        rw [(isValidTx_iff R s a).2 hc] at hv
        cases hv
      · exact h4 t' ht'

/-- **C40, the selection.**  The transactions selected are some of those given, in order; every
beginning of the selection, with the extra transaction before its last member, is jointly valid; and a
transaction is left out only if it is not jointly valid with what was selected before it. -/
theorem selection_joint {S : Type} (R : PoolRules S) (s : S) (txs out : List Tx)
    (extra : Option Tx) (h : findValid R s txs extra = .ok out) :
    out.Sublist txs ∧
    (∀ pre x post, out = pre ++ x :: post → Joint R s (pre ++ extra.toList ++ [x])) ∧
    (∀ t ∈ txs, t ∈ out ∨ ∃ pre post, out = pre ++ post ∧
      ¬ Joint R s (pre ++ extra.toList ++ [t])) := by
  obtain ⟨new, h1, h2, h3, h4⟩ := findValidLoop_spec R s extra txs [] out h
  simp only [List.nil_append] at h1 h3 h4
  subst h1
  exact ⟨h2, h3, h4⟩

private theorem lookup_self {S : Type} (R : PoolRules S) (l : List Entry)
    (hinj : ∀ e ∈ l, ∀ e' ∈ l, R.hash e.tx = R.hash e'.tx → e.tx = e'.tx) :
    ∀ v : List Tx, (∀ t ∈ v, t ∈ l.map (·.tx)) →
      (v.filterMap (fun t => l.find? (fun e => R.hash e.tx = R.hash t))).map (·.tx) = v
  | [], _ => rfl
  | t :: v, hv => by
    obtain ⟨e, he, rfl⟩ := List.mem_map.1 (hv t List.mem_cons_self)
    have hs : (l.find? (fun x => decide (R.hash x.tx = R.hash e.tx))).isSome = true := by
      rw [List.find?_isSome]
      exact ⟨e, he, by simp⟩
    obtain ⟨x, hx⟩ := Option.isSome_iff_exists.1 hs
    have hxe : x.tx = e.tx := by
      have h1 := List.find?_some hx
      simp only [decide_eq_true_eq] at h1
      exact hinj x (List.mem_of_find?_eq_some hx) e he h1
    simp only [List.filterMap_cons, hx, List.map_cons, hxe]
    rw [lookup_self R l hinj v (fun t ht => hv t (List.mem_cons_of_mem _ ht))]

private theorem poolReconcile_spec {S : Type} (R : PoolRules S) (l l' : List Entry) (s : S)
    (b : Block) (extra : Option Tx)
    (hinj : ∀ e ∈ l, ∀ e' ∈ l, R.hash e.tx = R.hash e'.tx → e.tx = e'.tx)
    (h : poolReconcile R l s b extra = .ok l') :
    findValid R s ((l.filter (fun e => !shouldEvict R e.tx b)).map (·.tx)) extra =
      .ok (l'.map (·.tx)) := by
  unfold poolReconcile at h
  obtain ⟨v, hv, h⟩ := Res.bind_eq_ok.1 h
  simp only [Res.pure_eq, Res.ok.injEq] at h
  subst h
  rw [hv, lookup_self R _ _ v]
  · exact (selection_joint R s _ v extra hv).1.subset
  · intro e he e' he'
    exact hinj e (List.mem_filter.1 he).1 e' (List.mem_filter.1 he').1

/-- **C40 (partial).**  After a block has been taken into account, with state `s`: the public pool
taken together is valid on that state; the stem pool is so together with the merged public pool;
nothing is kept that spends an input of the block or has one of its kernels; and nothing else is
dropped unless it is not jointly valid with transactions that are kept.  Missing: the same after a
submission, see `conflict_admitted_violated`. -/
theorem reconciled_joint_partial {S : Type} (R : PoolRules S) (p p' : Pools) (s : S) (b : Block)
    (hm : ∀ e ∈ p.mem, ∀ e' ∈ p.mem, R.hash e.tx = R.hash e'.tx → e.tx = e'.tx)
    (hst : ∀ e ∈ p.stem, ∀ e' ∈ p.stem, R.hash e.tx = R.hash e'.tx → e.tx = e'.tx)
    (h : reconcile R p s b = .ok p') :
    (p'.mem ≠ [] → Joint R s (p'.mem.map (·.tx))) ∧
    (∃ extra, poolAggregate R p'.mem = .ok extra ∧
      ∀ pre x post, p'.stem.map (·.tx) = pre ++ x :: post →
        Joint R s (pre ++ extra.toList ++ [x])) ∧
    (∀ e, e ∈ p'.mem ∨ e ∈ p'.stem →
      (∀ i ∈ e.tx.body.inputs, i ∉ b.body.inputs) ∧
      (∀ k ∈ e.tx.body.kernels, ∀ x ∈ b.body.kernels, R.kernelHash x ≠ R.kernelHash k)) ∧
    (∀ e ∈ p.mem, e.tx ∈ p'.mem.map (·.tx) ∨ (∃ i ∈ e.tx.body.inputs, i ∈ b.body.inputs) ∨
      (∃ k ∈ e.tx.body.kernels, ∃ x ∈ b.body.kernels, R.kernelHash x = R.kernelHash k) ∨
      ∃ pre post, p'.mem.map (·.tx) = pre ++ post ∧ ¬ Joint R s (pre ++ [e.tx])) := by
  unfold reconcile at h
  obtain ⟨mem, h1, h⟩ := Res.bind_eq_ok.1 h
  obtain ⟨extra, h2, h⟩ := Res.bind_eq_ok.1 h
  obtain ⟨stem, h3, h⟩ := Res.bind_eq_ok.1 h
  simp only [Res.pure_eq, Res.ok.injEq] at h
  subst h
  have g1 := selection_joint R s _ _ _ (poolReconcile_spec R p.mem mem s b none hm h1)
  have g3 := selection_joint R s _ _ _ (poolReconcile_spec R p.stem stem s b extra hst h3)
  have hev : ∀ tx : Tx, shouldEvict R tx b = false ↔
      (∀ i ∈ tx.body.inputs, i ∉ b.body.inputs) ∧
      (∀ k ∈ tx.body.kernels, ∀ x ∈ b.body.kernels, R.kernelHash x ≠ R.kernelHash k) := by
    intro tx
    unfold shouldEvict
    simp
  have hkept : ∀ (l l' : List Entry) (extra : Option Tx),
      poolReconcile R l s b extra = .ok l' → ∀ e ∈ l', shouldEvict R e.tx b = false := by
    intro l l' extra h e he
    unfold poolReconcile at h
    obtain ⟨v, _, h⟩ := Res.bind_eq_ok.1 h
    simp only [Res.pure_eq, Res.ok.injEq] at h
    subst h
    obtain ⟨t, _, ht⟩ := List.mem_filterMap.1 he
    simpa using (List.mem_filter.1 (List.mem_of_find?_eq_some ht)).2
  refine ⟨?_, ⟨extra, h2, g3.2.1⟩, ?_, ?_⟩
  · intro hne
    have hne' : mem.map (·.tx) ≠ [] := by simpa using hne
    have hd := List.dropLast_append_getLast hne'
    have := g1.2.1 _ _ [] hd.symm
    simp only [Option.toList_none, List.append_nil] at this
    rw [hd] at this
    exact this
  · rintro e (he | he)
    · exact (hev e.tx).1 (hkept _ _ _ h1 e he)
    · exact (hev e.tx).1 (hkept _ _ _ h3 e he)
  · intro e he
    by_cases hc : shouldEvict R e.tx b = true
    · unfold shouldEvict at hc
      simp only [Bool.or_eq_true, List.any_eq_true, List.contains_iff_mem, decide_eq_true_eq] at hc
      rcases hc with hc | hc
      · exact Or.inr (Or.inl hc)
      · exact Or.inr (Or.inr (Or.inl hc))
    · have hmem : e.tx ∈ (p.mem.filter (fun e => !shouldEvict R e.tx b)).map (·.tx) :=
        List.mem_map.2 ⟨e, List.mem_filter.2 ⟨he, by simpa using hc⟩, rfl⟩
      rcases g1.2.2 e.tx hmem with h | ⟨pre, post, h, hn⟩
      · exact Or.inl h
      · exact Or.inr (Or.inr (Or.inr ⟨pre, post, h, by simpa using hn⟩))

/-- **C40, relay.**  What is handed out for the stem is the merger of a non-empty selection of the
transactions waiting for it, jointly valid with the merged public pool. -/
theorem stem_offer {S : Type} (R : PoolRules S) (p p' : Pools) (s : S) (t : Tx)
    (h : toStem R p s = .ok (p', some t)) :
    ∃ valid extra, valid ≠ [] ∧ valid.Sublist (byStatus p.stem .toStem) ∧ R.agg valid = .ok t ∧
      poolAggregate R p.mem = .ok extra ∧ p'.mem = p.mem ∧
      ∀ pre x, valid = pre ++ [x] → Joint R s (pre ++ extra.toList ++ [x]) := by
  unfold toStem at h
  dsimp only at h
  split at h
  · simp at h
  · obtain ⟨extra, he, h⟩ := Res.bind_eq_ok.1 h
    obtain ⟨valid, hv, h⟩ := Res.bind_eq_ok.1 h
    split at h
    · simp [Pure.pure] at h
    · rename_i hne
      obtain ⟨a, ha, h⟩ := Res.bind_eq_ok.1 h
      simp only [Res.pure_eq, Res.ok.injEq, Prod.mk.injEq, Option.some.injEq] at h
      obtain ⟨rfl, rfl⟩ := h
      have g := selection_joint R s _ _ _ hv
      exact ⟨valid, extra, hne, g.1, ha, he, rfl, fun pre x hx => g.2.1 pre x [] hx⟩

/-- **C40, relay.**  The same for what is broadcast; it joins the public pool. -/
theorem fluff_offer {S : Type} (R : PoolRules S) (p p' : Pools) (s : S) (t : Tx)
    (h : toFluff R p s = .ok (p', some t)) :
    ∃ valid extra, valid ≠ [] ∧ valid.Sublist (byStatus p.stem .toFluff) ∧ R.agg valid = .ok t ∧
      poolAggregate R p.mem = .ok extra ∧ p'.mem.map (·.tx) = p.mem.map (·.tx) ++ [t] ∧
      ∀ pre x, valid = pre ++ [x] → Joint R s (pre ++ extra.toList ++ [x]) := by
  unfold toFluff at h
  dsimp only at h
  split at h
  · simp at h
  · obtain ⟨extra, he, h⟩ := Res.bind_eq_ok.1 h
    obtain ⟨valid, hv, h⟩ := Res.bind_eq_ok.1 h
    split at h
    · simp [Pure.pure] at h
    · rename_i hne
      obtain ⟨a, ha, h⟩ := Res.bind_eq_ok.1 h
      simp only [Res.pure_eq, Res.ok.injEq, Prod.mk.injEq, Option.some.injEq] at h
      obtain ⟨rfl, rfl⟩ := h
      have g := selection_joint R s _ _ _ hv
      exact ⟨valid, extra, hne, g.1, ha, he, by simp [poolAdd],
        fun pre x hx => g.2.1 pre x [] hx⟩

/-! ### Under the rules of the node -/

section
variable {G : Type} [AddCommGroup G] [DecidableEq G] (env : Env) (C : Curve G) (H : DigestNum)
  (proofs : List (Bytes × Bytes) → Bool) (sigs : List Kernel → Bool)
  (sum : List Bytes → Res Bytes) (txHash : Tx → Nat) (base : Nat)

private theorem agg_inputs {txs : List Tx} {a : Tx} (h : aggregate H sum txs = .ok a) :
    a.body.inputs.Perm ((txs.flatMap (·.body.inputs)).filter
        (fun i => !((txs.flatMap (·.body.outputs)).map (·.commit)).contains i.commit)) ∨
      txs = [a] := by
  unfold aggregate at h
  split at h
  · cases h
    exact Or.inr rfl
  · obtain ⟨o, _, h⟩ := Res.bind_eq_ok.1 h
    simp only [Res.pure_eq, Res.ok.injEq] at h
    subst h
    exact Or.inl (List.mergeSort_perm _ _)

/-- The features of inputs are determined by their commitments (as for inputs read in protocol
version 3 or later), and no two commitments spent have the same hash. -/
def PlainInputs (H : DigestNum) (f : Bytes → Nat) (is : List TxInput) : Prop :=
  (∀ i ∈ is, i.features = f i.commit) ∧
  (∀ x ∈ is, ∀ y ∈ is, inputHash H x = inputHash H y → x.commit = y.commit)

private theorem agg_sub {txs : List Tx} {a : Tx} (h : aggregate H sum txs = .ok a) :
    ∀ i ∈ a.body.inputs, i ∈ txs.flatMap (·.body.inputs) := by
  rcases agg_inputs H sum h with hp | rfl
  · intro i hi
    exact (List.mem_filter.1 (hp.mem_iff.1 hi)).1
  · intro i hi
    simpa using hi

private theorem agg_count {txs : List Tx} {a : Tx} (h : aggregate H sum txs = .ok a) {i : TxInput}
    (hc : 2 ≤ (txs.flatMap (·.body.inputs)).count i)
    (ho : ∀ t ∈ txs, ∀ o ∈ t.body.outputs, o.commit ≠ i.commit) :
    2 ≤ a.body.inputs.count i := by
  rcases agg_inputs H sum h with hp | rfl
  · rw [hp.count_eq, List.count_filter]
    · exact hc
    · simp only [Bool.not_eq_true', List.contains_eq_mem, decide_eq_false_iff_not, List.mem_map,
        List.mem_flatMap, not_exists, not_and]
      rintro o ⟨t, ht, hot⟩
      exact ho t ht o hot
  · simpa using hc

private theorem twice_invalid {f : Bytes → Nat} {a : Tx} {i : TxInput} {n : Nat}
    (hp : PlainInputs H f a.body.inputs) (hc : 2 ≤ a.body.inputs.count i) :
    validateTx env C H proofs sigs n a ≠ .ok () := by
  intro hv
  have hb := (validator_ok env C H proofs sigs n a hv).2.1
  have hn := ((body_sorted_partial H proofs sigs a.body hb).2.2.2 ⟨f, hp.1⟩ hp.2).2
  have := List.nodup_iff_count_le_one.1 (List.Nodup.of_map _ hn) i
  omega

/-- **C40, mineable.**  What is kept together in the public pool fits into one block: with the node's
rules, a jointly valid list of transactions merges into a body that passes the transaction
validator, weighs at most 40000 with a coinbase output and kernel, and every block of the next
height with that body's inputs, and its outputs and any new ones of different unused commitments,
is applied to the unspent outputs. -/
theorem joint_mineable (Hb : Bytes → Bytes) (hh : Header → Bytes) (db : DB) (t : THS) (st : State)
    (hold : Holds Hb db t st) (txs : List Tx) (f : Bytes → Nat)
    (hp : PlainInputs H f (txs.flatMap (·.body.inputs)))
    (hj : Joint (nodeRules env C H proofs sigs sum txHash base) (db, t) txs) :
    ∃ a, aggregate H sum txs = .ok a ∧
      validateTx env C H proofs sigs (t.header.height + 1) a = .ok () ∧
      (InMemory a.body → 1048320 ≤ t.header.height + 1 →
        a.body.inputs.length + 21 * (a.body.outputs.length + 1) +
          3 * (a.body.kernels.length + 1) ≤ 40000) ∧
      ∀ b : Block, b.header.height = t.header.height + 1 → b.body.inputs = a.body.inputs →
        (b.body.outputs.map (·.commit)).Nodup →
        (∀ o ∈ b.body.outputs, o ∈ a.body.outputs ∨ coin db t o.commit = .ok none) →
        MMR.leafPos (st.leaves.length + b.body.outputs.length) < 2 ^ 64 →
        MMR.leafPos (st.kernels.length + b.body.kernels.length) < 2 ^ 64 →
        ∃ r, applyBlock env Hb hh db t b = .ok (some r) := by
  obtain ⟨a, ha, hc, hu⟩ := hj
  have ha' : aggregate H sum txs = .ok a := ha
  have hc' : validateTx env C H proofs sigs (t.header.height + 1) a = .ok () := hc
  have hu' : isValid env db t a.body = .ok true := hu
  refine ⟨a, ha', hc', ?_, ?_⟩
  · intro hm hv
    exact (transaction_weight env _ _ hm (current_weight_rule env _ hv)).1.1
      (validator_ok env C H proofs sigs _ a hc').1
  · intro b hn hi ho hf hbo hbk
    have hsub := agg_sub H sum ha'
    have hnod := ((body_sorted_partial H proofs sigs a.body
      (validator_ok env C H proofs sigs _ a hc').2.1).2.2.2
      ⟨f, fun i hi => hp.1 i (hsub i hi)⟩
      (fun x hx y hy => hp.2 x (hsub x hx) y (hsub y hy))).2
    rw [apply_accepts_iff env Hb hh db t st b hold hbo hbk]
    have hchk := (pool_check_iff env Hb db t st a.body hold
      (leafPos_bound hbo (by omega))).2.mp hu'
    refine ⟨by rw [hi]; exact hnod, by rw [hi, hn]; exact hchk.1, ho, ?_⟩
    intro x hx
    rcases hf x hx with h | h
    · exact Or.inl (hchk.2 x h)
    · exact Or.inl h

/-- **C40, violated.**  Two transactions spending the same unspent output, each valid by itself and
neither yet in the pool, are both admitted to the public pool, which then is not jointly valid: no
block can hold them both. -/
theorem conflict_admitted_violated (Hb : Bytes → Bytes) (db : DB) (t : THS) (st : State)
    (hold : Holds Hb db t st) (hb : MMR.leafPos st.leaves.length < 2 ^ 64) (t1 t2 : Tx)
    (i : TxInput) (stem : List Entry) (f : Bytes → Nat)
    (h1 : i ∈ t1.body.inputs) (h2 : i ∈ t2.body.inputs) (hne : txHash t1 ≠ txHash t2)
    (hp : PlainInputs H f (t1.body.inputs ++ t2.body.inputs))
    (hv : ∀ x, x = t1 ∨ x = t2 → feeMeetsMinimum env base (t.header.height + 1) x = true ∧
      (∀ k ∈ x.body.kernels, k.lockHeight ≤ t.header.height + 1) ∧
      validateTx env C H proofs sigs (t.header.height + 1) x = .ok () ∧
      isValid env db t x.body = .ok true) :
    ∃ p1 p2, addTx (nodeRules env C H proofs sigs sum txHash base) ⟨[], stem⟩ (some (db, t))
        t.header.height t1 true false = .ok (p1, .added) ∧
      addTx (nodeRules env C H proofs sigs sum txHash base) p1 (some (db, t))
        t.header.height t2 true false = .ok (p2, .added) ∧
      p2.mem.map (·.tx) = [t1, t2] ∧
      ¬ Joint (nodeRules env C H proofs sigs sum txHash base) (db, t) (p2.mem.map (·.tx)) := by
  obtain ⟨f1, l1, c1, u1⟩ := hv t1 (Or.inl rfl)
  obtain ⟨f2, l2, c2, u2⟩ := hv t2 (Or.inr rfl)
  obtain ⟨p1, e1⟩ := (admitted_iff (nodeRules env C H proofs sigs sum txHash base) ⟨[], stem⟩
    (some (db, t)) t.header.height t1 true false).2 ⟨by simp, f1, l1, c1, _, rfl, u1⟩
  have m1 := ((admitted_effect _ _ _ _ _ _ _ _ _ e1).2.1 rfl rfl).1
  simp only [List.nil_append] at m1
  obtain ⟨p2, e2⟩ := (admitted_iff (nodeRules env C H proofs sigs sum txHash base) p1
    (some (db, t)) t.header.height t2 true false).2 ⟨by
      intro _ e he
      rw [m1, List.mem_singleton] at he
      rw [he]
      exact hne, f2, l2, c2, _, rfl, u2⟩
  have m2 := ((admitted_effect _ _ _ _ _ _ _ _ _ e2).2.1 rfl rfl).1
  have m3 : p2.mem.map (·.tx) = [t1, t2] := by rw [m2, m1]; rfl
  refine ⟨p1, p2, e1, e2, m3, ?_⟩
  rw [m3]
  rintro ⟨a, ha, hc, -⟩
  have ha' : aggregate H sum [t1, t2] = .ok a := ha
  have hc' : validateTx env C H proofs sigs (t.header.height + 1) a = .ok () := hc
  have k1 := (pool_check_iff env Hb db t st t1.body hold hb).2.mp u1
  have k2 := (pool_check_iff env Hb db t st t2.body hold hb).2.mp u2
  obtain ⟨k, hk, -⟩ := k1.1 i h1
  have hcount := agg_count H sum ha' (i := i) (by
      simp only [List.flatMap_cons, List.flatMap_nil, List.append_nil, List.count_append]
      have := List.count_pos_iff.2 h1
      have := List.count_pos_iff.2 h2
      omega) (by
    intro x hx o ho he
    have hnone : coin db t o.commit = .ok none := by
      simp only [List.mem_cons, List.not_mem_nil, or_false] at hx
      rcases hx with rfl | rfl
      · exact k1.2 o ho
      · exact k2.2 o ho
    rw [he, hk] at hnone
    simp at hnone)
  have hsub := agg_sub H sum ha'
  simp only [List.flatMap_cons, List.flatMap_nil, List.append_nil] at hsub
  exact twice_invalid env C H proofs sigs (f := f)
    ⟨fun i hi => hp.1 i (hsub i hi), fun x hx y hy => hp.2 x (hsub x hx) y (hsub y hy)⟩ hcount hc'

private theorem findValid_none {S : Type} (R : PoolRules S) (s : S) (extra : Option Tx) :
    ∀ ts : List Tx, (∀ t ∈ ts, ¬ Joint R s (extra.toList ++ [t])) → ∀ out,
      findValidLoop R s extra ts [] = .ok out → out = []
  | [], _, out, h => by
    simp only [findValidLoop, Res.ok.injEq] at h
    exact h.symm
  | t :: ts, hj, out, h => by
    unfold findValidLoop at h
    obtain ⟨a, ha, h⟩ := Res.bind_eq_ok.1 h
    obtain ⟨v, hv, h⟩ := Res.bind_eq_ok.1 h
    cases v with
    | true =>
      exact absurd ⟨a, by simpa using ha, (isValidTx_iff R s a).1 hv⟩ (hj t List.mem_cons_self)
    | false =>
      exact findValid_none R s extra ts (fun t ht => hj t (List.mem_cons_of_mem _ ht)) out h

/-- **C40, violated: relay stops.**  While two transactions of the public pool spend the same input, and
nothing creates it, no transaction at all leaves the stem pool by the stem or by a broadcast run:
the selection always includes the merged public pool, which is invalid. -/
theorem conflict_stops_relay_violated (db : DB) (t : THS) (p : Pools) (i : TxInput) (f : Bytes → Nat)
    (hc : 2 ≤ ((p.mem.map (·.tx)).flatMap (·.body.inputs)).count i)
    (ho : ∀ e, e ∈ p.mem ∨ e ∈ p.stem → ∀ o ∈ e.tx.body.outputs, o.commit ≠ i.commit)
    (hp : PlainInputs H f (((p.mem ++ p.stem).map (·.tx)).flatMap (·.body.inputs))) :
    (∀ r, toStem (nodeRules env C H proofs sigs sum txHash base) p (db, t) = .ok r →
      r = (p, none)) ∧
    (∀ r, toFluff (nodeRules env C H proofs sigs sum txHash base) p (db, t) = .ok r →
      r = (p, none)) := by
  have hne : p.mem ≠ [] := by
    intro h
    rw [h] at hc
    simp at hc
  have key : ∀ extra txs out,
      poolAggregate (nodeRules env C H proofs sigs sum txHash base) p.mem = .ok extra →
      (∀ x ∈ txs, x ∈ p.stem.map (·.tx)) →
      findValid (nodeRules env C H proofs sigs sum txHash base) (db, t) txs extra = .ok out →
      out = [] := by
    intro extra txs out he htx hf
    unfold poolAggregate at he
    rw [if_neg hne] at he
    obtain ⟨a, ha, he⟩ := Res.bind_eq_ok.1 he
    simp only [Res.pure_eq, Res.ok.injEq] at he
    subst he
    have ha' : aggregate H sum (p.mem.map (·.tx)) = .ok a := ha
    have ca := agg_count H sum ha' hc (by
      intro x hx o hox
      obtain ⟨e, he, rfl⟩ := List.mem_map.1 hx
      exact ho e (Or.inl he) o hox)
    refine findValid_none _ _ _ txs ?_ out hf
    rintro x hx ⟨y, hy, hyc, -⟩
    have hy' : aggregate H sum [a, x] = .ok y := hy
    obtain ⟨e, he, rfl⟩ := List.mem_map.1 (htx x hx)
    have asub := agg_sub H sum ha'
    have aout : ∀ o ∈ a.body.outputs, o.commit ≠ i.commit := by
      intro o hoa
      have : o ∈ (p.mem.map (·.tx)).flatMap (·.body.outputs) := by
        unfold aggregate at ha'
        split at ha'
        · rename_i hs
          cases ha'
          rw [hs]
          simpa using hoa
        · obtain ⟨q, _, ha'⟩ := Res.bind_eq_ok.1 ha'
          simp only [Res.pure_eq, Res.ok.injEq] at ha'
          subst ha'
          exact (List.mem_filter.1 ((List.mergeSort_perm _ _).mem_iff.1 hoa)).1
      obtain ⟨x, hx, hox⟩ := List.mem_flatMap.1 this
      obtain ⟨e, he, rfl⟩ := List.mem_map.1 hx
      exact ho e (Or.inl he) o hox
    have cy := agg_count H sum hy' (i := i) (by
      simp only [List.flatMap_cons, List.flatMap_nil, List.append_nil, List.count_append]
      omega) (by
      intro x hx o hox
      simp only [List.mem_cons, List.not_mem_nil, or_false] at hx
      rcases hx with rfl | rfl
      · exact aout o hox
      · exact ho e (Or.inr he) o hox)
    have ysub : ∀ i ∈ y.body.inputs, i ∈ ((p.mem ++ p.stem).map (·.tx)).flatMap (·.body.inputs) := by
      intro j hj
      have := agg_sub H sum hy' j hj
      simp only [List.flatMap_cons, List.flatMap_nil, List.append_nil, List.mem_append] at this
      rw [List.map_append, List.flatMap_append, List.mem_append]
      rcases this with h | h
      · exact Or.inl (asub j h)
      · exact Or.inr (List.mem_flatMap.2 ⟨e.tx, List.mem_map.2 ⟨e, he, rfl⟩, h⟩)
    exact twice_invalid env C H proofs sigs (f := f)
      ⟨fun i hi => hp.1 i (ysub i hi), fun x hx z hz => hp.2 x (ysub x hx) z (ysub z hz)⟩ cy hyc
  have hby : ∀ st, ∀ x ∈ byStatus p.stem st, x ∈ p.stem.map (·.tx) := by
    intro st x hx
    obtain ⟨e, he, rfl⟩ := List.mem_map.1 hx
    exact List.mem_map.2 ⟨e, (List.mem_filter.1 he).1, rfl⟩
  constructor
  · intro r hr
    unfold toStem at hr
    dsimp only at hr
    split at hr
    · cases hr; rfl
    · obtain ⟨extra, he, hr⟩ := Res.bind_eq_ok.1 hr
      obtain ⟨valid, hv, hr⟩ := Res.bind_eq_ok.1 hr
      rw [if_pos (key _ _ _ he (hby _) hv)] at hr
      cases hr; rfl
  · intro r hr
    unfold toFluff at hr
    dsimp only at hr
    split at hr
    · cases hr; rfl
    · obtain ⟨extra, he, hr⟩ := Res.bind_eq_ok.1 hr
      obtain ⟨valid, hv, hr⟩ := Res.bind_eq_ok.1 hr
      rw [if_pos (key _ _ _ he (hby _) hv)] at hr
      cases hr; rfl

end

/-! ### Two transactions spending the genesis output -/

private def exNodeRules : PoolRules (DB × THS) :=
  nodeRules .testing toyCurve (fun bs => beVal bs) (fun _ => true) (fun _ => true)
    (fun l => .ok (l.headD [])) (fun t => beVal (t.body.outputs.flatMap (·.commit))) 1

private def exSpend (b : Int) : Tx :=
  ⟨[0], ⟨[⟨1, gOut.commit⟩], [⟨0, toyCurve.ser (REWARD - 10 + b * 1000003), [5]⟩],
    [⟨0, ⟨0, 10⟩, 0, toyCurve.ser ((b - 7) * 1000003), [9]⟩]⟩⟩

/-- Both are admitted, one after the other. -/
example : (match gNode with
    | .ok n => (match addTx exNodeRules ⟨[], []⟩ (some (n.db, n.t)) 0 (exSpend 8) true false with
      | .ok (p1, .added) =>
        (match addTx exNodeRules p1 (some (n.db, n.t)) 0 (exSpend 9) true false with
        | .ok (p2, .added) => decide (p2.mem.map (·.tx) = [exSpend 8, exSpend 9])
        | _ => false)
      | _ => false)
    | _ => false) = true := by decide +kernel

/-- The rules do refuse: a transaction already there, and one whose sums do not balance. -/
example : (match gNode with
    | .ok n => (match addTx exNodeRules ⟨[⟨exSpend 8, .fluffed, 0⟩], []⟩ (some (n.db, n.t)) 0
          (exSpend 8) true false, addTx exNodeRules ⟨[], []⟩ (some (n.db, n.t)) 0
          { exSpend 8 with offset := [1] } true false with
      | .ok (_, .dupl), .ok (_, .invalid) => true
      | _, _ => false)
    | _ => false) = true := by decide +kernel

/-- Rules under which at most two transactions are jointly valid, for an example. -/
private def exTwo : PoolRules Unit :=
  ⟨fun t => beVal t.offset, fun k => beVal k.excess, fun l => .ok ⟨[UInt8.ofNat l.length], ⟨[], [], []⟩⟩,
    fun _ t => if beVal t.offset ≤ 2 then .ok () else .throw, fun _ _ => .ok true, fun _ => 0,
    fun _ _ => true⟩
private def emptyHeader : Header :=
  ⟨1, 0, 0, [], [], [], [], [], [], 0, 0, 0, 0, 0, ⟨29, [], []⟩⟩
private def exTx (n : Nat) : Tx := ⟨[UInt8.ofNat n], ⟨[⟨0, [UInt8.ofNat n]⟩], [], []⟩⟩

/-- A block spends the input of the first transaction; of the other three, two fit together.  The stem
pool is checked against the merged public pool. -/
example : (match reconcile exTwo ⟨[1, 2, 3, 4].map (fun n => ⟨exTx n, .fluffed, 0⟩),
      [⟨exTx 5, .toStem, 0⟩]⟩ () ⟨emptyHeader, ⟨[⟨0, [1]⟩], [], []⟩⟩ with
    | .ok p => decide (p.mem.map (·.tx) = [exTx 2, exTx 3] ∧ p.stem.map (·.tx) = [exTx 5])
    | _ => false) = true := by decide +kernel

/-- With one public transaction, one of two waiting for the stem is handed out. -/
example : (match toStem exTwo ⟨[⟨exTx 1, .fluffed, 0⟩], [⟨exTx 5, .toStem, 0⟩, ⟨exTx 6, .toStem, 0⟩]⟩ ()
      with
    | .ok (p, some t) => decide (t.offset = [1] ∧ byStatus p.stem .toStem = [exTx 6] ∧
        byStatus p.stem .stemmed = [exTx 5])
    | _ => false) = true := by decide +kernel

end Verif.Props
