import Verif.Tx.PoolChain
import Verif.Props.Pool

/-!
# C143: a payment that waits in the pool stays until it is on the chain or can no longer be
-/
namespace Verif.Props
open Verif Verif.BC Verif.Tx

variable {S : Type}

/-! ## Spec -/

/-- The block spends an input of the transaction or has one of its kernels. -/
def Touches (Q : PoolRules S) (tx : Tx) (b : Block) : Prop :=
  (∃ i ∈ tx.body.inputs, i ∈ b.body.inputs) ∨ (∃ k ∈ tx.body.kernels, ∃ x ∈ b.body.kernels, Q.kernelHash x = Q.kernelHash k)

/-- The transaction is in the public pool. -/
def Waits (p : Pools) (tx : Tx) : Prop := tx ∈ p.mem.map (·.tx)

/-- What happens to a node: a block arrives, a transaction is submitted to one of the pools, a transaction is taken for the stem or for everyone. -/
inductive PoolEvent where
  | block (b : Block)
  | submit (tx : Tx) (toMem stemIt : Bool)
  | stem
  | fluff

/-- A run in which every block that arrives is the next one of the chain and is accepted; the transactions that come in are of `U`. -/
inductive PoolRun (R : Rules S) (Q : PoolRules S) (U : Tx → Prop) (fuel : Nat) :
    World S × Pools → List PoolEvent → World S × Pools → Prop
  | nil (c) : PoolRun R Q U fuel c [] c
  | block {w p b w' p' es c} : w.confirmed.getLast? = some b.header.prevHash →
      takeInternal R Q fuel w p b = ((w', p'), .ok .success) → PoolRun R Q U fuel (w', p') es c →
      PoolRun R Q U fuel (w, p) (.block b :: es) c
  | submit {w p tx toMem stemIt tip st p' es c} : U tx → addTx Q p (some w.ledger) tip tx toMem stemIt = .ok (p', st) →
      PoolRun R Q U fuel (w, p') es c → PoolRun R Q U fuel (w, p) (.submit tx toMem stemIt :: es) c
  | stem {w p p' t es c} : toStem Q p w.ledger = .ok (p', t) → PoolRun R Q U fuel (w, p') es c →
      PoolRun R Q U fuel (w, p) (.stem :: es) c
  | fluff {w p p' t es c} : toFluff Q p w.ledger = .ok (p', t) → (∀ x ∈ t, U x) → PoolRun R Q U fuel (w, p') es c →
      PoolRun R Q U fuel (w, p) (.fluff :: es) c

/-- The blocks of a run. -/
def blocksOf : List PoolEvent → List Block
  | [] => []
  | .block b :: es => b :: blocksOf es
  | _ :: es => blocksOf es

/-! ## The pool beside the chain -/

private theorem settle_reconcile {Q : PoolRules S} {p : Pools} {s : S} {b : Block} :
    (settle Q p s b).2 = .ok () → reconcile Q p s b = .ok (settle Q p s b).1 := by
  unfold settle reconcile
  cases poolReconcile Q p.mem s b none with
  | throw => intro h; cases h
  | ub => intro h; cases h
  | ok mem =>
    simp only [Res.ok_bind]
    cases poolAggregate Q mem with
    | throw => intro h; cases h
    | ub => intro h; cases h
    | ok extra =>
      simp only [Res.ok_bind]
      cases poolReconcile Q p.stem s b extra with
      | throw => intro h; cases h
      | ub => intro h; cases h
      | ok stem => intro _; rfl

private theorem reconcile_sub {Q : PoolRules S} {l l' : List Entry} {s : S} {b : Block} {extra : Option Tx}
    (h : poolReconcile Q l s b extra = .ok l') : ∀ e ∈ l', e ∈ l := by
  unfold poolReconcile at h
  obtain ⟨v, _, h⟩ := Res.bind_eq_ok.1 h
  simp only [Res.pure_eq, Res.ok.injEq] at h
  subst h
  intro e he
  obtain ⟨t, _, ht⟩ := List.mem_filterMap.1 he
  exact (List.mem_filter.1 (List.mem_of_find?_eq_some ht)).1

private theorem settle_sub (Q : PoolRules S) (p : Pools) (s : S) (b : Block) :
    (∀ e ∈ (settle Q p s b).1.mem, e ∈ p.mem) ∧ (∀ e ∈ (settle Q p s b).1.stem, e ∈ p.stem) := by
  unfold settle
  cases h1 : poolReconcile Q p.mem s b none with
  | throw => exact ⟨by simp, fun _ h => h⟩
  | ub => exact ⟨by simp, fun _ h => h⟩
  | ok mem =>
    have g1 := reconcile_sub h1
    dsimp only
    cases poolAggregate Q mem with
    | throw => exact ⟨g1, fun _ h => h⟩
    | ub => exact ⟨g1, fun _ h => h⟩
    | ok extra =>
      dsimp only
      cases h2 : poolReconcile Q p.stem s b extra with
      | throw => exact ⟨g1, by simp⟩
      | ub => exact ⟨g1, by simp⟩
      | ok stem => exact ⟨g1, reconcile_sub h2⟩

/-- The pools only lose entries. -/
private def Sub (p p' : Pools) : Prop := (∀ e ∈ p'.mem, e ∈ p.mem) ∧ (∀ e ∈ p'.stem, e ∈ p.stem)

private theorem Sub.refl (p : Pools) : Sub p p := ⟨fun _ h => h, fun _ h => h⟩
private theorem Sub.trans {p q r : Pools} (h : Sub p q) (g : Sub q r) : Sub p r :=
  ⟨fun e he => h.1 e (g.1 e he), fun e he => h.2 e (g.2 e he)⟩

private theorem takeBlock_sub (R : Rules S) (Q : PoolRules S) (w : World S) (p : Pools) (b : Block) :
    Sub p (takeBlock R Q w p b).1.2 := by
  unfold takeBlock
  split
  · exact Sub.refl p
  · exact Sub.refl p
  · exact settle_sub Q p _ b

private theorem takeBlocks_sub (R : Rules S) (Q : PoolRules S) : ∀ (bs : List Block) (w : World S) (p : Pools),
    Sub p (takeBlocks R Q w p bs).1.2
  | [], _, p => Sub.refl p
  | b :: bs, w, p => by
    unfold takeBlocks
    have h := takeBlock_sub R Q w p b
    split
    · rename_i w' p' he
      rw [he] at h
      exact h.trans (takeBlocks_sub R Q bs w' p')
    · exact h

private theorem takeFork_sub (R : Rules S) (Q : PoolRules S) (w : World S) (p : Pools) (bs : List Block) :
    Sub p (takeFork R Q w p bs).1.2 := by
  unfold takeFork
  split
  · split
    · exact Sub.refl p
    · split
      · exact Sub.refl p
      · exact Sub.refl p
      · rename_i s _
        have h := fun bs => takeBlocks_sub R Q bs { w with ledger := s } p
        split
        · rename_i he; have e := congrArg (fun r => r.1.2) he; dsimp only at e ⊢; rw [← e]; exact h _
        · rename_i he; have e := congrArg (fun r => r.1.2) he; dsimp only at e ⊢; rw [← e]; exact h _
        · rename_i he
          have e := congrArg (fun r => r.1.2) he
          dsimp only at e
          split
          · split
            · dsimp only; rw [← e]; exact h _
            · split <;> (dsimp only; rw [← e]; exact h _)
          · dsimp only; rw [← e]; exact h _
  · exact Sub.refl p

/-- **C143, violated.**  Whatever block arrives, and whatever becomes of it, every transaction in the pools afterwards was there before: the
transactions of blocks that are undone for a heavier chain are not put back. -/
theorem undone_not_returned_violated (R : Rules S) (Q : PoolRules S) (fuel : Nat) (w : World S) (p : Pools) (b : Block) :
    (∀ e ∈ (takeInternal R Q fuel w p b).1.2.mem, e ∈ p.mem) ∧ (∀ e ∈ (takeInternal R Q fuel w p b).1.2.stem, e ∈ p.stem) := by
  show Sub p _
  unfold takeInternal
  split
  · exact Sub.refl p
  split
  · exact Sub.refl p
  split
  · exact Sub.refl p
  · exact Sub.refl p
  · split <;> exact Sub.refl p
  · rename_i bs _
    have h := takeFork_sub R Q w p bs
    split <;> (rename_i he; rw [he] at h; exact h)
  · have h := takeBlock_sub R Q w p b
    split
    · rename_i he; rw [he] at h; exact h
    · rename_i he; rw [he] at h; exact h
    · rename_i he
      rw [he] at h
      split <;> exact h

/-! ## The chain does not depend on the pool -/

private theorem takeBlock_world {R : Rules S} {Q : PoolRules S} (hQ : ∀ p s b, (settle Q p s b).2 = .ok ()) (w : World S) (p : Pools) (b : Block) :
    ((takeBlock R Q w p b).1.1, (takeBlock R Q w p b).2) = w.applyBlock R b := by
  unfold takeBlock
  split <;> rename_i he
  · exact he.symm
  · exact he.symm
  · rw [hQ]; exact he.symm

private theorem takeBlocks_world {R : Rules S} {Q : PoolRules S} (hQ : ∀ p s b, (settle Q p s b).2 = .ok ()) :
    ∀ (bs : List Block) (w : World S) (p : Pools),
    ((takeBlocks R Q w p bs).1.1, (takeBlocks R Q w p bs).2) = World.applyBlocks R w bs
  | [], _, _ => rfl
  | b :: bs, w, p => by
    have h := takeBlock_world (R := R) hQ w p b
    unfold takeBlocks World.applyBlocks
    rw [← h]
    rcases he : takeBlock R Q w p b with ⟨⟨w', p'⟩, r⟩
    cases r with
    | ok u => exact takeBlocks_world hQ bs w' p'
    | throw => rfl
    | ub => rfl

private theorem takeFork_world {R : Rules S} {Q : PoolRules S} (hQ : ∀ p s b, (settle Q p s b).2 = .ok ()) (w : World S) (p : Pools) (bs : List Block) :
    ((takeFork R Q w p bs).1.1, (takeFork R Q w p bs).2) = w.handleReorg R bs := by
  unfold takeFork World.handleReorg
  rcases bs with _ | ⟨b0, bs⟩
  · rfl
  · rcases hl : (b0 :: bs).getLast? with _ | last
    · rfl
    · dsimp only
      cases w.headers b0.header.prevHash with
      | none => rfl
      | some common =>
        dsimp only
        cases R.rewind w.ledger common with
        | throw => rfl
        | ub => rfl
        | ok s =>
          dsimp only
          have h := takeBlocks_world (R := R) hQ (b0 :: bs) { w with ledger := s } p
          rw [← h]
          rcases takeBlocks R Q { w with ledger := s } p (b0 :: bs) with ⟨⟨w', p'⟩, r⟩
          cases r with
          | throw => rfl
          | ub => rfl
          | ok u =>
            dsimp only
            split
            · split
              · rfl
              · cases World.extend { w' with confirmed := w'.confirmed.take b0.header.height } (b0 :: bs) <;> rfl
            · rfl

/-- **C143, the chain.**  As long as the pool raises no error, blocks are accepted and the chain, the database and the unspent outputs change as
if there were no pool. -/
theorem chain_ignores_pool (R : Rules S) (Q : PoolRules S) (hQ : ∀ p s b, (settle Q p s b).2 = .ok ()) (fuel : Nat) (w : World S) (p : Pools)
    (b : Block) : ((takeInternal R Q fuel w p b).1.1, (takeInternal R Q fuel w p b).2) = w.processInternal R fuel b := by
  unfold takeInternal World.processInternal
  split
  · rfl
  split
  · rfl
  cases w.status fuel b with
  | throw => rfl
  | ub => rfl
  | ok st =>
    cases st with
    | orphan => dsimp only; split <;> rfl
    | reorg bs =>
      dsimp only
      have h := takeFork_world (R := R) hQ w p bs
      rw [← h]
      rcases takeFork R Q w p bs with ⟨⟨w', p'⟩, r⟩
      cases r <;> rfl
    | next =>
      dsimp only
      have h := takeBlock_world (R := R) hQ w p b
      rw [← h]
      rcases takeBlock R Q w p b with ⟨⟨w', p'⟩, r⟩
      cases r with
      | throw => rfl
      | ub => rfl
      | ok u => dsimp only; cases World.extend w' [b] <;> rfl

/-! ## Blocks that extend the chain -/

private theorem next_pool {R : Rules S} {Q : PoolRules S} {fuel : Nat} {w w' : World S} {p p' : Pools} {b : Block}
    (hn : w.confirmed.getLast? = some b.header.prevHash) (h : takeInternal R Q fuel w p b = ((w', p'), .ok .success)) :
    w'.confirmed = w.confirmed ++ [hashOf b.header] ∧ R.apply w.ledger b = .ok w'.ledger ∧ reconcile Q p w'.ledger b = .ok p' := by
  unfold takeInternal at h
  split at h
  · simp at h
  split at h
  · simp at h
  unfold World.status at h
  cases hh : w.headers (hashOf b.header) with
  | none => simp only [hh] at h; split at h <;> simp at h
  | some x =>
    simp only [hh, hn, if_true] at h
    unfold takeBlock World.applyBlock at h
    cases hp : w.headers b.header.prevHash with
    | none => simp [hp] at h
    | some y =>
      cases ha : R.apply w.ledger b with
      | throw => simp [hp, ha] at h
      | ub => simp [hp, ha] at h
      | ok s =>
        simp only [hp, ha] at h
        have e1 : ((({ w with ledger := s } : World S).addBlock b).removeOrphan b.header.height (hashOf b.header)).ledger = s := rfl
        rw [e1] at h
        have hr := settle_reconcile (Q := Q) (p := p) (s := s) (b := b)
        rcases hs : settle Q p s b with ⟨q, r⟩
        rw [hs] at h hr
        cases r with
        | throw => simp at h
        | ub => simp at h
        | ok u =>
          have hr := hr rfl
          dsimp only at h hr
          unfold World.extend at h
          split at h
          · rename_i he
            split at he
            · cases he
            · simp only [World.extend, Res.ok.injEq] at he
              subst he
              simp only [Prod.mk.injEq, and_true] at h
              obtain ⟨rfl, rfl⟩ := h
              exact ⟨rfl, rfl, hr⟩
          · simp at h
          · simp at h

/-- **C143, a block that is known or kept for later.**  The pools are as before. -/
theorem unused_block_keeps_pool (R : Rules S) (Q : PoolRules S) (fuel : Nat) (w w' : World S) (p p' : Pools) (b : Block) (st : Status)
    (hst : st ≠ .success) (h : takeInternal R Q fuel w p b = ((w', p'), .ok st)) : p' = p := by
  unfold takeInternal at h
  split at h
  · simp at h; exact h.1.2.symm
  split at h
  · simp at h; exact h.1.2.symm
  split at h
  · simp at h
  · simp at h
  · split at h <;> (simp at h; exact h.1.2.symm)
  · split at h <;> simp at h
    exact absurd h.2.symm hst
  · split at h
    · simp at h
    · simp at h
    · split at h <;> simp at h
      exact absurd h.2.symm hst

/-- **C143, a block that is refused.**  A next block that does not fit the unspent outputs leaves the pools as before, and the chain. -/
theorem refused_block_keeps_pool (R : Rules S) (Q : PoolRules S) (fuel : Nat) (w w' : World S) (p p' : Pools) (b : Block)
    (hn : w.confirmed.getLast? = some b.header.prevHash) (ha : R.apply w.ledger b = .throw)
    (h : takeInternal R Q fuel w p b = ((w', p'), .throw)) : p' = p ∧ w'.confirmed = w.confirmed ∧ w'.ledger = w.ledger := by
  unfold takeInternal at h
  split at h
  · simp at h
  split at h
  · simp at h
  unfold World.status at h
  cases hh : w.headers (hashOf b.header) with
  | none => simp only [hh] at h; split at h <;> simp at h
  | some x =>
    simp only [hh, hn, if_true] at h
    unfold takeBlock World.applyBlock at h
    cases hp : w.headers b.header.prevHash <;> simp [hp, ha, World.restore] at h <;> obtain ⟨rfl, rfl⟩ := h <;> exact ⟨rfl, rfl, rfl⟩

private theorem add_keeps {Q : PoolRules S} {p p' : Pools} {s : Option S} {tip : Nat} {tx : Tx} {toMem stemIt : Bool} {st : AddStatus}
    (h : addTx Q p s tip tx toMem stemIt = .ok (p', st)) : p'.mem = p.mem ∨ p'.mem = p.mem ++ [⟨tx, .fluffed, 0⟩] := by
  unfold addTx at h
  dsimp only at h
  split at h
  · cases h; exact .inl rfl
  split at h
  · cases h; exact .inl rfl
  split at h
  · cases h; exact .inl rfl
  split at h
  · cases h; exact .inl rfl
  · cases h
  · split at h
    · cases h; exact .inl rfl
    · obtain ⟨v, _, h⟩ := Res.bind_eq_ok.1 h
      split at h
      · cases h; exact .inl rfl
      split at h
      · cases h; exact .inr rfl
      · cases h; exact .inl rfl

private theorem stem_keeps {Q : PoolRules S} {p p' : Pools} {s : S} {t : Option Tx} (h : toStem Q p s = .ok (p', t)) : p'.mem = p.mem := by
  unfold toStem at h
  dsimp only at h
  split at h
  · cases h; rfl
  obtain ⟨extra, _, h⟩ := Res.bind_eq_ok.1 h
  obtain ⟨valid, _, h⟩ := Res.bind_eq_ok.1 h
  split at h
  · cases h; rfl
  obtain ⟨a, _, h⟩ := Res.bind_eq_ok.1 h
  cases h
  rfl

private theorem fluff_keeps {Q : PoolRules S} {p p' : Pools} {s : S} {t : Option Tx} (h : toFluff Q p s = .ok (p', t)) :
    p'.mem = p.mem ∨ ∃ x ∈ t, p'.mem = p.mem ++ [⟨x, .fluffed, 0⟩] := by
  unfold toFluff at h
  dsimp only at h
  split at h
  · cases h; exact .inl rfl
  obtain ⟨extra, _, h⟩ := Res.bind_eq_ok.1 h
  obtain ⟨valid, _, h⟩ := Res.bind_eq_ok.1 h
  split at h
  · cases h; exact .inl rfl
  obtain ⟨a, _, h⟩ := Res.bind_eq_ok.1 h
  cases h
  exact .inr ⟨a, rfl, rfl⟩

private theorem settled {Q : PoolRules S} {p p' : Pools} {s : S} {b : Block}
    (hm : ∀ e ∈ p.mem, ∀ e' ∈ p.mem, Q.hash e.tx = Q.hash e'.tx → e.tx = e'.tx) (h : reconcile Q p s b = .ok p') {tx : Tx} (ht : Waits p tx) :
    Waits p' tx ∨ Touches Q tx b ∨ ∃ others, (∀ t ∈ others, Waits p' t) ∧ ¬ Joint Q s (others ++ [tx]) := by
  have h' : reconcile Q ⟨p.mem, []⟩ s b = .ok ⟨p'.mem, []⟩ := by
    unfold reconcile at h ⊢
    obtain ⟨mem, h1, h⟩ := Res.bind_eq_ok.1 h
    obtain ⟨extra, h2, h⟩ := Res.bind_eq_ok.1 h
    obtain ⟨stem, h3, h⟩ := Res.bind_eq_ok.1 h
    cases h
    simp only [h1, h2, Res.ok_bind]
    rfl
  obtain ⟨e, he, rfl⟩ := List.mem_map.1 ht
  rcases (reconciled_joint_partial Q ⟨p.mem, []⟩ _ s b hm (by simp) h').2.2.2 e he with h | h | h | ⟨pre, post, h, hn⟩
  · exact .inl h
  · exact .inr (.inl (.inl h))
  · exact .inr (.inl (.inr h))
  · exact .inr (.inr ⟨pre, fun t ht => by show t ∈ p'.mem.map (·.tx); rw [h]; simp [ht], hn⟩)

/-- **C143 (partial).**  While the blocks that arrive are the next ones of the chain and are accepted, whatever else is submitted or relayed, the
confirmed chain grows by exactly these blocks; and a transaction in the public pool stays there unless, when one of these blocks was taken in, that
block spent one of its inputs or had one of its kernels, or the transaction was no longer valid on the unspent outputs after that block, together
with others that stayed.  `U` is a set of transactions without two of the same hash.  Missing: blocks of another branch, see
`losing_fork_drops_violated`, `failing_fork_drops_violated` and `undone_not_returned_violated`. -/
theorem waiting_until_settled_partial (R : Rules S) (Q : PoolRules S) (U : Tx → Prop) (fuel : Nat)
    (hU : ∀ t t', U t → U t' → Q.hash t = Q.hash t' → t = t') {c c' : World S × Pools} {es : List PoolEvent}
    (h : PoolRun R Q U fuel c es c') (hp : ∀ e ∈ c.2.mem, U e.tx) :
    c'.1.confirmed = c.1.confirmed ++ (blocksOf es).map (fun b => hashOf b.header) ∧
    ∀ tx, Waits c.2 tx → Waits c'.2 tx ∨ ∃ pre b post c1, es = pre ++ .block b :: post ∧ PoolRun R Q U fuel c (pre ++ [.block b]) c1 ∧
      (Touches Q tx b ∨ ∃ others, (∀ t ∈ others, Waits c1.2 t) ∧ ¬ Joint Q c1.1.ledger (others ++ [tx])) := by
  induction h with
  | nil c => exact ⟨by simp [blocksOf], fun tx h => .inl h⟩
  | @block w p b w' p' es c hn ht hf ih =>
    obtain ⟨h1, h2, h3⟩ := next_pool hn ht
    have hp' : ∀ e ∈ p'.mem, U e.tx := by
      intro e he
      have := (undone_not_returned_violated R Q fuel w p b).1 e (by rw [ht]; exact he)
      exact hp e this
    obtain ⟨i1, i2⟩ := ih hp'
    refine ⟨by rw [i1, h1]; simp [blocksOf], fun tx hw => ?_⟩
    rcases settled (fun e he e' he' => hU _ _ (hp e he) (hp e' he')) h3 hw with g | g
    · rcases i2 tx g with g | ⟨pre, b', post, c1, e, f, g⟩
      · exact .inl g
      · exact .inr ⟨.block b :: pre, b', post, c1, by rw [e]; rfl, .block hn ht f, g⟩
    · exact .inr ⟨[], b, es, (w', p'), rfl, .block hn ht (.nil _), g⟩
  | @submit w p tx toMem stemIt tip st p' es c hu ha hf ih =>
    have hk := add_keeps ha
    have hsub : ∀ t, Waits p t → Waits p' t := by
      intro t ht
      unfold Waits at ht ⊢
      rcases hk with hk | hk <;> rw [hk]
      · exact ht
      · rw [List.map_append]; exact List.mem_append_left _ ht
    have hp' : ∀ e ∈ p'.mem, U e.tx := by
      intro e he
      rcases hk with hk | hk <;> rw [hk] at he
      · exact hp e he
      · rcases List.mem_append.1 he with he | he
        · exact hp e he
        · rw [List.mem_singleton.1 he]; exact hu
    obtain ⟨i1, i2⟩ := ih hp'
    refine ⟨i1, fun t hw => ?_⟩
    rcases i2 t (hsub t hw) with g | ⟨pre, b', post, c1, e, f, g⟩
    · exact .inl g
    · exact .inr ⟨_ :: pre, b', post, c1, by rw [e]; rfl, .submit hu ha f, g⟩
  | @stem w p p' t es c ha hf ih =>
    have hk := stem_keeps ha
    obtain ⟨i1, i2⟩ := ih (by intro e he; exact hp e (hk ▸ he))
    refine ⟨i1, fun t hw => ?_⟩
    rcases i2 t (by unfold Waits; dsimp only; rw [hk]; exact hw) with g | ⟨pre, b', post, c1, e, f, g⟩
    · exact .inl g
    · exact .inr ⟨_ :: pre, b', post, c1, by rw [e]; rfl, .stem ha f, g⟩
  | @fluff w p p' t es c ha hu hf ih =>
    have hk := fluff_keeps ha
    have hsub : ∀ t, Waits p t → Waits p' t := by
      intro t ht
      unfold Waits at ht ⊢
      rcases hk with hk | ⟨x, _, hk⟩ <;> rw [hk]
      · exact ht
      · rw [List.map_append]; exact List.mem_append_left _ ht
    have hp' : ∀ e ∈ p'.mem, U e.tx := by
      intro e he
      rcases hk with hk | ⟨x, hx, hk⟩ <;> rw [hk] at he
      · exact hp e he
      · rcases List.mem_append.1 he with he | he
        · exact hp e he
        · rw [List.mem_singleton.1 he]; exact hu x hx
    obtain ⟨i1, i2⟩ := ih hp'
    refine ⟨i1, fun t hw => ?_⟩
    rcases i2 t (hsub t hw) with g | ⟨pre, b', post, c1, e, f, g⟩
    · exact .inl g
    · exact .inr ⟨_ :: pre, b', post, c1, by rw [e]; rfl, .fluff ha hu f, g⟩

/-! ## Blocks of another branch -/

private theorem settle_untouched {Q : PoolRules S} {p : Pools} {s : S} {b : Block} {e : Entry} (he : e ∈ (settle Q p s b).1.mem) :
    ¬ Touches Q e.tx b := by
  have key : ∀ mem, poolReconcile Q p.mem s b none = .ok mem → e ∈ mem → ¬ Touches Q e.tx b := by
    intro mem h hm
    unfold poolReconcile at h
    obtain ⟨v, _, h⟩ := Res.bind_eq_ok.1 h
    simp only [Res.pure_eq, Res.ok.injEq] at h
    subst h
    obtain ⟨t, _, ht⟩ := List.mem_filterMap.1 hm
    have := (List.mem_filter.1 (List.mem_of_find?_eq_some ht)).2
    unfold shouldEvict at this
    unfold Touches
    simp at this ⊢
    exact this
  unfold settle at he
  cases h : poolReconcile Q p.mem s b none with
  | throw => simp [h] at he
  | ub => simp [h] at he
  | ok mem =>
    refine key mem h ?_
    simp only [h] at he
    split at he
    · exact he
    · exact he
    · split at he <;> exact he

private theorem takeBlocks_untouched {R : Rules S} {Q : PoolRules S} : ∀ {bs : List Block} {w w' : World S} {p p' : Pools},
    takeBlocks R Q w p bs = ((w', p'), .ok ()) → ∀ b ∈ bs, ∀ e ∈ p'.mem, ¬ Touches Q e.tx b
  | [], _, _, _, _, _ => by simp
  | b :: bs, w, w', p, p', h => by
    unfold takeBlocks at h
    rcases ht : takeBlock R Q w p b with ⟨⟨w1, p1⟩, r⟩
    rw [ht] at h
    cases r with
    | throw => simp at h
    | ub => simp at h
    | ok u =>
      dsimp only at h
      have hs := (takeBlocks_sub R Q bs w1 p1).1
      rw [h] at hs
      intro b' hb e he
      rcases List.mem_cons.1 hb with rfl | hb
      · have h1 := hs e he
        unfold takeBlock at ht
        split at ht
        · simp at ht
        · simp at ht
        · simp only [Prod.mk.injEq] at ht
          rw [← ht.1.2] at h1
          exact settle_untouched h1
      · exact takeBlocks_untouched h b' hb e he

private theorem foldl_addBlock_keeps : ∀ (bs : List Block) (w : World S),
    (bs.foldl World.addBlock w).confirmed = w.confirmed ∧ (bs.foldl World.addBlock w).ledger = w.ledger
  | [], _ => ⟨rfl, rfl⟩
  | b :: bs, w => by
    obtain ⟨h1, h2⟩ := foldl_addBlock_keeps bs (w.addBlock b)
    exact ⟨h1, h2⟩

/-- **C143, violated.**  A block of another branch with no more work than the chain leaves the chain and the unspent outputs as they are; but every
waiting transaction that a block of that branch touches is gone from the pool, although none of these blocks is on the chain. -/
theorem losing_fork_drops_violated (R : Rules S) (Q : PoolRules S) (fuel : Nat) (w w' : World S) (p p' : Pools) (b last : Block) (bs : List Block)
    (hs : w.status fuel b = .ok (.reorg bs)) (hl : bs.getLast? = some last) (hw : last.header.totalDifficulty ≤ w.work w.confirmed)
    (h : takeInternal R Q fuel w p b = ((w', p'), .ok .success)) :
    w'.confirmed = w.confirmed ∧ w'.ledger = w.ledger ∧ ∀ x ∈ bs, ∀ tx, Touches Q tx x → ¬ Waits p' tx := by
  unfold takeInternal at h
  split at h
  · simp at h
  split at h
  · simp at h
  rw [hs] at h
  dsimp only at h
  unfold takeFork at h
  rcases bs with _ | ⟨b0, bs⟩
  · simp at hl
  · rw [hl] at h
    dsimp only at h
    cases hh : w.headers b0.header.prevHash with
    | none => simp [hh] at h
    | some common =>
      cases hr : R.rewind w.ledger common with
      | throw => simp [hh, hr] at h
      | ub => simp [hh, hr] at h
      | ok s =>
        simp only [hh, hr] at h
        rcases ht : takeBlocks R Q { w with ledger := s } p (b0 :: bs) with ⟨⟨w1, p1⟩, r⟩
        rw [ht] at h
        cases r with
        | throw => simp at h
        | ub => simp at h
        | ok u =>
          dsimp only at h
          rw [if_neg (by omega)] at h
          simp only [Prod.mk.injEq, and_true] at h
          obtain ⟨rfl, rfl⟩ := h
          obtain ⟨f1, f2⟩ := foldl_addBlock_keeps (b0 :: bs) (w.restore w1)
          refine ⟨f1, f2, fun x hx tx htx hwt => ?_⟩
          obtain ⟨e, he, rfl⟩ := List.mem_map.1 hwt
          exact takeBlocks_untouched ht x hx e he htx

/-- **C143, violated.**  The same when a later block of the branch does not fit: the branch is refused, the chain and the unspent outputs are as
before, and the waiting transactions touched by the blocks before it are gone. -/
theorem failing_fork_drops_violated (R : Rules S) (Q : PoolRules S) (fuel : Nat) (w w1 : World S) (p p1 : Pools) (b bad : Block) (good : List Block)
    (common : Header) (s : S) (hb : w.blocks (hashOf b.header) = none) (hc : onChain w.confirmed b.header.height (hashOf b.header) = false)
    (hs : w.status fuel b = .ok (.reorg (good ++ [bad]))) (hg : good ≠ [])
    (hcm : ∀ x ∈ good.head?, w.headers x.header.prevHash = some common) (hr : R.rewind w.ledger common = .ok s)
    (ht : takeBlocks R Q { w with ledger := s } p good = ((w1, p1), .ok ())) (ha : R.apply w1.ledger bad = .throw) :
    ∃ w' p', takeInternal R Q fuel w p b = ((w', p'), .throw) ∧ w'.confirmed = w.confirmed ∧ w'.ledger = w.ledger ∧
      ∀ x ∈ good, ∀ tx, Touches Q tx x → ¬ Waits p' tx := by
  have happ : ∀ (good : List Block) (w0 : World S) (p0 : Pools), takeBlocks R Q w0 p0 good = ((w1, p1), .ok ()) →
      takeBlocks R Q w0 p0 (good ++ [bad]) = ((w1, p1), .throw) := by
    intro good
    induction good with
    | nil =>
      intro w0 p0 h
      simp only [takeBlocks, Prod.mk.injEq, and_true] at h
      obtain ⟨rfl, rfl⟩ := h
      have : w0.applyBlock R bad = (w0, .throw) := by
        unfold World.applyBlock
        cases w0.headers bad.header.prevHash <;> simp [ha]
      simp [takeBlocks, takeBlock, this]
    | cons x xs ih =>
      intro w0 p0 h
      unfold takeBlocks at h
      rw [List.cons_append]
      unfold takeBlocks
      rcases hx : takeBlock R Q w0 p0 x with ⟨⟨w2, p2⟩, r⟩
      rw [hx] at h
      cases r with
      | throw => simp at h
      | ub => simp at h
      | ok u => exact ih w2 p2 h
  have ht' := happ good _ _ ht
  rcases good with _ | ⟨b0, bs⟩
  · exact absurd rfl hg
  · refine ⟨w.restore w1, p1, ?_, rfl, rfl, fun x hx tx htx hwt => ?_⟩
    · unfold takeInternal
      rw [hc, hb, hs]
      simp only [Bool.false_eq_true, if_false, Option.isSome_none]
      unfold takeFork
      rw [List.cons_append] at ht' ⊢
      have hl : (b0 :: (bs ++ [bad])).getLast? = some bad := by
        rw [← List.cons_append, List.getLast?_append]; simp
      rw [hl]
      simp only [hcm b0 rfl, hr, ht']
    · obtain ⟨e, he, rfl⟩ := List.mem_map.1 hwt
      exact takeBlocks_untouched ht x hx e he htx

/-! ## Cases -/

private def pcHeader (height td : Nat) (prev hash : Bytes) : Header :=
  ⟨1, height, 0, prev, [], [], [], [], [], 0, 0, td, 0, 0, ⟨29, [], hash⟩⟩
private def pcBlock (height td : Nat) (prev hash : Bytes) (ins : List TxInput) : Block := ⟨pcHeader height td prev hash, ⟨ins, [], []⟩⟩

/-- The output set is the list of the blocks after the first; a block fits if none before it spends one of its inputs. -/
private def pcRules : Rules (List Block) :=
  ⟨fun _ _ _ _ => .ok (), fun _ => .ok (), fun s b => if s.any (fun x => b.body.inputs.any (· ∈ x.body.inputs)) then .throw else .ok (s ++ [b]),
    fun s h => .ok (s.take h.height), fun _ => false, fun _ => 0⟩

/-- Transactions are valid together if no input occurs twice and none is spent. -/
private def pcPool : PoolRules (List Block) :=
  ⟨fun t => beVal t.offset, fun k => beVal k.excess, fun l => .ok ⟨[], ⟨l.flatMap (·.body.inputs), [], []⟩⟩,
    fun _ t => if t.body.inputs.Nodup then .ok () else .throw,
    fun s t => .ok (decide (∀ i ∈ t.body.inputs, ∀ x ∈ s, i ∉ x.body.inputs)), fun s => s.length, fun _ _ => true⟩

private def pcTx (n : Nat) : Tx := ⟨[UInt8.ofNat n], ⟨[⟨0, [UInt8.ofNat n]⟩], [], []⟩⟩
private def pcGen : Block := pcBlock 0 1 [9] [0] []
private def pcOne (ins : List TxInput) : Block := pcBlock 1 10 [0] [1] ins

/-- A node with the first block and one after it, which knows some more headers. -/
private def pcWorld (ins : List TxInput) (more : List Block) : World (List Block) :=
  ⟨fun x => ((pcGen :: pcOne ins :: more).find? (fun b => hashOf b.header = x)).map (·.header),
    fun x => (pcGen :: [pcOne ins]).find? (fun b => hashOf b.header = x), [[0], [1]], [[0], [1]], [], more.dropLast, [], [pcOne ins]⟩

private def pcWait (ns : List Nat) : Pools := ⟨ns.map (fun n => ⟨pcTx n, .fluffed, 0⟩), []⟩

/-- **C143, a case.**  A block beside the tip, with less work, spends the input of a waiting transaction.  The block is not on the chain, the input
is still unspent, the transaction is valid on the chain, and it is no longer in the pool. -/
theorem losing_fork_case_violated :
    let side := pcBlock 1 5 [0] [2] [⟨0, [7]⟩]
    let r := takeInternal pcRules pcPool 9 (pcWorld [] [side]) (pcWait [7, 8]) side
    r.2 = .ok .success ∧ r.1.1.confirmed = [[0], [1]] ∧ r.1.1.ledger = [pcOne []] ∧ r.1.2.mem.map (·.tx) = [pcTx 8] ∧
      isValidTx pcPool r.1.1.ledger (pcTx 7) = .ok true := by
  decide +kernel

/-- **C143, a case.**  The block on the chain had the transaction.  A branch of two blocks without it has more work; afterwards the transaction is
on no chain and in no pool, and it is valid. -/
theorem undone_case_violated :
    let b1 := pcBlock 1 9 [0] [2] []
    let b2 := pcBlock 2 20 [2] [3] []
    let r := takeInternal pcRules pcPool 9 (pcWorld [⟨0, [7]⟩] [b1, b2]) (pcWait [8]) b2
    r.2 = .ok .success ∧ r.1.1.confirmed = [[0], [2], [3]] ∧ r.1.2.mem.map (·.tx) = [pcTx 8] ∧ r.1.2.stem = [] ∧
      isValidTx pcPool r.1.1.ledger (pcTx 7) = .ok true := by
  decide +kernel

/-- **C143, a case.**  The second block of a branch spends what the first has spent; the branch is refused, and a waiting transaction is gone. -/
theorem failing_fork_case_violated :
    let b1 := pcBlock 1 9 [0] [2] [⟨0, [7]⟩]
    let b2 := pcBlock 2 20 [2] [3] [⟨0, [7]⟩]
    let r := takeInternal pcRules pcPool 9 (pcWorld [] [b1, b2]) (pcWait [7, 8]) b2
    r.2 = .throw ∧ r.1.1.confirmed = [[0], [1]] ∧ r.1.1.ledger = [pcOne []] ∧ r.1.2.mem.map (·.tx) = [pcTx 8] := by
  decide +kernel

/-- A next block spends the input of one waiting transaction; the other stays. -/
example :
    let b := pcBlock 2 20 [1] [3] [⟨0, [7]⟩]
    let r := takeInternal pcRules pcPool 9 (pcWorld [] [b]) (pcWait [7, 8]) b
    r.2 = .ok .success ∧ r.1.1.confirmed = [[0], [1], [3]] ∧ r.1.2.mem.map (·.tx) = [pcTx 8] := by
  decide +kernel

private theorem pc_settles (p : Pools) (s : List Block) (b : Block) : (settle pcPool p s b).2 = .ok () := by
  have h1 : ∀ (extra : Option Tx) (ts valid : List Tx), ∃ out, findValidLoop pcPool s extra ts valid = .ok out := by
    intro extra ts
    induction ts with
    | nil => intro valid; exact ⟨valid, rfl⟩
    | cons t ts ih =>
      intro valid
      have hv : ∀ a, ∃ v, isValidTx pcPool s a = .ok v := by
        intro a
        unfold isValidTx
        simp only [pcPool]
        by_cases h : a.body.inputs.Nodup <;> simp [h]
      unfold findValidLoop
      obtain ⟨v, hv⟩ := hv ⟨[], ⟨(valid ++ extra.toList ++ [t]).flatMap (·.body.inputs), [], []⟩⟩
      have ha : pcPool.agg (valid ++ extra.toList ++ [t]) = .ok ⟨[], ⟨(valid ++ extra.toList ++ [t]).flatMap (·.body.inputs), [], []⟩⟩ := rfl
      rw [ha, Res.ok_bind, hv, Res.ok_bind]
      exact ih _
  have h2 : ∀ (l : List Entry) (extra : Option Tx), ∃ out, poolReconcile pcPool l s b extra = .ok out := by
    intro l extra
    unfold poolReconcile findValid
    obtain ⟨o, ho⟩ := h1 extra ((l.filter (fun e => !shouldEvict pcPool e.tx b)).map (·.tx)) []
    exact ⟨_, by dsimp only; rw [ho]; rfl⟩
  unfold settle
  obtain ⟨mem, hm⟩ := h2 p.mem none
  rw [hm]
  dsimp only
  have h3 : ∃ extra, poolAggregate pcPool mem = .ok extra := by
    unfold poolAggregate
    split
    · exact ⟨_, rfl⟩
    · exact ⟨_, rfl⟩
  obtain ⟨extra, he⟩ := h3
  rw [he]
  dsimp only
  obtain ⟨stem, hs⟩ := h2 p.stem extra
  rw [hs]

example (w : World (List Block)) (p : Pools) (b : Block) :
    (takeInternal pcRules pcPool 9 w p b).2 = (w.processInternal pcRules 9 b).2 := by
  rw [← chain_ignores_pool pcRules pcPool pc_settles 9 w p b]

/-- A run: a transaction is submitted, a block takes another one, the first stays. -/
example :
    let b := pcBlock 2 20 [1] [3] [⟨0, [7]⟩]
    ∃ c, PoolRun pcRules pcPool (fun t => t ∈ [pcTx 7, pcTx 8]) 9 (pcWorld [] [b], pcWait [7]) [.submit (pcTx 8) true false, .block b] c ∧
      c.1.confirmed = [[0], [1], [3]] ∧ c.2.mem.map (·.tx) = [pcTx 8] := by
  intro b
  refine ⟨(takeInternal pcRules pcPool 9 (pcWorld [] [b]) (pcWait [7, 8]) b).1, .submit (tip := 1) (st := .added) (p' := pcWait [7, 8]) (by simp) (by rfl) ?_, ?_, ?_⟩
  · refine .block rfl (w' := (takeInternal pcRules pcPool 9 (pcWorld [] [b]) (pcWait [7, 8]) b).1.1)
      (p' := (takeInternal pcRules pcPool 9 (pcWorld [] [b]) (pcWait [7, 8]) b).1.2) ?_ (.nil _)
    refine Prod.ext rfl ?_
    decide +kernel
  · decide +kernel
  · decide +kernel

end Verif.Props
