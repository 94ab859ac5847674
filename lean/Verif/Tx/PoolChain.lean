import Verif.Chain.Process
import Verif.Tx.Pool

/-!
# Blocks and the transactions that wait

Model of `ValidateAndAddBlock`, `HandleReorg` and `ProcessBlockInternal` (BlockProcessor.cpp:41-84, 132-225) with the transaction pool, which
`Verif.Chain.Process` leaves out.  The pool is not part of the batch (ChainState.cpp:245-266): what a block does to it stays done when the batch
is dropped.  The state the pool looks at is the one inside the batch.
-/
namespace Verif.BC
open Verif.Tx

variable {S : Type}

/-- `TransactionPool::ReconcileBlock` (TransactionPoolImpl.cpp:113-123) with what is left when it ends early: `Pool::ReconcileBlock` empties its
list before it looks for the valid transactions (Pool.cpp:153). -/
def settle (Q : PoolRules S) (p : Pools) (s : S) (b : Block) : Pools × Res Unit :=
  match poolReconcile Q p.mem s b none with
  | .throw => (⟨[], p.stem⟩, .throw)
  | .ub => (⟨[], p.stem⟩, .ub)
  | .ok mem =>
    match poolAggregate Q mem with
    | .throw => (⟨mem, p.stem⟩, .throw)
    | .ub => (⟨mem, p.stem⟩, .ub)
    | .ok extra =>
      match poolReconcile Q p.stem s b extra with
      | .throw => (⟨mem, []⟩, .throw)
      | .ub => (⟨mem, []⟩, .ub)
      | .ok stem => (⟨mem, stem⟩, .ok ())

/-- `ValidateAndAddBlock` (BlockProcessor.cpp:184-225). -/
def takeBlock (R : Rules S) (Q : PoolRules S) (w : World S) (p : Pools) (b : Block) : (World S × Pools) × Res Unit :=
  match w.applyBlock R b with
  | (w', .throw) => ((w', p), .throw)
  | (w', .ub) => ((w', p), .ub)
  | (w', .ok ()) => ((w', (settle Q p w'.ledger b).1), (settle Q p w'.ledger b).2)

/-- The loop of `HandleReorg` (BlockProcessor.cpp:153-156). -/
def takeBlocks (R : Rules S) (Q : PoolRules S) : World S → Pools → List Block → (World S × Pools) × Res Unit
  | w, p, [] => ((w, p), .ok ())
  | w, p, b :: bs =>
    match takeBlock R Q w p b with
    | ((w', p'), .ok ()) => takeBlocks R Q w' p' bs
    | r => r

/-- `HandleReorg` (BlockProcessor.cpp:132-182).  The transactions of the blocks undone by `Rewind` are not put back ("TODO", line 149). -/
def takeFork (R : Rules S) (Q : PoolRules S) (w : World S) (p : Pools) (bs : List Block) : (World S × Pools) × Res Unit :=
  match bs, bs.getLast? with
  | b0 :: _, some last =>
    match w.headers b0.header.prevHash with
    | none => ((w, p), .throw)
    | some common =>
      match R.rewind w.ledger common with
      | .throw => ((w, p), .throw)
      | .ub => ((w, p), .ub)
      | .ok s =>
        match takeBlocks R Q { w with ledger := s } p bs with
        | ((w', p'), .throw) => ((w.restore w', p'), .throw)
        | ((w', p'), .ub) => ((w', p'), .ub)
        | ((w', p'), .ok ()) =>
          if last.header.totalDifficulty > w.work w.confirmed then
            if b0.header.height = 0 ∨ b0.header.height > w'.confirmed.length then ((w.restore w', p'), .throw)
            else
              match World.extend { w' with confirmed := w'.confirmed.take b0.header.height } bs with
              | .ok w'' => ((w'', p'), .ok ())
              | .throw => ((w.restore w', p'), .throw)
              | .ub => ((w', p'), .ub)
          else ((bs.foldl World.addBlock (w.restore w'), p'), .ok ())
  | _, _ => ((w, p), .ub)

/-- `ProcessBlockInternal` (BlockProcessor.cpp:41-84). -/
def takeInternal (R : Rules S) (Q : PoolRules S) (fuel : Nat) (w : World S) (p : Pools) (b : Block) : (World S × Pools) × Res Status :=
  if onChain w.confirmed b.header.height (hashOf b.header) then ((w, p), .ok .alreadyExists)
  else if (w.blocks (hashOf b.header)).isSome then ((w, p), .ok .alreadyExists)
  else
    match w.status fuel b with
    | .throw => ((w, p), .throw)
    | .ub => ((w, p), .ub)
    | .ok .orphan =>
      if (w.orphanBlock b.header.height (hashOf b.header)).isSome then ((w, p), .ok .alreadyExists)
      else ((w.addOrphan b, p), .ok .orphaned)
    | .ok (.reorg bs) =>
      match takeFork R Q w p bs with
      | (r, .ok ()) => (r, .ok .success)
      | (r, .throw) => (r, .throw)
      | (r, .ub) => (r, .ub)
    | .ok .next =>
      match takeBlock R Q w p b with
      | ((w', p'), .throw) => ((w.restore w', p'), .throw)
      | ((w', p'), .ub) => ((w', p'), .ub)
      | ((w', p'), .ok ()) =>
        match World.extend w' [b] with
        | .ok w'' => ((w'', p'), .ok .success)
        | .throw => ((w.restore w', p'), .throw)
        | .ub => ((w', p'), .ub)

end Verif.BC
