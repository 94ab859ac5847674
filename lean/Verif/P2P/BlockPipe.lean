import Verif.Chain.Process
import Verif.P2P.Net

/-!
# The pipe for blocks

Model of `src/P2P/Pipeline/BlockPipe.cpp`: a queue, a thread that takes up to eight blocks at a time and starts a thread for each, and a
thread that connects waiting blocks.
-/
namespace Verif.P2P
open Verif.BC

/-- `BlockPipe` (BlockPipe.h:33-58) with the chain behind it and the peers banned.  `batch` is the size of `blocksToProcess`, zero between two
rounds; `todo` are the blocks of the round whose threads have not run yet. -/
structure BlockPipe (S : Type) where
  queue : List (Nat × Block)
  batch : Nat
  todo : List (Nat × Block)
  world : World S
  banned : List Nat

/-- What happens next; the scheduler chooses.  A thread runs its call in one step: the chain is locked while it is changed, and what is done
before (BlockProcessor.cpp:19-31) is the processing of the header, which has its own lock, and the check of the block by itself. -/
inductive PipeStep
  | arrive (peer : Nat) (b : Block)
  | start
  | task (i : Nat)
  | finish
  | orphan

/-- The comparator of `AddBlockToProcess` (BlockPipe.cpp:102-105). -/
def sameBlock (a b : Nat × Block) : Bool := hashOf a.2.header = hashOf b.2.header

/-- `ProcessNewBlock` (BlockPipe.cpp:67-82). -/
def BlockPipe.processNew {S : Type} (R : Rules S) (fuel : Nat) (p : BlockPipe S) (e : Nat × Block) : Option (BlockPipe S) :=
  match p.world.processBlock R fuel e.2 with
  | (_, .ub) => none
  | (w, .throw) => some { p with world := w, banned := p.banned ++ [e.1] }
  | (w, .ok st) => some { p with world := w, banned := if st = .invalid then p.banned ++ [e.1] else p.banned }

/-- One step: `AddBlockToProcess` (BlockPipe.cpp:100-108), the thread `Thread_ProcessNewBlocks` (31-65) and the threads it starts, and
`Thread_PostProcessBlocks` (84-98).  A step that is not possible changes nothing; `none` is undefined behaviour or a call that does not end. -/
def BlockPipe.step {S : Type} (R : Rules S) (fuel : Nat) (p : BlockPipe S) : PipeStep → Option (BlockPipe S)
  | .arrive peer b => some { p with queue := (pushUnique sameBlock p.queue (peer, b)).1 }
  | .start =>
    if p.batch = 0 then some { p with batch := (copyFront p.queue 8).length, todo := copyFront p.queue 8 } else some p
  | .task i =>
    match p.todo[i]? with
    | none => some p
    | some e => ({ p with todo := p.todo.eraseIdx i } : BlockPipe S).processNew R fuel e
  | .finish => if p.todo = [] then some { p with queue := p.queue.drop p.batch, batch := 0 } else some p
  | .orphan =>
    match p.world.processNextOrphan R fuel with
    | (_, .ub) => none
    | (w, _) => some { p with world := w }

/-- Several steps. -/
def BlockPipe.run {S : Type} (R : Rules S) (fuel : Nat) : BlockPipe S → List PipeStep → Option (BlockPipe S)
  | p, [] => some p
  | p, e :: es =>
    match p.step R fuel e with
    | none => none
    | some q => BlockPipe.run R fuel q es

end Verif.P2P
