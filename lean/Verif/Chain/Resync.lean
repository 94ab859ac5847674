import Verif.Chain.Process

/-!
# Opening the chain again, and starting it over

Model of `src/BlockChain/ChainResyncer.cpp`, of `ChainState::Create` (ChainState.cpp:38-70), of the compaction of the
block database at the start (BlockChainImpl.cpp:88-93, BlockDBImpl.cpp:125-146) and of the block sums
(BlockProcessor.cpp:205-218).
-/
namespace Verif.BC

/-- What `ValidateAndAddBlock` reads and writes besides the blocks: the output set with its tables of positions, and the
table `BLOCK_SUMS`. -/
structure Accounts (T Z : Type) where
  tree : T
  sums : Bytes → Option Z

/-- The component calls with the table of block sums told apart (BlockProcessor.cpp:198-218): `applyTree` is
`TxHashSet::ApplyBlock` with `ValidateRoots`, `check` is `KernelSumValidator::ValidateKernelSums` on top of the sums
of the block before, which must be in the table. -/
def sumRules {T Z : Type} (validate : (Bytes → Option Header) → List Header → Header → Header → Res Unit)
    (consistent : Block → Res Unit) (applyTree : T → Block → Res T) (check : Z → Block → Res Z)
    (rewindTree : T → Header → Res T) (bad : Bytes → Bool) (horizon : Nat → Nat) : Rules (Accounts T Z) where
  validate := validate
  consistent := consistent
  apply a b := do
    let t ← applyTree a.tree b
    match a.sums b.header.prevHash with
    | none => .throw
    | some z =>
      let z' ← check z b
      .ok ⟨t, fun x => if x = hashOf b.header then some z' else a.sums x⟩
  rewind a h := do
    let t ← rewindTree a.tree h
    .ok { a with tree := t }
  bad := bad
  horizon := horizon

variable {S T Z : Type}

/-- The loop of `ResyncChain` (ChainResyncer.cpp:27-39): `prev` is the header before, the list is the rest of the
candidate chain.  The result is the part of the list that is kept and its headers. -/
def resyncLoop (headers : Bytes → Option Header) (prev : Header) : List Bytes → List Bytes × List Header
  | [] => ([], [])
  | x :: xs =>
    match headers x with
    | none => ([], [])
    | some h =>
      if h.prevHash = hashOf prev then
        (x :: (resyncLoop headers h xs).1, h :: (resyncLoop headers h xs).2)
      else ([], [])

/-- `ResyncChain` (ChainResyncer.cpp:9-44) with `CleanDatabase` (lines 46-52): the tables of blocks, sums and positions are
emptied (`wipe` empties the positions), the confirmed chain is cut to the genesis block, the header MMR to its first
leaf, and the headers of the candidate chain are added again as far as they are linked.  The output set itself is left as
it is.  The header at height 0 is read without looking whether it is there. -/
def World.resync (wipe : T → T) (w : World (Accounts T Z)) : Res (World (Accounts T Z)) :=
  match w.candidate with
  | [] => .ub
  | g :: rest =>
    match w.headers g, rest with
    | none, _ :: _ => .ub
    | none, [] =>
      .ok { w with
        blocks := fun _ => none
        confirmed := w.confirmed.take 1
        mmr := w.mmr.take 1
        ledger := ⟨wipe w.ledger.tree, fun _ => none⟩ }
    | some g0, rest =>
      .ok { w with
        blocks := fun _ => none
        confirmed := w.confirmed.take 1
        candidate := g :: (resyncLoop w.headers g0 rest).1
        mmr := w.mmr.take 1 ++ (resyncLoop w.headers g0 rest).2
        ledger := ⟨wipe w.ledger.tree, fun _ => none⟩ }

/-- `ChainState::Create` (ChainState.cpp:47-60), the part on the genesis block `g` with sums `z`: done whenever the
candidate chain has only the genesis block, not only the first time. -/
def World.addGenesis (g : Block) (z : Z) (w : World (Accounts T Z)) : World (Accounts T Z) :=
  if w.candidate.length - 1 = 0 then
    { w.addHeader g.header with
      mmr := w.mmr ++ [g.header]
      ledger := ⟨w.ledger.tree, fun x => if x = hashOf g.header then some z else w.ledger.sums x⟩ }
  else w

/-- `BlockDB::Compact` (BlockDBImpl.cpp:125-146): blocks below the horizon of the confirmed chain are deleted.  Blocks that
cannot be read are deleted there too; here all can be read. -/
def World.compactBlocks (R : Rules S) (w : World S) : World S :=
  { w with
    blocks := fun x =>
      match w.blocks x with
      | none => none
      | some b => if b.header.height < R.horizon (w.confirmed.length - 1) then none else some b }

/-- The node is stopped and opened again (`ChainState::Create`, `BlockChain::Create`): what waits in memory is lost.
The migration of old databases and the compaction of the output set are left out. -/
def World.reopen (R : Rules (Accounts T Z)) (g : Block) (z : Z) (w : World (Accounts T Z)) :
    World (Accounts T Z) :=
  World.compactBlocks R (World.addGenesis g z { w with orphans := [], orphanHeaders := [] })

/-- The node before it was ever opened: the chain files are made with the genesis hash (`ChainStore::Load`,
ChainStore.cpp:14-40), all else is empty. -/
def emptyNode (g : Block) (t : T) : World (Accounts T Z) :=
  ⟨fun _ => none, fun _ => none, [hashOf g.header], [hashOf g.header], [], [], [], ⟨t, fun _ => none⟩⟩

end Verif.BC
