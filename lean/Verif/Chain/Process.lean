import Verif.Base.Outcome
import Verif.Ser.Core

/-!
# Processing headers and blocks

Model of `src/BlockChain/Processors/BlockHeaderProcessor.cpp`,
`src/BlockChain/Processors/BlockProcessor.cpp` and `BlockChain::ProcessNextOrphanBlock`
(BlockChainImpl.cpp:386-419).

The validator of headers, the checks of a block by itself and the change of the output set by a block
are parameters (`Rules`; they are modelled in `Verif.PoW.Difficulty`, `Verif.Tx.Body` and
`Verif.Tx.Sums`).  A chain is its list of hashes (`Verif.Props.Chain` shows that the class behaves as
one), the header MMR the list of its headers.  The transaction pool is left out.
-/
namespace Verif.BC

/-- The hash of a header is the hash of its proof of work (BlockHeader.h:101). -/
def hashOf (h : Header) : Bytes := h.pow.hash

/-- The calls into other components.  `validate` is `BlockHeaderValidator::Validate`, given the headers
in the database and in the MMR, the header and its predecessor; `consistent` is
`BlockValidator::VerifySelfConsistent`; `apply` is the part of `ValidateAndAddBlock` on the output set
and the block sums (BlockProcessor.cpp:198-218); `rewind` is `TxHashSet::Rewind`; `bad` is the list
`BAD_BLOCKS`; `horizon` is `GetHorizonHeight`. -/
structure Rules (S : Type) where
  validate : (Bytes → Option Header) → List Header → Header → Header → Res Unit
  consistent : Block → Res Unit
  apply : S → Block → Res S
  rewind : S → Header → Res S
  bad : Bytes → Bool
  horizon : Nat → Nat

/-- `ChainState` (ChainState.h).  `headers` and `blocks` are the tables of the block database, `ledger`
the output set with the block sums. -/
structure World (S : Type) where
  headers : Bytes → Option Header
  blocks : Bytes → Option Block
  confirmed : List Bytes
  candidate : List Bytes
  mmr : List Header
  orphans : List Block
  orphanHeaders : List Header
  ledger : S

/-- `EBlockChainStatus` as far as it is returned here. -/
inductive Status | success | alreadyExists | orphaned | invalid
deriving DecidableEq, Repr

variable {S : Type}

/-- `AddBlockHeader` (BlockDBImpl.cpp:165-181). -/
def World.addHeader (w : World S) (h : Header) : World S :=
  { w with headers := fun x => if x = hashOf h then some h else w.headers x }

/-- `AddBlock` (BlockDBImpl.cpp:202-209). -/
def World.addBlock (w : World S) (b : Block) : World S :=
  { w with blocks := fun x => if x = hashOf b.header then some b else w.blocks x }

/-- `GetTotalDifficulty` (ChainState.cpp:102-111). -/
def World.work (w : World S) (chain : List Bytes) : Nat :=
  match chain.getLast? with
  | none => 0
  | some x =>
    match w.headers x with
    | none => 0
    | some h => h.totalDifficulty

/-- `IsOnChain` (include/BlockChain/Chain.h:33-41). -/
def onChain (chain : List Bytes) (height : Nat) (hash : Bytes) : Bool := chain[height]? = some hash

/-- `GetOrphanHeader` (OrphanPool.cpp:106-114). -/
def World.orphanHeader (w : World S) (hash : Bytes) : Option Header :=
  w.orphanHeaders.find? (fun h => hashOf h = hash)

/-- `AddOrphanHeader` (OrphanPool.cpp:116-119): a cache of 64 entries.  Reading an entry does not count
as a use here. -/
def World.addOrphanHeader (w : World S) (h : Header) : World S :=
  { w with orphanHeaders := (h :: w.orphanHeaders.filter (fun x => hashOf x ≠ hashOf h)).take 64 }

/-- `GetOrphanBlock` (OrphanPool.cpp:51-66). -/
def World.orphanBlock (w : World S) (height : Nat) (hash : Bytes) : Option Block :=
  w.orphans.find? (fun b => b.header.height = height ∧ hashOf b.header = hash)

/-- `AddOrphanBlock` (OrphanPool.cpp:25-49). -/
def World.addOrphan (w : World S) (b : Block) : World S :=
  let w := if (w.orphanHeader (hashOf b.header)).isSome then w else w.addOrphanHeader b.header
  if (w.orphanBlock b.header.height (hashOf b.header)).isSome then w
  else { w with orphans := w.orphans ++ [b] }

/-- `RemoveOrphan` (OrphanPool.cpp:85-104). -/
def World.removeOrphan (w : World S) (height : Nat) (hash : Bytes) : World S :=
  { w with orphans := w.orphans.eraseP (fun b => b.header.height = height ∧ hashOf b.header = hash) }

/-- What is left when a batch is dropped: everything is restored except the orphan pool, which is not
part of the batch (ChainState.cpp:245-266). -/
def World.restore (w w' : World S) : World S :=
  { w with orphans := w'.orphans, orphanHeaders := w'.orphanHeaders }

/-! ## Headers -/

/-- The loop of `ProcessOrphan` (BlockHeaderProcessor.cpp:69-84): `none` if a header is missing, else
the headers to add, oldest first.  The loop has no bound; `fuel` is the number of rounds it is watched,
and running out of it means that it has not ended. -/
def World.walkHeaders (w : World S) : Nat → Header → List Header → Res (Option (List Header))
  | 0, _, _ => .ub
  | fuel + 1, h, acc =>
    if onChain w.candidate h.height (hashOf h) then .ok (some acc)
    else
      match (w.orphanHeader h.prevHash).or (w.headers h.prevHash) with
      | none => .ok none
      | some p => w.walkHeaders fuel p (h :: acc)

/-- `Rewind` of the candidate chain and the header MMR to just below `height`
(BlockHeaderProcessor.cpp:93-94 and 182-183); for height 0 the argument wraps and `Rewind` throws. -/
def World.rewindCandidate (w : World S) (height : Nat) : Res (World S) :=
  if height = 0 ∨ height > w.candidate.length ∨ height > w.mmr.length then .throw
  else .ok { w with candidate := w.candidate.take height, mmr := w.mmr.take height }

/-- The loop of `ValidateHeaders` (BlockHeaderProcessor.cpp:239-246). -/
def World.addHeaders (R : Rules S) (w : World S) (prev : Header) : List Header → Res (World S)
  | [] => .ok w
  | h :: hs => do
    R.validate w.headers w.mmr h prev
    if h.height ≠ w.candidate.length then .throw
    else
      World.addHeaders R { w.addHeader h with
        mmr := w.mmr ++ [h], candidate := w.candidate ++ [hashOf h] } h hs

/-- `ValidateHeaders` (BlockHeaderProcessor.cpp:224-247). -/
def World.validateHeaders (R : Rules S) (w : World S) (hs : List Header) : Res (World S) :=
  match hs with
  | [] => .ub
  | h :: _ =>
    match w.headers h.prevHash with
    | none => .throw
    | some prev => w.addHeaders R prev hs

/-- The end of `ProcessOrphan` and `ProcessChunkedSyncHeaders` (BlockHeaderProcessor.cpp:92-108 and
181-198): the headers are added; if their work is not more than before, the candidate chain and the
MMR are restored and only the database keeps them. -/
def World.adoptHeaders (R : Rules S) (w : World S) (hs : List Header) (height work : Nat) :
    Res (World S) := do
  let w1 ← w.rewindCandidate height
  let w2 ← w1.validateHeaders R hs
  if work ≤ w.work w.candidate then .ok { w2 with candidate := w.candidate, mmr := w.mmr }
  else .ok w2

/-- The state after a call inside a batch. -/
def World.batch (w : World S) (r : Res (World S)) (s : Status) : World S × Res Status :=
  match r with
  | .ok w' => (w', .ok s)
  | .throw => (w, .throw)
  | .ub => (w, .ub)

/-- `ProcessOrphan` (BlockHeaderProcessor.cpp:60-109). -/
def World.processOrphan (R : Rules S) (fuel : Nat) (w : World S) (h : Header) :
    World S × Res Status :=
  match w.walkHeaders fuel h [] with
  | .ok none => (w.addOrphanHeader h, .ok .orphaned)
  | .ok (some []) => (w, .ub)
  | .ok (some (h0 :: hs)) =>
    w.batch (w.adoptHeaders R (h0 :: hs) h0.height h.totalDifficulty) .success
  | .throw => (w, .throw)
  | .ub => (w, .ub)

/-- `ProcessSingleHeader` (BlockHeaderProcessor.cpp:15-58).  A header missing for the tip is a null
pointer. -/
def World.processHeader (R : Rules S) (fuel : Nat) (w : World S) (h : Header) :
    World S × Res Status :=
  if R.bad (hashOf h) then (w, .ok .invalid)
  else if (w.headers (hashOf h)).isSome then (w, .ok .alreadyExists)
  else if w.candidate.getLast? ≠ some h.prevHash then w.processOrphan R fuel h
  else
    match w.headers h.prevHash with
    | none => (w, .ub)
    | some prev => w.batch (w.addHeaders R prev [h]) .success

/-- `ProcessChunkedSyncHeaders` (BlockHeaderProcessor.cpp:154-199) with `PrepareSyncChain`
(lines 201-214). -/
def World.processChunk (R : Rules S) (w : World S) (hs : List Header) : World S × Res Status :=
  match hs with
  | [] => (w, .ub)
  | h0 :: _ =>
    if !onChain w.candidate (h0.height - 1) h0.prevHash then (w, .throw)
    else
      match hs.dropWhile (fun h => onChain w.candidate h.height (hashOf h)) with
      | [] => (w, .ok .alreadyExists)
      | n0 :: ns =>
        match (n0 :: ns).getLast? with
        | none => (w, .ub)
        | some l => w.batch (w.adoptHeaders R (n0 :: ns) n0.height l.totalDifficulty) .success

/-- The chunks of 128 headers of `ProcessSyncHeaders` (BlockHeaderProcessor.cpp:134-151); `fuel` is the
number of headers. -/
def World.processChunks (R : Rules S) : Nat → World S → List Header → World S × Res Status
  | _, w, [] => (w, .ok .success)
  | 0, w, _ => (w, .ub)
  | fuel + 1, w, h :: hs =>
    match w.processChunk R ((h :: hs).take 128) with
    | (w', .ok .success) => World.processChunks R fuel w' ((h :: hs).drop 128)
    | (w', .ok .alreadyExists) => World.processChunks R fuel w' ((h :: hs).drop 128)
    | r => r

/-- Heights go up by one (BlockHeaderProcessor.cpp:128-132). -/
def consecutive : List Header → Bool
  | h1 :: h2 :: hs => h2.height = h1.height + 1 && consecutive (h2 :: hs)
  | _ => true

/-- `ProcessSyncHeaders` (BlockHeaderProcessor.cpp:111-152). -/
def World.processHeaders (R : Rules S) (w : World S) (hs : List Header) : World S × Res Status :=
  match hs with
  | [] => (w, .ok .success)
  | h :: _ =>
    if hs.any (fun h => R.bad (hashOf h)) then (w, .throw)
    else if h.height = 0 then (w, .throw)
    else if !consecutive hs then (w, .throw)
    else World.processChunks R hs.length w hs

/-! ## Blocks -/

/-- `EBlockStatus` with the blocks to apply. -/
inductive BlockStatus | orphan | next | reorg (blocks : List Block)

/-- The loop of `DetermineBlockStatus` (BlockProcessor.cpp:106-121). -/
def World.walkBlocks (w : World S) : Nat → Block → List Block → Res BlockStatus
  | 0, _, _ => .ub
  | fuel + 1, b, acc =>
    if b.header.height ≠ 0 ∧ onChain w.confirmed (b.header.height - 1) b.header.prevHash then
      .ok (.reorg (b :: acc))
    else
      match (w.orphanBlock ((b.header.height + U64 - 1) % U64) b.header.prevHash).or
          (w.blocks b.header.prevHash) with
      | none => .ok .orphan
      | some p => w.walkBlocks fuel p (b :: acc)

/-- `DetermineBlockStatus` (BlockProcessor.cpp:86-130). -/
def World.status (w : World S) (fuel : Nat) (b : Block) : Res BlockStatus :=
  match w.headers (hashOf b.header) with
  | none => .ok .orphan
  | some _ =>
    if w.confirmed.getLast? = some b.header.prevHash then .ok .next
    else w.walkBlocks fuel b []

/-- `ValidateAndAddBlock` (BlockProcessor.cpp:184-225). -/
def World.applyBlock (R : Rules S) (w : World S) (b : Block) : World S × Res Unit :=
  match w.headers b.header.prevHash with
  | none => (w, .throw)
  | some _ =>
    match R.apply w.ledger b with
    | .ok s =>
      ((({ w with ledger := s } : World S).addBlock b).removeOrphan b.header.height (hashOf b.header), .ok ())
    | .throw => (w, .throw)
    | .ub => (w, .ub)

/-- The loop of `HandleReorg` (BlockProcessor.cpp:153-156). -/
def World.applyBlocks (R : Rules S) : World S → List Block → World S × Res Unit
  | w, [] => (w, .ok ())
  | w, b :: bs =>
    match w.applyBlock R b with
    | (w', .ok ()) => World.applyBlocks R w' bs
    | r => r

/-- Extending the confirmed chain (`Chain::AddBlock`, Chain.cpp:57-75) by several blocks
(BlockProcessor.cpp:162-165). -/
def World.extend (w : World S) : List Block → Res (World S)
  | [] => .ok w
  | b :: bs =>
    if b.header.height ≠ w.confirmed.length then .throw
    else World.extend { w with confirmed := w.confirmed ++ [hashOf b.header] } bs

/-- `HandleReorg` (BlockProcessor.cpp:132-182). -/
def World.handleReorg (R : Rules S) (w : World S) (bs : List Block) : World S × Res Unit :=
  match bs, bs.getLast? with
  | b0 :: _, some last =>
    match w.headers b0.header.prevHash with
    | none => (w, .throw)
    | some common =>
      match R.rewind w.ledger common with
      | .throw => (w, .throw)
      | .ub => (w, .ub)
      | .ok s =>
        match World.applyBlocks R { w with ledger := s } bs with
        | (w', .throw) => (w.restore w', .throw)
        | (w', .ub) => (w', .ub)
        | (w', .ok ()) =>
          if last.header.totalDifficulty > w.work w.confirmed then
            if b0.header.height = 0 ∨ b0.header.height > w'.confirmed.length then (w.restore w', .throw)
            else
              match World.extend { w' with confirmed := w'.confirmed.take b0.header.height } bs with
              | .ok w'' => (w'', .ok ())
              | .throw => (w.restore w', .throw)
              | .ub => (w', .ub)
          else (bs.foldl World.addBlock (w.restore w'), .ok ())
  | _, _ => (w, .ub)

/-- `ProcessBlockInternal` (BlockProcessor.cpp:41-84). -/
def World.processInternal (R : Rules S) (fuel : Nat) (w : World S) (b : Block) :
    World S × Res Status :=
  if onChain w.confirmed b.header.height (hashOf b.header) then (w, .ok .alreadyExists)
  else if (w.blocks (hashOf b.header)).isSome then (w, .ok .alreadyExists)
  else
    match w.status fuel b with
    | .throw => (w, .throw)
    | .ub => (w, .ub)
    | .ok .orphan =>
      if (w.orphanBlock b.header.height (hashOf b.header)).isSome then (w, .ok .alreadyExists)
      else (w.addOrphan b, .ok .orphaned)
    | .ok (.reorg bs) =>
      match w.handleReorg R bs with
      | (w', .ok ()) => (w', .ok .success)
      | (w', .throw) => (w', .throw)
      | (w', .ub) => (w', .ub)
    | .ok .next =>
      match w.applyBlock R b with
      | (w', .throw) => (w.restore w', .throw)
      | (w', .ub) => (w', .ub)
      | (w', .ok ()) =>
        match World.extend w' [b] with
        | .ok w'' => (w'', .ok .success)
        | .throw => (w.restore w', .throw)
        | .ub => (w', .ub)

/-- `ProcessBlock` (BlockProcessor.cpp:17-39); the answer of the header processor is not looked at. -/
def World.processBlock (R : Rules S) (fuel : Nat) (w : World S) (b : Block) : World S × Res Status :=
  if b.header.height ≤ R.horizon (w.candidate.length - 1) then (w, .throw)
  else
    match w.processHeader R fuel b.header with
    | (w', .throw) => (w', .throw)
    | (w', .ub) => (w', .ub)
    | (w', .ok _) =>
      match R.consistent b with
      | .throw => (w', .throw)
      | .ub => (w', .ub)
      | .ok () => w'.processInternal R fuel b

/-- `ProcessNextOrphanBlock` (BlockChainImpl.cpp:386-419). -/
def World.processNextOrphan (R : Rules S) (fuel : Nat) (w : World S) : World S × Res Bool :=
  match w.candidate[w.confirmed.length]? with
  | none => (w, .ok false)
  | some x =>
    match w.headers x with
    | none => (w, .ok false)
    | some h =>
      match w.orphanBlock w.confirmed.length (hashOf h) with
      | none => (w, .ok false)
      | some b =>
        match w.processBlock R fuel b with
        | (w', .ok s) => (w', .ok (s = .success))
        | (w', .throw) => (w'.removeOrphan h.height (hashOf h), .ok false)
        | (w', .ub) => (w', .ub)

/-- What reaches the node. -/
inductive Event
  | header (h : Header)
  | headers (hs : List Header)
  | block (b : Block)
  | nextOrphan

/-- One event; `none` if the call ran into undefined behaviour or did not end within `fuel` rounds. -/
def World.step (R : Rules S) (fuel : Nat) (w : World S) : Event → Option (World S)
  | .header h => match w.processHeader R fuel h with
    | (_, .ub) => none
    | (w', _) => some w'
  | .headers hs => match w.processHeaders R hs with
    | (_, .ub) => none
    | (w', _) => some w'
  | .block b => match w.processBlock R fuel b with
    | (_, .ub) => none
    | (w', _) => some w'
  | .nextOrphan => match w.processNextOrphan R fuel with
    | (_, .ub) => none
    | (w', _) => some w'

end Verif.BC
