import Verif.Base.Outcome

/-!
# The block syncer

Model of `ChainState::GetBlocksNeeded` (src/BlockChain/ChainState.cpp:197-220) and `src/P2P/Sync/BlockSyncer.cpp`: which
blocks are asked for, from which peers, and which peers are banned.  `P` are the peers, `H` the hashes of blocks; a peer
and its IP address are taken for the same.
-/
namespace Verif.P2P

variable {P H : Type}

/-- The loop of `GetBlocksNeeded` (ChainState.cpp:206-217) over the rest of the candidate chain from a height on. -/
def neededLoop (orphan : Nat → H → Bool) (max : Nat) : Nat → List H → List (Nat × H) → List (Nat × H)
  | _, [], acc => acc
  | height, x :: xs, acc =>
    if orphan height x then neededLoop orphan max (height + 1) xs acc
    else if (acc ++ [(height, x)]).length = max then acc ++ [(height, x)]
    else neededLoop orphan max (height + 1) xs (acc ++ [(height, x)])

/-- `GetBlocksNeeded` (ChainState.cpp:197-220): `common` is the height of the common index of the chains (modelled in
`Verif.Chain.Store`), `orphan` is `OrphanPool::IsOrphan`. -/
def blocksNeeded (candidate : List H) (common : Nat) (orphan : Nat → H → Bool) (max : Nat) : List (Nat × H) :=
  neededLoop orphan max (common + 1) (candidate.drop (common + 1)) []

/-- `RequestedBlock` (BlockSyncer.h:43-50); times in seconds. -/
structure BlockRequest (P : Type) where
  peer : P
  timeout : Int
  retried : Bool
deriving DecidableEq, Repr

/-- The members of `BlockSyncer` (BlockSyncer.h:40-52); `requested` is the map `m_requestedBlocks` from heights. -/
structure BlockSyncer (P : Type) where
  lastHeight : Nat
  requested : List (Nat × BlockRequest P)
  slow : List P
deriving DecidableEq, Repr

/-- What one call of `SyncBlocks` sees.  The clock is read once here.  `needed n` is `GetBlocksNeeded(n)`, `processing`
and `hasBlock` are the questions to the pipeline and the chain, `reachable` is the answer of `SendMessageToPeer`, `first`
the random index of the first peer (below the number of peers). -/
structure DownloadView (P H : Type) where
  now : Int
  chainHeight : Nat
  networkHeight : Nat
  needed : Nat → List (Nat × H)
  processing : H → Bool
  hasBlock : Nat → H → Bool
  banned : P → Bool
  reachable : P → Bool
  mostWork : List P
  first : Nat

/-- What one call does to peers: the blocks asked for and the peers banned. -/
structure BlockActs (P H : Type) where
  asked : List (P × Nat × H)
  banned : List P
deriving DecidableEq, Repr

/-- `find` of the map. -/
def findRequest (l : List (Nat × BlockRequest P)) (height : Nat) : Option (BlockRequest P) :=
  (l.find? (fun e => e.1 = height)).map (·.2)

/-- Assignment to an entry of the map. -/
def setRequest : List (Nat × BlockRequest P) → Nat → BlockRequest P → List (Nat × BlockRequest P)
  | [], height, r => [(height, r)]
  | e :: l, height, r => if e.1 = height then (height, r) :: l else e :: setRequest l height r

variable [DecidableEq P]

/-- The loop over the first 15 blocks needed (BlockSyncer.cpp:50-75). -/
def dueLoop (s : BlockSyncer P) (v : DownloadView P H) : List (Nat × H) → Bool
  | [] => false
  | b :: bs =>
    match findRequest s.requested b.1 with
    | none => true
    | some r =>
      if r.peer ∈ s.slow then true
      else if r.timeout < v.now ∧ v.processing b.2 = false then true
      else dueLoop s v bs

/-- The removal of downloaded blocks (BlockSyncer.cpp:36-40). -/
def BlockSyncer.advance (s : BlockSyncer P) (v : DownloadView P H) : BlockSyncer P :=
  { s with lastHeight := v.chainHeight, requested := s.requested.filter (fun e => !(s.lastHeight ≤ e.1 && e.1 ≤ v.chainHeight)) }

/-- `IsBlockSyncDue` (BlockSyncer.cpp:27-78), after the removal. -/
def BlockSyncer.due (s : BlockSyncer P) (v : DownloadView P H) : Bool :=
  if s.requested.length < 15 then true else dueLoop s v (v.needed 15)

/-- The state of the loop of `RequestBlocks`: the members, what was done, and `blocksToRequest`. -/
structure Visit (P H : Type) where
  requested : List (Nat × BlockRequest P)
  slow : List P
  asked : List (P × Nat × H)
  banned : List P
  wanted : List (Nat × H)

/-- One round of the loop of `RequestBlocks` (BlockSyncer.cpp:102-140) for a block that is neither
there nor being processed, up to the check of the number; the flag says that the round ends with `continue`, before this
check. -/
def Visit.step (v : DownloadView P H) (s : Visit P H) (b : Nat × H) : Bool × Visit P H :=
  match findRequest s.requested b.1 with
  | none => (false, { s with wanted := s.wanted ++ [b] })
  | some r =>
    if r.peer ∈ s.slow ∨ r.timeout < v.now then
      if v.banned r.peer || decide (r.peer ∈ s.banned) then
        (false, { s with slow := r.peer :: s.slow, wanted := s.wanted ++ [b] })
      else if !r.retried && v.reachable r.peer then
        (true, { s with
          requested := setRequest s.requested b.1 ⟨r.peer, v.now + 5, true⟩
          asked := s.asked ++ [(r.peer, b)] })
      else
        (false, { s with
          slow := r.peer :: s.slow
          banned := s.banned ++ [r.peer]
          wanted := s.wanted ++ [b] })
    else (false, s)

/-- The loop of `RequestBlocks` (BlockSyncer.cpp:102-140); `cap` is `numBlocksNeeded`. -/
def visitLoop (v : DownloadView P H) (cap : Nat) : List (Nat × H) → Visit P H → Visit P H
  | [], s => s
  | b :: bs, s =>
    if v.processing b.2 || v.hasBlock b.1 b.2 then visitLoop v cap bs s
    else
      let r := s.step v b
      if r.1 then visitLoop v cap bs r.2
      else if r.2.wanted.length ≥ cap then r.2
      else visitLoop v cap bs r.2

/-- The loop that sends the requests (BlockSyncer.cpp:142-158), from index `i` with the peer `next`. -/
def sendLoop (v : DownloadView P H) : Nat → Nat → List (Nat × H) → Visit P H → Res (Visit P H)
  | _, _, [], s => .ok s
  | i, next, b :: bs, s =>
    match v.mostWork[next]? with
    | none => .ub
    | some p =>
      let s' := if v.reachable p then
          { s with requested := setRequest s.requested b.1 ⟨p, v.now + 10, false⟩, asked := s.asked ++ [(p, b)] }
        else s
      sendLoop v (i + 1) (if (i + 1) % 16 = 0 then (next + 1) % v.mostWork.length else next) bs s'

/-- `RequestBlocks` (BlockSyncer.cpp:80-165). -/
def BlockSyncer.request (s : BlockSyncer P) (v : DownloadView P H) : Res (BlockSyncer P × BlockActs P H) :=
  if v.mostWork = [] then .ok (s, ⟨[], []⟩)
  else
    let cap := 16 * v.mostWork.length
    let seen := visitLoop v cap (v.needed (2 * cap)) ⟨s.requested, s.slow, [], [], []⟩
    do
      let r ← sendLoop v 0 v.first seen.wanted seen
      .ok ({ s with requested := r.requested, slow := r.slow }, ⟨r.asked, r.banned⟩)

/-- `SyncBlocks` (BlockSyncer.cpp:9-25); without the answer. -/
def BlockSyncer.step (s : BlockSyncer P) (v : DownloadView P H) (startup : Bool) : Res (BlockSyncer P × BlockActs P H) :=
  if v.networkHeight ≥ v.chainHeight + 5 ∨ (startup ∧ v.networkHeight > v.chainHeight) then
    let s' := s.advance v
    if s'.due v then s'.request v else .ok (s', ⟨[], []⟩)
  else .ok (s, ⟨[], []⟩)

/-- A new syncer (BlockSyncer.h:19-28). -/
def BlockSyncer.init : BlockSyncer P := ⟨0, [], []⟩

/-- The calls of the sync thread, each with what it sees; what each call did. -/
def BlockSyncer.run : BlockSyncer P → List (DownloadView P H × Bool) → Res (List (BlockActs P H))
  | _, [] => .ok []
  | s, (v, b) :: vs => do
    let r ← s.step v b
    let rest ← r.1.run vs
    .ok (r.2 :: rest)

end Verif.P2P
