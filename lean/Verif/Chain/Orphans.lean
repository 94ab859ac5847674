import Verif.Cache.Cache

/-!
# The orphan pool

Model of `src/BlockChain/OrphanPool/OrphanPool.cpp`.  Blocks, headers and hashes are arbitrary types; `BlockView` is what the pool
reads of them.
-/
namespace Verif.BC.Orphans
open Verif.Cache

/-- What the pool reads of blocks `B` and headers `H` with hashes `K` (`FullBlock::GetHeight`, `GetHash`, `GetPreviousHash`, `GetHeader`;
the hash of a block is the hash of its header). -/
structure BlockView (K B H : Type) where
  height : B → Nat
  prev : B → K
  header : B → H
  hash : H → K

variable {K B H : Type} [DecidableEq K] (v : BlockView K B H)

/-- `FullBlock::GetHash`, `Orphan::GetHash` (Orphan.h:32). -/
def BlockView.key (b : B) : K := v.hash (v.header b)

/-- The members of `OrphanPool` (OrphanPool.h:25-26): the map from a height to the orphans of that height, as pairs in any order, and the
cache of headers. -/
structure OrphanPool (K B H : Type) where
  byHeight : List (Nat × List B)
  headers : Cache K H

/-- The constructor (OrphanPool.cpp:3-6). -/
def OrphanPool.create : OrphanPool K B H := ⟨[], Cache.create .lru 64⟩

/-- `unordered_map::find`. -/
def findHeight (m : List (Nat × List B)) (h : Nat) : Option (List B) := (m.find? (fun p => p.1 = h)).map (·.2)

/-- Giving the entry of a height that is in the map another value. -/
def setHeight (m : List (Nat × List B)) (h : Nat) (l : List B) : List (Nat × List B) :=
  m.map (fun p => if p.1 = h then (h, l) else p)

/-- `unordered_map::erase`. -/
def eraseHeight (m : List (Nat × List B)) (h : Nat) : List (Nat × List B) := m.filter (fun p => p.1 ≠ h)

/-- `IsOrphan` (OrphanPool.cpp:8-23). -/
def OrphanPool.isOrphan (p : OrphanPool K B H) (h : Nat) (k : K) : Bool :=
  match findHeight p.byHeight h with
  | some l => l.any (fun b => v.key b = k)
  | none => false

/-- The header of a new orphan block is put unless its hash is cached (OrphanPool.cpp:27-30). -/
def keepHeader (hs : Cache K H) (b : B) : Res (Cache K H) :=
  if cached hs (v.key b) then .ok hs else Cache.put hs (v.key b) (v.header b)

/-- `AddOrphanBlock` (OrphanPool.cpp:25-49). -/
def OrphanPool.addBlock (p : OrphanPool K B H) (b : B) : Res (OrphanPool K B H) := do
  let hs ← keepHeader v p.headers b
  match findHeight p.byHeight (v.height b) with
  | some l =>
    if l.any (fun x => v.key x = v.key b) then .ok ⟨p.byHeight, hs⟩
    else .ok ⟨setHeight p.byHeight (v.height b) (l ++ [b]), hs⟩
  | none => .ok ⟨(v.height b, [b]) :: p.byHeight, hs⟩

/-- `GetOrphanBlock` (OrphanPool.cpp:51-66). -/
def OrphanPool.getBlock (p : OrphanPool K B H) (h : Nat) (k : K) : Option B :=
  match findHeight p.byHeight h with
  | some l => l.find? (fun b => v.key b = k)
  | none => none

/-- `GetNextOrphanBlock` (OrphanPool.cpp:68-83). -/
def OrphanPool.nextBlock (p : OrphanPool K B H) (h : Nat) (k : K) : Option B :=
  match findHeight p.byHeight h with
  | some l => l.find? (fun b => v.prev b = k)
  | none => none

/-- `RemoveOrphan` (OrphanPool.cpp:85-104): the first orphan with the hash is erased, and the height if nothing is left of it. -/
def OrphanPool.remove (p : OrphanPool K B H) (h : Nat) (k : K) : OrphanPool K B H :=
  match findHeight p.byHeight h with
  | some l =>
    let l' := l.eraseP (fun b => v.key b = k)
    let m := setHeight p.byHeight h l'
    { p with byHeight := if l' = [] then eraseHeight m h else m }
  | none => p

/-- `GetOrphanHeader` (OrphanPool.cpp:106-114). -/
def OrphanPool.getHeader (p : OrphanPool K B H) (k : K) : Res (OrphanPool K B H × Option H) :=
  if cached p.headers k then do
    let r ← fetch p.headers k
    .ok ({ p with headers := r.1 }, some r.2)
  else .ok (p, none)

/-- `AddOrphanHeader` (OrphanPool.cpp:116-119). -/
def OrphanPool.addHeader (p : OrphanPool K B H) (hd : H) : Res (OrphanPool K B H) := do
  let hs ← Cache.put p.headers (v.hash hd) hd
  .ok { p with headers := hs }

/-- The calls that change the pool. -/
inductive Call (K B H : Type)
  | addBlock (b : B)
  | remove (h : Nat) (k : K)
  | addHeader (hd : H)
  | getHeader (k : K)

/-- One call. -/
def Call.step (p : OrphanPool K B H) : Call K B H → Res (OrphanPool K B H)
  | .addBlock b => p.addBlock v b
  | .remove h k => .ok (p.remove v h k)
  | .addHeader hd => p.addHeader v hd
  | .getHeader k => do
    let r ← p.getHeader k
    .ok r.1

/-- A history of calls. -/
def runCalls (p : OrphanPool K B H) : List (Call K B H) → Res (OrphanPool K B H)
  | [] => .ok p
  | c :: l => do
    let p ← Call.step v p c
    runCalls p l

end Verif.BC.Orphans
