import Verif.Tx.Body
import Verif.MMR.Pruneable

/-!
# The chain's output set

Model of `src/PMMR/TxHashSetImpl.cpp` and of the parts of `src/Database/BlockDBImpl.cpp` it uses.  The
output and range-proof ranges and the kernel range are those of `Verif.MMR`; the database tables are
maps.
-/
namespace Verif.Tx
open Verif.PoW Verif.MMR

/-- `OutputLocation` (OutputLocation.h:20-21): leaf number and block height. -/
structure Loc where
  leaf : Nat
  height : Nat
deriving DecidableEq, Repr

/-- The tables `OUTPUT_POS`, `SPENT_OUTPUTS`, `BLOCK` and `HEADER` of the block database. -/
structure DB where
  pos : Bytes → Option Loc
  spent : Bytes → Option (List (Bytes × Loc))
  block : Bytes → Option Block
  header : Bytes → Option Header

/-- `AddOutputPosition` (BlockDBImpl.cpp:245-250). -/
def DB.addPos (db : DB) (c : Bytes) (l : Loc) : DB :=
  { db with pos := fun x => if x = c then some l else db.pos x }

/-- `RemoveOutputPositions` (BlockDBImpl.cpp:258-268). -/
def DB.removePos (db : DB) (cs : List Bytes) : DB :=
  { db with pos := fun x => if x ∈ cs then none else db.pos x }

/-- `AddSpentPositions` (BlockDBImpl.cpp:277-283) followed by reading it back: the record holds a
16-bit count (SpentOutput.h:82-109), so a longer list loses entries. -/
def DB.addSpent (db : DB) (hash : Bytes) (l : List (Bytes × Loc)) : DB :=
  { db with spent := fun x => if x = hash then some (l.take (l.length % 2 ^ 16)) else db.spent x }

/-- `AddBlock` (BlockDBImpl.cpp:202-209). -/
def DB.addBlock (db : DB) (hash : Bytes) (b : Block) : DB :=
  { db with block := fun x => if x = hash then some b else db.block x }

/-- `TxHashSet` (TxHashSetImpl.h): the kernel, output and range-proof ranges and the header of the
last block applied. -/
structure THS where
  kernels : KMMR
  outputs : PMMR
  proofs : PMMR
  header : Header

/-- `OutputIdentifier::Serialize` (OutputIdentifier.cpp). -/
def identifier (o : TxOutput) : Bytes := beBytes 1 o.features ++ o.commit

/-- `OutputIdentifier::Deserialize` and `IsCoinbase` (OutputIdentifier.h:46): the features byte. -/
def idFeatures (d : Bytes) : Nat := (d.headD 0).toNat

/-- The commitment of a stored output identifier. -/
def idCommit (d : Bytes) : Bytes := d.tail

/-- `OutputIdentifier::IsCoinbase` (OutputIdentifier.h:46). -/
def idIsCoinbase (d : Bytes) : Bool := idFeatures d &&& 1 = 1

/-- The loop over inputs of `ApplyBlock` (TxHashSetImpl.cpp:109-129).  `none` is `return false`.  The
pointer from `GetAt` is only checked by an `assert` and then dereferenced (118-120). -/
def spendInputs (db : DB) (maxHeight : Nat) : List TxInput → PMMR → PMMR →
    Res (Option (PMMR × PMMR × List (Bytes × Loc)))
  | [], o, p => .ok (some (o, p, []))
  | i :: is, o, p =>
    match db.pos i.commit with
    | none => .ok none
    | some loc => do
      let d ← o.getAt loc.leaf
      match d with
      | none => .ub
      | some d =>
        if idIsCoinbase d ∧ loc.height > maxHeight then .ok none
        else do
          let o' ← o.remove loc.leaf
          let p' ← p.remove loc.leaf
          let r ← spendInputs db maxHeight is o' p'
          return r.map (fun r => (r.1, r.2.1, (i.commit, loc) :: r.2.2))

/-- The test at TxHashSetImpl.cpp:135-136: the commitment has a position and it is unspent. -/
def isDuplicate (db : DB) (o : PMMR) (c : Bytes) : Bool :=
  match db.pos c with
  | some loc => o.isUnpruned loc.leaf
  | none => false

/-- The loop over outputs of `ApplyBlock` (TxHashSetImpl.cpp:134-151). -/
def addOutputs (H : Bytes → Bytes) (height : Nat) : List TxOutput → DB → PMMR → PMMR →
    Res (Option (DB × PMMR × PMMR))
  | [], db, o, p => .ok (some (db, o, p))
  | x :: xs, db, o, p =>
    if isDuplicate db o x.commit then .ok none
    else do
      let loc : Loc := ⟨leafIndexAt o.size, height⟩
      let o' ← o.append H (identifier x)
      let p' ← p.append H (proofSer x.proof)
      addOutputs H height xs (db.addPos x.commit loc) o' p'

/-- `ApplyBlock` (TxHashSetImpl.cpp:98-163).  `hh` is the block hash, `none` is `return false`. -/
def applyBlock (env : Env) (H : Bytes → Bytes) (hh : Header → Bytes) (db : DB) (t : THS) (b : Block) :
    Res (Option (DB × THS)) := do
  let r ← spendInputs db (maxCoinbaseHeight env b.header.height) b.body.inputs t.outputs t.proofs
  match r with
  | none => return none
  | some (o, p, sp) => do
    let db := db.addSpent (hh b.header) sp
    let r ← addOutputs H b.header.height b.body.outputs db o p
    match r with
    | none => return none
    | some (db, o, p) => do
      let db := db.removePos (b.body.inputs.map (·.commit))
      let k ← t.kernels.applyAll H (b.body.kernels.map (kernelSer 1))
      return some (db, ⟨k, o, p, b.header⟩)

/-- The inner loop of `Rewind` over the inputs of one block (TxHashSetImpl.cpp:352-360). -/
def unspendInputs (sp : List (Bytes × Loc)) : List TxInput → DB → Res (DB × List Nat)
  | [], db => .ok (db, [])
  | i :: is, db =>
    match sp.find? (fun e => e.1 = i.commit) with
    | none => .throw
    | some e => do
      let r ← unspendInputs sp is (db.addPos i.commit e.2)
      return (r.1, e.2.leaf :: r.2)

/-- The outer loop of `Rewind` (TxHashSetImpl.cpp:341-363), at most `fuel` iterations; a header
missing from the database leaves a null pointer that the loop condition dereferences. -/
def rewindLoop (hh : Header → Bytes) (target : Header) : Nat → DB → Header → Res (DB × List Nat)
  | 0, db, cur => if hh cur ≠ hh target then .ub else .ok (db, [])
  | fuel + 1, db, cur =>
    if hh cur ≠ hh target then
      match db.block (hh cur) with
      | none => .throw
      | some b =>
        match db.spent (hh cur) with
        | none => .throw
        | some sp => do
          let r ← unspendInputs sp b.body.inputs (db.removePos (b.body.outputs.map (·.commit)))
          match r.1.header cur.prevHash with
          | none => .ub
          | some prev => do
            let r2 ← rewindLoop hh target fuel r.1 prev
            return (r2.1, r.2 ++ r2.2)
    else .ok (db, [])

/-- `BlockHeader::GetNumOutputs` (BlockHeader.h:86). -/
def numOutputs (h : Header) : Nat := leafIndexAt h.outputMMRSize

/-- `BlockHeader::GetNumKernels` (BlockHeader.h:87). -/
def numKernels (h : Header) : Nat := leafIndexAt h.kernelMMRSize

/-- `Rewind` (TxHashSetImpl.cpp:339-368).  `m_pBlockHeader` ends as the last header read, which has
the hash of `target`. -/
def rewind (hh : Header → Bytes) (db : DB) (t : THS) (target : Header) : Res (DB × THS) := do
  let r ← rewindLoop hh target (t.header.height + 1) db t.header
  let k ← t.kernels.rewind (numKernels target)
  let o ← t.outputs.rewind (numOutputs target) r.2
  let p ← t.proofs.rewind (numOutputs target) r.2
  return (r.1, ⟨k, o, p, target⟩)

/-- The input check of `IsValid` for one input (TxHashSetImpl.cpp:38-55). -/
def inputValid (db : DB) (t : THS) (maxHeight : Nat) (c : Bytes) : Res Bool :=
  match db.pos c with
  | none => .ok false
  | some loc => do
    let d ← t.outputs.getAt loc.leaf
    match d with
    | none => return false
    | some d =>
      return idCommit d = c && !(idIsCoinbase d && loc.height > maxHeight)

/-- The output check of `IsValid` for one output (TxHashSetImpl.cpp:62-70). -/
def outputValid (db : DB) (t : THS) (c : Bytes) : Res Bool :=
  match db.pos c with
  | none => .ok true
  | some loc => do
    let d ← t.outputs.getAt loc.leaf
    match d with
    | none => return true
    | some d => return !(idCommit d = c)

/-- A loop that returns false at the first failing item. -/
def allValid (f : Bytes → Res Bool) : List Bytes → Res Bool
  | [] => .ok true
  | c :: cs => do
    let b ← f c
    if b then allValid f cs else return false

/-- `IsValid` (TxHashSetImpl.cpp:30-75). -/
def isValid (env : Env) (db : DB) (t : THS) (b : Body) : Res Bool := do
  let r ← allValid (inputValid db t (maxCoinbaseHeight env (t.header.height + 1)))
    (b.inputs.map (·.commit))
  if r then allValid (outputValid db t) (b.outputs.map (·.commit)) else return false

/-- `ValidateRoots` (TxHashSetImpl.cpp:165-193): every root is taken at the size the header states.
`ubmt` is the root of the unspent bitmap for a number of outputs (LeafSet.h:57-77). -/
def validateRoots (H : Bytes → Bytes) (ubmt : Finset Nat → Nat → Bytes) (t : THS) (h : Header) :
    Res Bool := do
  let k ← t.kernels.root H h.kernelMMRSize
  if k ≠ h.kernelRoot then return false
  else do
    let o ← t.outputs.root H h.outputMMRSize
    let merged :=
      if h.version < 3 then o
      else hashParent H o (ubmt t.outputs.leafSet (numOutputs h)) h.outputMMRSize
    if merged ≠ h.outputRoot then return false
    else do
      let p ← t.proofs.root H h.outputMMRSize
      if p ≠ h.rangeProofRoot then return false else return true

end Verif.Tx
