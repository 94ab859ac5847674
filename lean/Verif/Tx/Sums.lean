import Verif.Tx.TxHashSet
import Mathlib.Algebra.BigOperators.Group.List.Basic
import Mathlib.Algebra.Module.NatInt

/-!
# Sums of commitments

Model of `include/Core/Validation/KernelSumValidator.h`, of the parts of `src/Crypto/Crypto.cpp` and
`src/Crypto/Pedersen.cpp` it uses, of `BlockValidator::VerifyCoinbase`,
`TransactionValidator::ValidateKernelSums`, `TxHashSetValidator::ValidateKernelSums` and of
`BlockProcessor::ValidateAndAddBlock`.  The curve is an arbitrary commutative group; what is used of
libsecp256k1 are the fields of `Curve`.
-/
namespace Verif.Tx
open Verif.PoW Verif.MMR

/-- What is used of libsecp256k1-zkp: parsing and serializing commitments, the two generators, the
order bound for scalars.  A serialized point parses to itself and is not the all-zero string (the first
byte of a serialized commitment is 8 or 9). -/
structure Curve (G : Type) [AddCommGroup G] where
  parse : Bytes → Option G
  ser : G → Bytes
  genV : G
  genB : G
  order : Nat
  parse_ser : ∀ g, g ≠ 0 → parse (ser g) = some g
  ser_ne : ∀ g, ser g ≠ List.replicate 33 0

/-- `CBigInteger<33>::ValueOf(0)`. -/
def zeroCommit : Bytes := List.replicate 33 0

/-- `Consensus::REWARD` (Consensus.h). -/
def REWARD : Nat := 60 * 1000000000

section
variable {G : Type} [AddCommGroup G] [DecidableEq G] (C : Curve G)

/-- `ConvertCommitments` (Pedersen.cpp:163-180): throws if a commitment does not parse. -/
def parseAll : List Bytes → Res (List G)
  | [] => .ok []
  | c :: cs =>
    match C.parse c with
    | none => .throw
    | some g => do
      let gs ← parseAll cs
      return g :: gs

/-- `AddCommitments` (Crypto.cpp:31-52) and `PedersenCommitSum` (Pedersen.cpp:44-80): all-zero
commitments are skipped; the sum fails if it is the point at infinity. -/
def addCommitments (pos neg : List Bytes) : Res Bytes := do
  let p ← parseAll C (pos.filter (· ≠ zeroCommit))
  let n ← parseAll C (neg.filter (· ≠ zeroCommit))
  let g := p.sum - n.sum
  if g = 0 then .throw else return C.ser g

/-- `CommitTransparent` and `CommitBlinded` (Crypto.cpp:19-29, Pedersen.cpp:26-42): fails for a scalar
that is not below the order, and for the point at infinity. -/
def commit (value : Nat) (blind : Nat) : Res Bytes :=
  if blind ≥ C.order then .throw
  else
    let g := value • C.genV + blind • C.genB
    if g = 0 then .throw else .ok (C.ser g)

/-- `AddKernelOffset` (KernelSumValidator.h:86-98). -/
def addKernelOffset (kernelSum : Bytes) (offset : Bytes) : Res Bytes :=
  if beVal offset = 0 then .ok kernelSum
  else do
    let c ← commit C 0 (beVal offset)
    addCommitments C [kernelSum, c] []

/-- The commitments added on the output side for a positive overage, and on the input side for a
negative one (KernelSumValidator.h:47-54). -/
def overageCommits (overage : Int) : Res (List Bytes × List Bytes) :=
  if overage > 0 then do
    let c ← commit C overage.toNat 0
    return ([c], [])
  else if overage < 0 then do
    let c ← commit C (-overage).toNat 0
    return ([], [c])
  else .ok ([], [])

/-- `ValidateKernelSums` (KernelSumValidator.h:36-83); the result is the pair of sums. -/
def kernelSums (inputs outputs kernels : List Bytes) (overage : Int) (offset : Bytes)
    (prev : Option (Bytes × Bytes)) : Res (Bytes × Bytes) := do
  let ov ← overageCommits C overage
  let u ← addCommitments C (outputs ++ ov.1 ++ (prev.map (·.1)).toList) (inputs ++ ov.2)
  let k ← addCommitments C (kernels ++ (prev.map (·.2)).toList) []
  let ko ← addKernelOffset C k offset
  if u ≠ ko then .throw else return (u, k)

/-- The commitments of a body (KernelSumValidator.h:24-31). -/
def bodySums (b : Body) (overage : Int) (offset : Bytes) (prev : Option (Bytes × Bytes)) :
    Res (Bytes × Bytes) :=
  kernelSums C (b.inputs.map (·.commit)) (b.outputs.map (·.commit)) (b.kernels.map (·.excess))
    overage offset prev

/-- `TransactionValidator::ValidateKernelSums` (TransactionValidator.cpp:63-82).  The fees are added in
a signed 64-bit integer; overflow is undefined. -/
def txSums (tx : Tx) : Res (Bytes × Bytes) :=
  let fees : Nat := (tx.body.kernels.map (·.fee.fee)).sum
  if fees ≥ 2 ^ 63 then .ub else bodySums C tx.body fees tx.offset none

/-- `BlockValidator::VerifyCoinbase` (BlockValidator.cpp:70-106), `TransactionBody::CalcFee`
(TransactionBody.h:71-78). -/
def verifyCoinbase (b : Body) : Res Unit := do
  let reward := (REWARD + (b.kernels.map (·.fee.fee)).sum) % 2 ^ 64
  let c ← commit C reward 0
  let o ← addCommitments C ((b.outputs.filter outIsCoinbase).map (·.commit)) [c]
  let k ← addCommitments C ((b.kernels.filter kerIsCoinbase).map (·.excess)) []
  if k ≠ o then .throw else return ()

/-- The unspent outputs below leaf `n` (TxHashSetValidator.cpp:206-213). -/
def unspentBelow (o : PMMR) : Nat → Res (List Bytes)
  | 0 => .ok []
  | n + 1 => do
    let xs ← unspentBelow o n
    let d ← o.getAt n
    match d with
    | none => return xs
    | some d => return xs ++ [idCommit d]

/-- The excess of a stored kernel: features, fee and lock height take 17 bytes
(TransactionKernel.cpp, format used by `KernelMMR`). -/
def kernelExcess (d : Bytes) : Bytes := (d.drop 17).take 33

/-- The excesses of the kernels below `n` (TxHashSetValidator.cpp:216-223).  `GetKernelAt` past the end of the data file
reads outside its buffer (KernelMMR.cpp:36-45, AppendOnlyFile.cpp:87-92); it is otherwise never a null pointer. -/
def excessesBelow (k : KMMR) : Nat → Res (List Bytes)
  | 0 => .ok []
  | n + 1 => do
    let xs ← excessesBelow k n
    let d ← k.at n
    return xs ++ [kernelExcess d]

/-- `TxHashSetValidator::ValidateKernelSums` (TxHashSetValidator.cpp:200-233).  The overage is
computed in unsigned 64-bit arithmetic and then read as a signed number. -/
def snapshotSums (t : THS) (h : Header) : Res (Bytes × Bytes) := do
  let raw : Nat := (2 ^ 64 - (REWARD * (1 + h.height)) % 2 ^ 64) % 2 ^ 64
  let overage : Int := if raw < 2 ^ 63 then raw else (raw : Int) - 2 ^ 64
  let outs ← unspentBelow t.outputs (numOutputs h)
  let kers ← excessesBelow t.kernels (numKernels h)
  kernelSums C [] outs kers overage h.offset none

/-- The stored state of the chain: the tables of `DB`, the output set and the table of block sums. -/
structure Node where
  db : DB
  t : THS
  sums : Bytes → Option (Bytes × Bytes)

/-- `ValidateAndAddBlock` (BlockProcessor.cpp:184-225).  `consistent` is
`BlockValidator::VerifySelfConsistent`; the orphan and transaction pools are left out. -/
def validateAndAdd (env : Env) (H : Bytes → Bytes) (hh : Header → Bytes)
    (ubmt : Finset Nat → Nat → Bytes) (consistent : Block → Res Unit) (n : Node) (b : Block) :
    Res Node :=
  match n.db.header b.header.prevHash with
  | none => .throw
  | some _ => do
    let r ← applyBlock env H hh n.db n.t b
    match r with
    | none => .throw
    | some (db, t) => do
      let _ ← consistent b
      let ok ← validateRoots H ubmt t b.header
      if !ok then .throw
      else
        match n.sums b.header.prevHash with
        | none => .throw
        | some prev => do
          let s ← bodySums C b.body (-(REWARD : Int)) b.header.offset (some prev)
          return ⟨db.addBlock (hh b.header) b, t,
            fun x => if x = hh b.header then some s else n.sums x⟩

/-- The sums stored for the genesis block (ChainState.cpp:56-60). -/
def genesisSums (output excess : Bytes) : Res (Bytes × Bytes) := do
  let r ← commit C REWARD 0
  let u ← addCommitments C [output] [r]
  return (u, excess)

end

end Verif.Tx
