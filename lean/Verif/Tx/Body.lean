import Verif.Ser.Core
import Verif.PoW.Consensus

/-!
# Transaction bodies: validation, weight, cut-through, aggregation

Model of `src/Core/Validation/TxBodyValidator.cpp`, `src/Core/Validation/TransactionValidator.cpp`,
the weights of `include/Consensus.h` and `include/Core/Util/TransactionUtil.h`.  Range-proof and
kernel-signature verification are parameters.
-/
namespace Verif.Tx
open Verif.PoW

/-! ## Sorting and duplicates -/

/-- `Consensus::IsSorted` (Consensus.h:43-57): the only test is `hash > next hash`. -/
def isSorted {α : Type} (h : α → Nat) : List α → Bool
  | a :: b :: l => if h a > h b then false else isSorted h (b :: l)
  | _ => true

/-- The loops of `VerifySorted` comparing item `i` with item `i - 1`
(TxBodyValidator.cpp:33-43). -/
def noAdjacent {α : Type} (eq : α → α → Bool) : List α → Bool
  | a :: b :: l => if eq b a then false else noAdjacent eq (b :: l)
  | _ => true

/-- `TransactionInput::operator==` (TransactionInput.h:43). -/
def inputEq (a b : TxInput) : Bool := a.features = b.features && a.commit = b.commit

/-- `TransactionOutput::operator==` (TransactionOutput.h:43): the hashes are compared. -/
def outputEq (H : DigestNum) (a b : TxOutput) : Bool := outputHash H a = outputHash H b

/-- `VerifySorted` (TxBodyValidator.cpp:24-44). -/
def verifySorted (H : DigestNum) (b : Body) : Res Unit :=
  if !(isSorted (inputHash H) b.inputs && isSorted (outputHash H) b.outputs &&
    isSorted (kernelHash H) b.kernels) then .throw
  else if !noAdjacent inputEq b.inputs then .throw
  else if !noAdjacent (outputEq H) b.outputs then .throw
  else .ok ()

/-- `VerifyCutThrough` (TxBodyValidator.cpp:47-67). -/
def verifyCutThrough (b : Body) : Res Unit :=
  let outs := b.outputs.map (·.commit)
  if b.inputs.any (fun i => outs.contains i.commit) then .throw else .ok ()

/-- `VerifyRangeProofs` (TxBodyValidator.cpp:69-80). -/
def verifyProofs (proofs : List (Bytes × Bytes) → Bool) (b : Body) : Res Unit :=
  if !proofs (b.outputs.map (fun o => (o.commit, o.proof))) then .throw else .ok ()

/-- `TxBodyValidator::Validate` (TxBodyValidator.cpp:13-22); `sigs` is
`KernelSignatureValidator::BatchVerify`. -/
def validateBody (H : DigestNum) (proofs : List (Bytes × Bytes) → Bool) (sigs : List Kernel → Bool)
    (b : Body) : Res Unit := do
  verifySorted H b
  verifyCutThrough b
  verifyProofs proofs b
  if !sigs b.kernels then .throw else .ok ()

/-! ## Weight -/

/-- `MAX_BLOCK_WEIGHT` (Consensus.h:87). -/
def MAX_BLOCK_WEIGHT : Nat := 40000

/-- `CalculateWeightV4` (Consensus.h:89-92), in `int64_t`; counts are vector sizes, so there is no
overflow. -/
def weightV4 (i o k : Nat) : Nat := (max (-(i : Int) + 4 * (o : Int) + (k : Int)) 1).toNat

/-- `CalculateWeightV5` (Consensus.h:94-99), in `uint64_t`. -/
def weightV5 (i o k : Nat) : Nat := (i * 1 + o * 21 + k * 3) % 2 ^ 64

/-- `TransactionBody::CalcWeight` (TransactionBody.cpp:150-161). -/
def calcWeight (env : Env) (height : Nat) (b : Body) : Nat :=
  if headerVersion env height < 5 then
    weightV4 b.inputs.length b.outputs.length b.kernels.length
  else weightV5 b.inputs.length b.outputs.length b.kernels.length

/-- `BlockValidator::VerifyWeight` (BlockValidator.cpp:44-49). -/
def verifyBlockWeight (env : Env) (b : Block) : Res Unit :=
  if calcWeight env b.header.height b.body > MAX_BLOCK_WEIGHT then .throw else .ok ()

/-- `TransactionValidator::ValidateWeight` (TransactionValidator.cpp:27-37). -/
def validateTxWeight (env : Env) (height : Nat) (b : Body) : Res Unit :=
  if (calcWeight env height b + (21 + 3)) % 2 ^ 64 > MAX_BLOCK_WEIGHT then .throw else .ok ()

/-! ## Features -/

/-- `TransactionOutput::IsCoinbase` (TransactionOutput.h:52). -/
def outIsCoinbase (o : TxOutput) : Bool := o.features &&& 1 = 1

/-- `TransactionKernel::IsCoinbase` (TransactionKernel.h:57). -/
def kerIsCoinbase (k : Kernel) : Bool := k.features &&& 1 = 1

/-- `TransactionValidator::ValidateFeatures` (TransactionValidator.cpp:39-60). -/
def validateFeatures (b : Body) : Res Unit :=
  if b.outputs.any outIsCoinbase then .throw
  else if b.kernels.any kerIsCoinbase then .throw
  else .ok ()

/-- `BlockValidator::VerifyKernelLockHeights` (BlockValidator.cpp:53-66). -/
def verifyLockHeights (b : Block) : Res Unit :=
  if b.body.kernels.any (fun k => k.lockHeight > b.header.height) then .throw else .ok ()

/-! ## Cut-through and aggregation -/

/-- `PerformCutThrough` (TransactionUtil.h:11-50): both sets are taken before anything is erased. -/
def cutThrough (ins : List TxInput) (outs : List TxOutput) : List TxInput × List TxOutput :=
  let ic := ins.map (·.commit)
  let oc := outs.map (·.commit)
  (ins.filter (fun i => !oc.contains i.commit), outs.filter (fun o => !ic.contains o.commit))

/-- `Aggregate` (TransactionUtil.h:57-109).  `sum` is `Crypto::AddBlindingFactors(·, {})`.  Called
with no transaction, the result of the multi-transaction path. -/
def aggregate (H : DigestNum) (sum : List Bytes → Res Bytes) (txs : List Tx) : Res Tx :=
  match txs with
  | [t] => .ok t
  | _ => do
    let io := cutThrough (txs.flatMap (·.body.inputs)) (txs.flatMap (·.body.outputs))
    let offset ← sum (txs.map (·.offset))
    return ⟨offset, ⟨sortByHash (inputHash H) io.1, sortByHash (outputHash H) io.2,
      sortByHash (kernelHash H) (txs.flatMap (·.body.kernels))⟩⟩

end Verif.Tx
