import Verif.Tx.Sums

/-!
# Validation of a downloaded snapshot

Model of `src/PMMR/TxHashSetValidator.cpp`.  The three threads of the hash check only read and are run one after the other; of the
progress reports only the conversion that may be undefined is kept.  Range proofs and signatures are checked by the
parameters of `Checks`; deserialization of stored kernels and proofs is part of them.
-/
namespace Verif.Tx
open Verif.PoW Verif.MMR

/-- What the validator asks of others: `Crypto::VerifyRangeProofs` on commitments and stored proofs, `KernelSignatureValidator::BatchVerify` on
stored kernels, and `IBlockChain::GetBlockHeaderByHeight` for the candidate chain. -/
structure Checks where
  proofs : List (Bytes × Bytes) → Bool
  signatures : List Bytes → Bool
  headerAt : Nat → Option Header

/-- `ValidateSizes` (TxHashSetValidator.cpp:118-139): the sizes of the hash files. -/
def validateSizes (t : THS) (h : Header) : Bool :=
  t.kernels.hashes.length = h.kernelMMRSize ∧ t.outputs.size = h.outputMMRSize ∧ t.proofs.size = h.outputMMRSize

/-- `KernelMMR::GetHashAt` (KernelMMR.h:32-35): never a null pointer. -/
def kernelHashAt (k : KMMR) (p : Nat) : Res (Option Bytes) := do
  let h ← fileAt k.hashes p
  return some h

/-- The body of the loop of `ValidateMMRHashes` (TxHashSetValidator.cpp:148-161). -/
def checkNode (H : Bytes → Bytes) (hashAt : Nat → Res (Option Bytes)) (p : Nat) : Res Bool :=
  if (Index.at p).isLeaf then .ok true
  else do
    let parent ← hashAt p
    match parent with
    | none => return true
    | some parent => do
      let l ← hashAt (Index.at p).leftChild.pos
      let r ← hashAt (Index.at p).rightChild.pos
      match l, r with
      | some l, some r => return decide (parent = hashParent H l r p)
      | _, _ => return true

/-- The loop of `ValidateMMRHashes` over the positions below `n` (TxHashSetValidator.cpp:147-162). -/
def checkNodes (H : Bytes → Bytes) (hashAt : Nat → Res (Option Bytes)) : Nat → Res Bool
  | 0 => .ok true
  | n + 1 => do
    let b ← checkNodes H hashAt n
    if b then checkNode H hashAt n else return false

/-- `ValidateMMRHashes` (TxHashSetValidator.cpp:142-171): an exception counts as failure. -/
def validateHashes (H : Bytes → Bytes) (hashAt : Nat → Res (Option Bytes)) (size : Nat) : Res Bool :=
  match checkNodes H hashAt size with
  | .throw => .ok false
  | r => r

/-- The loop of `ValidateKernelHistory` over the heights below `n` (TxHashSetValidator.cpp:176-195).  At height 0 the progress is `0.0 / total`,
which is not a number if the total is 0 and then converted to an integer. -/
def historyBelow (H : Bytes → Bytes) (c : Checks) (k : KMMR) (total : Nat) : Nat → Res Bool
  | 0 => .ok true
  | n + 1 => do
    let b ← historyBelow H c k total n
    if b then
      match c.headerAt n with
      | none => return false
      | some hd => do
        let r ← k.root H hd.kernelMMRSize
        if r ≠ hd.kernelRoot then return false
        else if n % 1000 = 0 ∧ total = 0 then .ub
        else return true
    else return false

/-- `ValidateKernelHistory` (TxHashSetValidator.cpp:173-198). -/
def validateHistory (H : Bytes → Bytes) (c : Checks) (k : KMMR) (h : Header) : Res Bool :=
  historyBelow H c k h.height (h.height + 1)

/-- The loop of `ValidateRangeProofs` from leaf `n` on (TxHashSetValidator.cpp:242-277) with the batch collected so far.  `fuel` bounds the number of
leaves. -/
def proofLoop (c : Checks) (t : THS) : Nat → Nat → List (Bytes × Bytes) → Res Bool
  | 0, _, _ => .ub
  | fuel + 1, n, batch =>
    if leafPos n < t.outputs.size then do
      let o ← t.outputs.getAt n
      match o with
      | none => proofLoop c t fuel (n + 1) batch
      | some o => do
        let p ← t.proofs.getAt n
        match p with
        | none => return false
        | some p =>
          let batch := batch ++ [(idCommit o, p)]
          if batch.length ≥ 1000 then
            if c.proofs batch then proofLoop c t fuel (n + 1) [] else return false
          else proofLoop c t fuel (n + 1) batch
    else if batch = [] then return true
    else return c.proofs batch

/-- `ValidateRangeProofs` (TxHashSetValidator.cpp:235-281); leaf `n` lies at position `n` or after it. -/
def validateProofs (c : Checks) (t : THS) : Res Bool := proofLoop c t (t.outputs.size + 1) 0 []

/-- The loop of `ValidateKernelSignatures` (TxHashSetValidator.cpp:288-309) over the stored kernels from some leaf on, with the batch
collected so far.  The last batch is checked even if it is empty. -/
def signatureLoop (c : Checks) : List Bytes → List Bytes → Bool
  | [], batch => c.signatures batch
  | d :: ds, batch =>
    let batch := batch ++ [d]
    if batch.length ≥ 2000 then
      if c.signatures batch then signatureLoop c ds [] else false
    else signatureLoop c ds batch

/-- `ValidateKernelSignatures` (TxHashSetValidator.cpp:283-312): all kernels of the data file. -/
def validateSignatures (c : Checks) (k : KMMR) : Bool := signatureLoop c k.data []

section
variable {G : Type} [AddCommGroup G] [DecidableEq G] (C : Curve G)

/-- `Validate` (TxHashSetValidator.cpp:16-116); `none` is the null pointer. -/
def validateSnapshot (H : Bytes → Bytes) (ubmt : Finset Nat → Nat → Bytes) (c : Checks) (t : THS) (h : Header) :
    Res (Option (Bytes × Bytes)) :=
  if !validateSizes t h then .ok none
  else do
    let a ← validateHashes H (kernelHashAt t.kernels) t.kernels.hashes.length
    let b ← validateHashes H t.outputs.hashAt t.outputs.size
    let d ← validateHashes H t.proofs.hashAt t.proofs.size
    if !(a && b && d) then return none
    else do
      let r ← validateRoots H ubmt t h
      if !r then return none
      else do
        let hist ← validateHistory H c t.kernels h
        if !hist then return none
        else
          match snapshotSums C t h with
          | .ub => .ub
          | .throw => return none
          | .ok sums => do
            let p ← validateProofs c t
            if !p then return none
            else if !validateSignatures c t.kernels then return none
            else return some sums

end

end Verif.Tx
