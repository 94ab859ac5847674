import Verif.Codec.Slate
import Verif.Wallet.PayProof
import Verif.Tx.Pool

/-!
# Finalizing a payment: from the receiver's slate to the transaction

Model of `src/Wallet/SlateBuilder/FinalizeSlateBuilder.cpp` on whole slates, of `TransactionBuilder.h` and of the checks the sender's
wallet makes on the finished transaction.  Signing is that of `Wallet.Sign`, the payment proof that of `Wallet.PayProof`, the validation
that of `Tx.Pool`.  What is written to the database is modelled in `Wallet.DB`.
-/
namespace Verif.Wallet
open Verif.Codec Verif.Tx Verif.PoW

/-- The parts of `OutputDataEntity` (WalletDB/Models/OutputDataEntity.h) used here: features, commitment, range proof, amount and blinding
factor. -/
structure SlateCoin (F : Type) where
  features : Nat
  commit : Bytes
  proof : Bytes
  value : Nat
  blind : F
deriving DecidableEq

/-- What the sender's wallet has stored for a slate: the slate sent, the offset of the transaction stored with it
(`WalletTx::GetTransaction`, absent if there is none), the payment proof asked for, and the secret context
(`SlateContextEntity`, SlateContextEntity.h:24-92). -/
structure SendRecord (F : Type) where
  sent : Slate
  offset : Option Bytes
  proof : Option PayProof
  key : F
  nonce : F
  inputs : List (SlateCoin F)
  outputs : List (SlateCoin F)

/-- The conversions between the bytes on a slate and scalars and points, all external: an entry of `sigs` (nothing if a public key or
signature does not parse), its way back, the bytes of an aggregate signature, and the message of a kernel
(`TransactionKernel::GetSignatureMessage`, TransactionKernel.cpp:160-181). -/
structure SlateOps (F G X M : Type) where
  entry : SlateSig → Option (Entry F G X)
  back : Entry F G X → SlateSig
  sig : X × F → Bytes
  message : Nat → Fee → Nat → M

/-- The entries of a slate, or an exception if one does not parse. -/
def readEntries {F G X : Type} (f : SlateSig → Option (Entry F G X)) : List SlateSig → Res (List (Entry F G X))
  | [] => .ok []
  | s :: ss =>
    match f s with
    | none => .throw
    | some e => do
      let es ← readEntries f ss
      return e :: es

/-- `SlatePaymentProof` on a slate as the proof that is verified. -/
def proofOf (p : Codec.PayProof) : PayProof := ⟨p.sender, p.receiver, p.signature⟩

/-- `BlindingFactor::IsNull` (BlindingFactor.h:54). -/
def isNullOffset (o : Bytes) : Bool := o = List.replicate 32 0

section
variable {F G X M : Type} [Field F] [AddCommGroup G] [Module F G] [DecidableEq G] [DecidableEq X]
variable (S : Scheme F G X M) (O : SlateOps F G X M) (pl : ProofLib G)

/-- The offset of the finalized slate (FinalizeSlateBuilder.cpp:29-34): the receiver's, or the stored one if that is null. -/
def finalOffset (c : SendRecord F) (r : Slate) : Res Bytes :=
  if isNullOffset r.offset then
    match c.offset with
    | some o => .ok o
    | none => .throw
  else .ok r.offset

/-- Inputs and change of the context put on the slate (FinalizeSlateBuilder.cpp:42-54). -/
def addOwn (c : SendRecord F) (s : Slate) : Slate :=
  c.outputs.foldl (fun s o => s.addOutput o.features o.commit o.proof)
    (c.inputs.foldl (fun s i => s.addInput i.features i.commit) s)

/-- The slate before signing (FinalizeSlateBuilder.cpp:17-54). -/
def mergeSlate (c : SendRecord F) (r : Slate) : Res Slate := do
  let offset ← finalOffset c r
  let s : Slate := { r with
    stage := .standardFinalized, offset := offset, amount := c.sent.amount, fee := c.sent.fee,
    features := c.sent.features, featureArgs := c.sent.featureArgs, ttl := c.sent.ttl }
  return addOwn c s

/-- `TransactionBuilder::BuildTransaction` (TransactionBuilder.h:10-31). -/
def buildTransaction (H : DigestNum) (ins : List TxInput) (outs : List TxOutput) (k : Kernel) (offset : Bytes) : Tx :=
  ⟨offset, ⟨sortByHash (inputHash H) ins, sortByHash (outputHash H) outs, sortByHash (kernelHash H) [k]⟩⟩

/-- `FinalizeSlateBuilder::Finalize` (FinalizeSlateBuilder.cpp:15-97) and `BuildTransaction` (147-211) without the database.  `kernelOk`
is `KernelSignatureValidator::Verify`, `check` is `TransactionValidator::Validate` at the height after the node's.  An exception of
`check` is caught there and becomes one here again (76-83, 198-206). -/
def finalizeSlate (H : DigestNum) (kernelOk : Kernel → Bool) (check : Tx → Res Unit) (c : SendRecord F) (r : Slate) : Res (Slate × Tx) := do
  let s ← mergeSlate c r
  let m := O.message s.features s.fee s.lockHeight
  let es ← readEntries O.entry s.sigs
  let signed ← addPartial S c.key c.nonce es m
  let s := { s with sigs := signed.map O.back }
  let excess ← totalExcess signed
  if verifyProofs pl c.proof (s.proof.map proofOf) s.amount excess then do
    let sig ← aggregateSlate S signed
    if verifyAggregate S sig excess m then do
      let k : Kernel := ⟨s.features, s.fee, s.lockHeight, pl.point excess, O.sig sig⟩
      if kernelOk k then do
        let tx := buildTransaction H s.inputs s.outputs k s.offset
        let _ ← check tx
        return (s, tx)
      else .throw
    else .throw
  else .throw

end
end Verif.Wallet
