import Verif.Wallet.Sign
import Verif.Ser.Core

/-!
# Signatures of kernels, checked in batches

Model of `include/Core/Validation/KernelSignatureValidator.h` and of `AggSig::VerifyAggregateSignatures`.  The equation
checked by `secp256k1_schnorrsig_verify_batch` is that of the library's documentation; the source of the library is not
part of the repository.
-/
namespace Verif.Tx
open Verif.Wallet

/-- What is used of libsecp256k1-zkp besides `Scheme`: `secp256k1_pedersen_commitment_parse` followed by
`secp256k1_pedersen_commitment_to_pubkey`, `secp256k1_schnorrsig_parse` with the reading of its two halves, the point
with a square y-coordinate that has a given x-coordinate, the 32 bytes signed, and the coefficients of the batch, which
the library draws from a stream keyed with a hash of the whole batch (the first is always one). -/
structure SigLib (F G X M : Type) [Field F] [AddCommGroup G] [Module F G] extends Scheme F G X M where
  keyOf : Bytes → Option G
  sigOf : Bytes → Option (X × F)
  msgOf : Bytes → M
  lift : X → Option G
  coef : List ((X × F) × M × G) → Nat → F
  lift_ok : ∀ x R, lift x = some R → R ≠ 0 ∧ quad R = true ∧ xof R = x
  lift_all : ∀ R, R ≠ 0 → quad R = true → lift (xof R) = some R
  coef_first : ∀ l, coef l 0 = 1

section
variable {F G X M : Type} [Field F] [AddCommGroup G] [Module F G] [DecidableEq G]
variable (L : SigLib F G X M)

/-- One term of the batch: `s G - e P - R`; nothing if no point has the x-coordinate of the signature. -/
def batchTerm (t : (X × F) × M × G) : Option G :=
  (L.lift t.1.1).map fun R => t.1.2 • L.gen - L.challenge t.1.1 t.2.2 t.2.1 • t.2.2 - R

/-- The weighted sum of the terms from the `i`-th on. -/
def batchSum (a : Nat → F) : Nat → List ((X × F) × M × G) → Option G
  | _, [] => some 0
  | i, t :: ts => do
    let d ← batchTerm L t
    let s ← batchSum a (i + 1) ts
    return a i • d + s

/-- `secp256k1_schnorrsig_verify_batch` (called at AggSig.cpp:282) with given coefficients. -/
def batchEquation (a : Nat → F) (ts : List ((X × F) × M × G)) : Bool :=
  match batchSum L a 0 ts with
  | none => false
  | some s => decide (s = 0)

/-- A loop that parses every element or fails (AggSig.cpp:221-245 for the commitments, 253-263 for the signatures). -/
def parseEach {A B : Type} (f : A → Option B) : List A → Option (List B)
  | [] => some []
  | a :: as => do
    let b ← f a
    let bs ← parseEach f as
    return b :: bs

/-- `AggSig::VerifyAggregateSignatures` (AggSig.cpp:217-294), for three lists of the same length. -/
def verifyMany (sigs : List Bytes) (commits : List Bytes) (messages : List M) : Bool :=
  match parseEach L.keyOf commits with
  | none => false
  | some keys =>
    match parseEach L.sigOf sigs with
    | none => false
    | some ss =>
      let ts := ss.zip (messages.zip keys)
      batchEquation L (L.coef ts) ts

/-- `KernelSignatureValidator::BatchVerify` (KernelSignatureValidator.h:17-59); `GetSignatureMessage`
(TransactionKernel.cpp:160-181) is the hash of `kernelMsg`, which `msgOf` stands for. -/
def batchVerify (ks : List Kernel) : Bool :=
  if ks = [] then true
  else verifyMany L (ks.map (·.sig)) (ks.map (·.excess)) (ks.map (fun k => L.msgOf (kernelMsg k.features k.fee k.lockHeight)))

/-- `KernelSignatureValidator::Verify` (KernelSignatureValidator.h:10-13). -/
def verifyKernel (k : Kernel) : Bool := batchVerify L [k]

end
end Verif.Tx
