import Verif.Tx.Sums

/-!
# The checks on a block alone

Model of `BlockValidator::VerifySelfConsistent` (src/BlockChain/Validators/BlockValidator.cpp).
-/
namespace Verif.Tx
open Verif.PoW

variable {G : Type} [AddCommGroup G] [DecidableEq G]

/-- `VerifySelfConsistent` (BlockValidator.cpp:14-30).  Left out: the flag of a block object that was found consistent
before, for which the checks are not repeated. -/
def selfConsistent (env : Env) (C : Curve G) (H : DigestNum) (proofs : List (Bytes × Bytes) → Bool)
    (sigs : List Kernel → Bool) (b : Block) : Res Unit := do
  verifyBlockWeight env b
  verifyLockHeights b
  validateBody H proofs sigs b.body
  verifyCoinbase C b.body

end Verif.Tx
