import Verif.Wallet.Keys
import Verif.Wallet.DB
import Verif.Tx.Sums
import Verif.Tx.KernelSigs

/-!
# The coinbase a wallet builds for a miner

Model of `Wallet::BuildCoinbase` (`src/Wallet/Wallet.cpp:262-321`; `WalletImpl::CreateCoinbase`, `src/Wallet/WalletImpl.cpp:163-225`,
is the same code) and of `AggSig::BuildSignature` (`src/Crypto/AggSig.cpp:48-97`).
-/
namespace Verif.Wallet
open Verif.Tx

/-- `BuildCoinbaseResponse` (BuildCoinbaseResponse.h:10-51). -/
structure Built where
  kernel : Kernel
  output : TxOutput
  path : List Nat
deriving DecidableEq

section
variable {F G X M : Type} [Field F] [AddCommGroup G] [Module F G] [DecidableEq G]

/-- `AggSig::BuildSignature` (AggSig.cpp:48-97): nothing (a null pointer) if the commitment is not read as a key.
`secp256k1_aggsig_sign_single` draws the secret nonce itself; here it is an argument. -/
def buildSignature (L : SigLib F G X M) (serSig : X × F → Bytes) (key nonce : F) (commitment : Bytes) (m : M) : Option Bytes :=
  (L.keyOf commitment).map fun P => serSig (signPartial L.toScheme key nonce P (nonce • L.gen) m)

/-- `Wallet::BuildCoinbase` (Wallet.cpp:262-321): amount (268), path (269-271; the argument of `value_or` is evaluated and
consumes an index even if a path is given), output and proof (272-284), excess (287-290), signature (298-305; a null
pointer would be dereferenced at 311), response (316-320).  `scalar` reads the bytes of a secret. -/
def buildCoinbase (l : KeyLib) (C : Curve G) (L : SigLib F G X M) (scalar : Bytes → F) (serSig : X × F → Bytes) (nonce : F)
    (seed : Bytes) (fees : Nat) (given : Option (List Nat)) (db : WDB) : Res (Built × WDB) := do
  let amount := (REWARD + fees) % 2 ^ 64
  let next := nextChildPath db
  let path := given.getD next.1
  let made ← makeOutput l seed amount path .enhanced
  let transparent ← Tx.commit C amount 0
  let excess ← addCommitments C [made.commit] [transparent]
  match buildSignature L serSig (scalar made.key) nonce excess (L.msgOf [1]) with
  | none => .ub
  | some sig => return (⟨⟨1, ⟨0, 0⟩, 0, excess, sig⟩, ⟨1, made.commit, made.proof⟩, path⟩, next.2)

end
end Verif.Wallet
