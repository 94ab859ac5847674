import Verif.Wallet.Payment
import Verif.Wallet.Addresses
import Verif.Codec.Armor

/-!
# Slates handed over as text

Model of what the handlers of `send`, `receive` and `finalize` do beside the slate builders when the slates are passed on as slatepacks:
src/API/Wallet/Owner/Handlers/{SendHandler,ReceiveHandler,FinalizeHandler}.h, include/API/Wallet/Owner/Models/{ReceiveCriteria,FinalizeCriteria}.h
and `Armor::Pack` with the slate.  Sessions, the database and Tor are left out.
-/
namespace Verif.Wallet
open Verif.Codec Verif.Tx Verif.PoW

/-- What writing and reading slatepacks needs from libraries: the hash of the check sum, the encryption, which bytes are public keys, and
the two forms of signatures. -/
structure LetterLib where
  H : Bytes → Bytes
  age : AgeOps
  valid : Bytes → Bool
  ops : SigOps

/-- A wallet as the reader of slatepacks: the keys of its addresses by index and the last index in use (`Wallet::DecryptSlatepack`,
Wallet.cpp:323-346). -/
structure Reader (L : LetterLib) where
  secret : Nat → Res L.age.Key
  current : Nat

/-- `Armor::Pack` (Armor.h:19-39). -/
def packSlate (L : LetterLib) (rnd : L.age.Rnd) (sender : Bytes) (s : Slate) (recipients : List Bytes) : Res Bytes := do
  let bs ← slateSer L.ops s
  armorPack L.H L.age rnd sender bs recipients

/-- The slatepack of a request decrypted and its slate read (ReceiveCriteria.h:28-31, FinalizeCriteria.h:25-36). -/
def openSlate (L : LetterLib) (a : Reader L) (t : Bytes) : Res (Message × Slate) := do
  let m ← decryptSlatepack (fun k => armorUnpack L.H L.age L.valid k t) a.secret a.current
  let r ← slateDeser L.ops ⟨m.payload, 0⟩
  return (m, r.1)

/-- For whom the answer is packed (ReceiveHandler.h:58-61). -/
def replyTo (m : Message) : List Bytes := if m.sender = nullAddress then [] else [m.sender]

section
variable {F G X M : Type} [Field F] [AddCommGroup G] [Module F G] [DecidableEq G] [DecidableEq X]
variable (S : Scheme F G X M) (O : SlateOps F G X M) (pl : ProofLib G) (kl : KeyLib) (sc : ScalarOps F)

/-- `ReceiveHandler::Handle` (ReceiveHandler.h:19-65): `address` is the wallet's own when the answer is packed. -/
def receiveText (L : LetterLib) (a : Reader L) (rnd : L.age.Rnd) (address : Bytes) (w : PayWallet G) (x : Receiving F) (t : Bytes) : Res Bytes := do
  let p ← openSlate L a t
  let r ← receiveSlate S O pl kl sc w x p.2
  packSlate L rnd address r (replyTo p.1)

/-- `FinalizeHandler::Handle` (FinalizeHandler.h:19-41) up to `Finalize`; the finalized slate as text for the answer is left out. -/
def finalizeText (L : LetterLib) (a : Reader L) (H : DigestNum) (kernelOk : Kernel → Bool) (check : Tx → Res Unit) (c : SendRecord F) (t : Bytes) :
    Res (Slate × Tx) := do
  let p ← openSlate L a t
  finalizeSlate S O pl H kernelOk check c p.2

end
end Verif.Wallet
