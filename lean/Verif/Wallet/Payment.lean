import Verif.Wallet.Finalize
import Verif.Wallet.DB

/-!
# Sending and receiving whole slates

Model of `SendSlateBuilder::Build` (src/Wallet/SlateBuilder/SendSlateBuilder.cpp:89-203) and of `ReceiveSlateBuilder::AddReceiverData`
(ReceiveSlateBuilder.cpp:10-87) on whole slates, without the database, which is modelled in `Wallet.DB`.  Random choices (offsets, nonces,
slate id) and the coins made (`OutputBuilder::CreateOutputs`, `WalletImpl::CreateBlindedOutput`) are arguments.
-/
namespace Verif.Wallet
open Verif.Codec Verif.Tx Verif.PoW

/-- Scalars as 32 bytes: the order of the group and the bytes of a scalar (`secp256k1_scalar_get_b32`), external. -/
structure ScalarOps (F : Type) where
  order : Nat
  bytes : F → Bytes

/-- What goes into a payment on the sender's side: slate id, version and block version, amount, fee, the coins spent, the change, the
share of the offset, the nonce, and the payment proof asked for. -/
structure Sending (F : Type) where
  id : Bytes
  version : Nat
  blockVersion : Nat
  amount : Nat
  fee : Nat
  inputs : List (SlateCoin F)
  change : List (SlateCoin F)
  offset : Bytes
  nonce : F
  proof : Option Codec.PayProof

/-- What goes into it on the receiver's side: the type of a transaction with the same slate id already in the wallet, the output made
for an amount, the share of the offset and the nonce. -/
structure Receiving (F : Type) where
  known : Option Nat
  coin : Nat → SlateCoin F
  offset : Bytes
  nonce : F

section
variable {F G X M : Type} [Field F] [AddCommGroup G] [Module F G] [DecidableEq G] [DecidableEq X]
variable (S : Scheme F G X M) (O : SlateOps F G X M) (pl : ProofLib G) (kl : KeyLib) (sc : ScalarOps F)

/-- `Crypto::AddBlindingFactors` (Crypto.cpp:54-80) of some positive factors and no negative ones, with `Pedersen::PedersenBlindSum`
(Pedersen.cpp:82-115): null ones are left out; fails for one that is not below the order. -/
def addOffsets (l : List Bytes) : Res Bytes :=
  let l := l.filter fun o => !isNullOffset o
  if l.isEmpty then .ok (List.replicate 32 0)
  else if l.any fun o => decide (sc.order ≤ beVal o) then .throw
  else .ok (sc.bytes ((l.map fun o => ((beVal o : Nat) : F)).sum))

/-- The sender's secret key (SendSlateBuilder.cpp:127-132, `SlateUtil::CalculateSigningKeys`). -/
def Sending.key (c : Sending F) : F :=
  signingKey (c.inputs.map (·.blind)) (c.change.map (·.blind)) ((beVal c.offset : Nat) : F)

/-- The slate before inputs and outputs are added (SendSlateBuilder.cpp:148-161); what is not set there is as in the constructor
(Slate.h:49-66), the fee is `Fee::From` (Fee.h). -/
def Sending.blank (c : Sending F) : Slate :=
  ⟨c.id, .standardSent, c.version, c.blockVersion, 2, 0, 0, none, c.offset, c.amount, ⟨0, c.fee⟩,
    [O.back ⟨c.key • S.gen, c.nonce • S.gen, none⟩], [], c.proof⟩

/-- `SendSlateBuilder::Build` (SendSlateBuilder.cpp:89-203): the slate and what is stored for it (183-200, 205-275). -/
def sendSlate (c : Sending F) : Slate × SendRecord F :=
  let s := c.change.foldl (fun s o => s.addOutput o.features o.commit o.proof)
    (c.inputs.foldl (fun s i => s.addInput i.features i.commit) (c.blank S O))
  (s, ⟨s, some c.offset, c.proof.map proofOf, c.key, c.nonce, c.inputs, c.change⟩)

/-- `ReceiveSlateBuilder::VerifySlateStatus` (ReceiveSlateBuilder.cpp:89-105). -/
def maySlateBeReceived : Option Nat → Bool
  | none => true
  | some t => decide (t = RECEIVED_CANCELED) || decide (t = SENDING_STARTED)

/-- The proof on a slate with the receiver's signature (`SlatePaymentProof::AddSignature`). -/
def withSignature (p : PayProof) : Codec.PayProof := ⟨p.sender, p.receiver, p.sig⟩

/-- The receiver's secret key (ReceiveSlateBuilder.cpp:48-49). -/
def Receiving.key (x : Receiving F) (amount : Nat) : F :=
  signingKey [] [(x.coin amount).blind] ((beVal x.offset : Nat) : F)

/-- `ReceiveSlateBuilder::AddReceiverData` (ReceiveSlateBuilder.cpp:10-87) with `BuildSignature` (107-135) and `UpdatePaymentProof`
(137-173); `w` are the receiver's addresses. -/
def receiveSlate (w : PayWallet G) (x : Receiving F) (r : Slate) : Res Slate :=
  if maySlateBeReceived x.known then do
    let coin := x.coin r.amount
    let key := x.key r.amount
    let offset ← addOffsets sc [r.offset, x.offset]
    let es ← readEntries O.entry r.sigs
    let mine ← receiveSign S key x.nonce es (O.message r.features r.fee r.lockHeight)
    let excess ← totalExcess (es ++ [mine])
    let proof ← updateProof pl kl w r.amount excess (r.proof.map proofOf)
    let s : Slate := { r with stage := .standardReceived, offset := offset, proof := proof.1.map withSignature, sigs := [O.back mine] }
    return s.addOutput coin.features coin.commit coin.proof
  else .throw

end
end Verif.Wallet
