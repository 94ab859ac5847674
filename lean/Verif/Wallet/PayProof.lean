import Verif.Wallet.Sign
import Verif.Wallet.Keys
import Verif.Codec.Onion

/-!
# Payment proofs

Model of the payment proofs of `src/Wallet/SlateBuilder/{SendSlateBuilder,ReceiveSlateBuilder,FinalizeSlateBuilder}.cpp`,
`src/Wallet/WalletImpl.cpp:257-273` and of the choice of recipients in `src/API/Wallet/Owner/Handlers/SendHandler.h`.
The signing of the kernel is that of `Wallet.Sign`, the keys are those of `Wallet.Keys`.  Selection of coins, outputs and
the transaction itself are modelled elsewhere and left out here.
-/
namespace Verif.Wallet
open Verif.Codec

/-- What is used of libsodium and of the commitments: public key of a seed (`crypto_sign_ed25519_seed_keypair`), signature
of a message (`crypto_sign_ed25519`; the secret key is determined by the seed), its verification (`crypto_sign_open`) and
the 33 bytes of a public excess as a commitment (`Pedersen::ToCommitment`, Pedersen.cpp:137-160). -/
structure ProofLib (G : Type) where
  edPub : Bytes → Bytes
  edSign : Bytes → Bytes → Bytes
  edVerify : Bytes → Bytes → Bytes → Bool
  point : G → Bytes

/-- `SlatePaymentProof` (SlatePaymentProof.h:8-26): the addresses of sender and receiver and the receiver's signature. -/
structure PayProof where
  sender : Bytes
  receiver : Bytes
  sig : Option Bytes
deriving DecidableEq, Repr

/-- `KeyChain::DeriveED25519Key` (KeyChain.cpp:50-56) for the path `m/0/1/i`: the seed of the key pair. -/
def addressSeed (kl : KeyLib) (master : ExtKey) (i : Nat) : Res Bytes := do
  let k ← derive kl master [0, 1, i]
  return kl.blake k.secret

/-- The message of a payment proof (ReceiveSlateBuilder.cpp:156-160, FinalizeSlateBuilder.cpp:234-238). -/
def payMessage (amount : Nat) (excess sender : Bytes) : Bytes := beBytes 8 amount ++ excess ++ sender

section
variable {G : Type} (pl : ProofLib G) (kl : KeyLib)

/-- `WalletImpl::FindAddressIndex` (WalletImpl.cpp:257-273): the list holds the indexes still to be tried. -/
def findAddress (master : ExtKey) (key : Bytes) : List Nat → Res Nat
  | [] => .throw
  | i :: is => do
    let s ← addressSeed kl master i
    if key = pl.edPub s then return i else findAddress master key is

end

/-- What a wallet stores of a payment received (ReceiveSlateBuilder.cpp:175-206): the amount of the new output, the total
excess that follows from the slate saved with it, and the proof. -/
structure PayReceived (G : Type) where
  amount : Nat
  excess : G
  proof : Option PayProof

/-- What the receiver's wallet knows: master key, index of the current address, whether a Tor address is set
(`GetTorAddress`, WalletImpl.h), and the payments received.  `signed` is not part of the code: it records seed and message
of each call of `ED25519::Sign`. -/
structure PayWallet (G : Type) where
  master : ExtKey
  current : Nat
  tor : Bool
  received : List (PayReceived G)
  signed : List (Bytes × Bytes)

section
variable {G : Type} (pl : ProofLib G) (kl : KeyLib)

/-- `ReceiveSlateBuilder::UpdatePaymentProof` (ReceiveSlateBuilder.cpp:137-173); `excess` is the total excess of the slate
with the receiver's entry.  The second part of the result is for `signed`. -/
def updateProof (w : PayWallet G) (amount : Nat) (excess : G) : Option PayProof → Res (Option PayProof × List (Bytes × Bytes))
  | none => .ok (none, [])
  | some p =>
    if w.tor then do
      let i ← findAddress pl kl w.master p.receiver (List.range (w.current + 1))
      let s ← addressSeed kl w.master i
      let m := payMessage amount (pl.point excess) p.sender
      return (some { p with sig := some (pl.edSign s m) }, [(s, m)])
    else .throw

end

/-- The parts of `Slate` (Slate.h) that matter here: amount, participants and proof. -/
structure PaySlate (F G X : Type) where
  amount : Nat
  sigs : List (Entry F G X)
  proof : Option PayProof

/-- What the sender stores: secret key and nonce (`SlateContextEntity`), the amount of the sent slate and the proof of the
`WalletTx` (SendSlateBuilder.cpp:174-200). -/
structure PayContext (F : Type) where
  key : F
  nonce : F
  amount : Nat
  proof : Option PayProof

section
variable {F G X M : Type} [Field F] [AddCommGroup G] [Module F G] [DecidableEq G] [DecidableEq X]
variable (S : Scheme F G X M) (pl : ProofLib G) (kl : KeyLib) (ol : OnionLib)

/-- The proof requested by the sender (SendSlateBuilder.cpp:134-144): only for an onion address. -/
def requestProof (master : ExtKey) (current : Nat) (address : Option Bytes) : Res (Option PayProof) :=
  match address.bind (onionParse ol) with
  | none => .ok none
  | some a => do
    let s ← addressSeed kl master current
    return some ⟨pl.edPub s, a.key, none⟩

/-- `SendSlateBuilder::Build` (SendSlateBuilder.cpp:95-203). -/
def sendPay (master : ExtKey) (current : Nat) (address : Option Bytes) (amount : Nat) (key nonce : F) :
    Res (PaySlate F G X × PayContext F) := do
  let p ← requestProof pl kl ol master current address
  return (⟨amount, [⟨key • S.gen, nonce • S.gen, none⟩], p⟩, ⟨key, nonce, amount, p⟩)

/-- `ReceiveSlateBuilder::AddReceiverData` (ReceiveSlateBuilder.cpp:10-87): the answer and the wallet after it.  `m` is the
message of the kernel. -/
def receivePay (w : PayWallet G) (key nonce : F) (s : PaySlate F G X) (m : M) : Res (PaySlate F G X × PayWallet G) := do
  let e ← receiveSign S key nonce s.sigs m
  let k ← totalExcess (s.sigs ++ [e])
  let p ← updateProof pl kl w s.amount k s.proof
  return (⟨s.amount, [e], p.1⟩,
    { w with received := w.received ++ [⟨s.amount, k, p.1⟩], signed := w.signed ++ p.2 })

/-- `FinalizeSlateBuilder::VerifyPaymentProofs` (FinalizeSlateBuilder.cpp:213-248). -/
def verifyProofs (stored answer : Option PayProof) (amount : Nat) (excess : G) : Bool :=
  match stored with
  | none => true
  | some o =>
    match answer with
    | none => false
    | some n =>
      if o.receiver ≠ n.receiver ∨ o.sender ≠ n.sender then false
      else match n.sig with
        | none => false
        | some g => pl.edVerify n.receiver g (payMessage amount (pl.point excess) n.sender)

/-- What the sender has in the end: the kernel's excess and signature, the proof on the slate saved, and the proof of the
`WalletTx`, which is that of the beginning (FinalizeSlateBuilder.cpp:83-94). -/
structure PayFinal (F G X : Type) where
  excess : G
  kernelSig : X × F
  slateProof : Option PayProof
  txProof : Option PayProof
deriving DecidableEq

/-- `FinalizeSlateBuilder::Finalize` (FinalizeSlateBuilder.cpp:15-97): the partial signature, the proof and the aggregate
signature, in this order. -/
def finalizePay (c : PayContext F) (s : PaySlate F G X) (m : M) : Res (PayFinal F G X) := do
  let signed ← addPartial S c.key c.nonce s.sigs m
  let k ← totalExcess signed
  if verifyProofs pl c.proof s.proof c.amount k then do
    let sig ← aggregateSlate S signed
    if verifyAggregate S sig k m then return ⟨k, sig, s.proof, c.proof⟩ else .throw
  else .throw

end

/-- `SendHandler::GetRecipients` (SendHandler.h:69-83): those the slate is sent to over Tor. -/
def recipients (ol : OnionLib) (address : Option Bytes) : List Bytes :=
  match address with
  | none => []
  | some a =>
    match slatepackKey ol a with
    | .ok k => [k]
    | _ => []

end Verif.Wallet
