import Verif.Codec.KeyPath
import Verif.PoW.Consensus
import Verif.Wallet.Restore

/-!
# Keys derived from the seed and outputs made and recognised with them

Model of `src/Wallet/Keychain/{KeyGenerator,KeyChain}.cpp`, `src/Wallet/WalletImpl.cpp:122-157`,
`src/Wallet/Wallet.cpp:262-300` and `src/Wallet/OutputRestorer.cpp:48-108`.  Secrets, chain codes and public keys are their
bytes.  Version, depth and fingerprint of extended keys are left out: they are stored but nothing is computed from them.
-/
namespace Verif.Wallet
open Verif.Codec Verif.Tx

/-- The order of the group, `SECP256K1_N` (KeyDefs.h:9). -/
def secpN : Nat := 0xFFFFFFFFFFFFFFFFFFFFFFFFFFFFFFFEBAAEDCE6AF48A03BBFD25E8CD0364141

/-- The functions of the libraries: HMAC-SHA512 of key and data, the compressed public key of a secret, the sum of two secrets
(`AddPrivateKeys`, Crypto.cpp:87-97; `none` if the library refuses), Blake2b of a string, Blake2b with key and string, the switch blinding
(`BlindSwitch`, Pedersen.cpp:115-135), the commitment to an amount with a blinding factor, the range proof of amount, blinding factor,
private nonce, rewind nonce and message (Bulletproofs.cpp:85-133), and rewinding it with a nonce (Bulletproofs.cpp:135-175): amount, blinding
factor and message. -/
structure KeyLib where
  hmac : Bytes → Bytes → Bytes
  pub : Bytes → Bytes
  add : Bytes → Bytes → Option Bytes
  blake : Bytes → Bytes
  blakeKeyed : Bytes → Bytes → Bytes
  switch : Bytes → Nat → Bytes
  commit : Nat → Bytes → Bytes
  prove : Nat → Bytes → Bytes → Bytes → Bytes → Bytes
  rewind : Bytes → Bytes → Bytes → Option (Nat × Bytes × Bytes)

/-- `CBigInteger::operator<` (BigInteger.h:190-210) on numbers of equal length: the first byte that differs decides. -/
def bigLt : Bytes → Bytes → Bool
  | a :: as, b :: bs => if b ≠ a then decide (a < b) else bigLt as bs
  | _, _ => false

/-- `CBigInteger::operator>=` (BigInteger.h:246-249). -/
def bigGe (a b : Bytes) : Bool := bigLt b a || a == b

/-- `PrivateExtKey` (PrivateExtKey.h:5-47): secret and chain code. -/
structure ExtKey where
  secret : Bytes
  chain : Bytes
deriving DecidableEq, Repr

/-- `KeyGenerator::GenerateMasterKey` (KeyGenerator.cpp:12-25). -/
def masterKey (l : KeyLib) (seed : Bytes) : Res ExtKey :=
  let h := l.hmac (str "IamVoldemort") seed
  if h.take 32 = List.replicate 32 0 ∨ bigGe (h.take 32) (beBytes 32 secpN) then .throw
  else .ok ⟨h.take 32, (h.drop 32).take 32⟩

/-- The bytes that `GenerateChildPrivateKey` authenticates (KeyGenerator.cpp:44-58). -/
def childData (l : KeyLib) (secret : Bytes) (i : Nat) : Bytes :=
  (if i ≥ 2147483648 then 0 :: secret else l.pub secret) ++ beBytes 4 i

/-- `KeyGenerator::GenerateChildPrivateKey` (KeyGenerator.cpp:27-77). -/
def childKey (l : KeyLib) (k : ExtKey) (i : Nat) : Res ExtKey :=
  let h := l.hmac k.chain (childData l k.secret i)
  match l.add (h.take 32) k.secret with
  | none => .throw
  | some s => .ok ⟨s, (h.drop 32).take 32⟩

/-- The loop of `KeyChain::DerivePrivateKey` (KeyChain.cpp:32-43). -/
def derive (l : KeyLib) (k : ExtKey) : List Nat → Res ExtKey
  | [] => .ok k
  | i :: p => do
    let c ← childKey l k i
    derive l c p

/-- `KeyChain::FromSeed` (KeyChain.cpp:19-24): master key and the nonce of original proofs. -/
structure Chain where
  master : ExtKey
  nonce : Bytes
deriving DecidableEq, Repr

/-- `KeyChain::FromSeed` (KeyChain.cpp:19-24). -/
def keyChain (l : KeyLib) (seed : Bytes) : Res Chain := do
  let m ← masterKey l seed
  return ⟨m, l.switch m.secret 0⟩

/-- `KeyChain::DerivePrivateKey` with an amount (KeyChain.cpp:45-48). -/
def outputKey (l : KeyLib) (c : Chain) (p : List Nat) (amount : Nat) : Res Bytes := do
  let k ← derive l c.master p
  return l.switch k.secret amount

/-- The nonce with which proofs of a type are rewound: `RewindRangeProof` (KeyChain.cpp:58-75), `CreateNonce` (107-110). -/
def rewindNonce (l : KeyLib) (c : Chain) (commit : Bytes) : ProofType → Bytes
  | .original => l.blakeKeyed commit c.nonce
  | .enhanced => l.blakeKeyed commit (l.blake (l.pub c.master.secret))

/-- The private nonce of a proof: `GenerateRangeProof` (KeyChain.cpp:86-101). -/
def privateNonce (l : KeyLib) (c : Chain) (commit : Bytes) : ProofType → Bytes
  | .original => l.blakeKeyed commit c.nonce
  | .enhanced => l.blakeKeyed commit (l.blake c.master.secret)

/-- `KeyChain::GenerateRangeProof` (KeyChain.cpp:77-105). -/
def rangeProof (l : KeyLib) (c : Chain) (p : List Nat) (amount : Nat) (commit key : Bytes) (t : ProofType) : Res Bytes := do
  let m ← proofMessage p t
  return l.prove amount key (privateNonce l c commit t) (rewindNonce l c commit t) m

/-- An output of the wallet: what it stores and what goes into the transaction. -/
structure Made where
  path : List Nat
  amount : Nat
  key : Bytes
  commit : Bytes
  proof : Bytes
deriving DecidableEq, Repr

/-- `WalletImpl::CreateBlindedOutput` (WalletImpl.cpp:122-157); `BuildCoinbase` makes its output by the same steps
(Wallet.cpp:266-289). -/
def makeOutput (l : KeyLib) (seed : Bytes) (amount : Nat) (p : List Nat) (t : ProofType) : Res Made := do
  let c ← keyChain l seed
  let key ← outputKey l c p amount
  let proof ← rangeProof l c p amount (l.commit amount key) key t
  return ⟨p, amount, key, l.commit amount key, proof⟩

/-- `OutputRestorer::BuildWalletOutput` (OutputRestorer.cpp:69-108): path, amount and key. -/
def foundOutput (l : KeyLib) (c : Chain) (commit proof : Bytes) (r : Nat × Bytes × Bytes) (t : ProofType) : Res Made := do
  let p ← proofIndices r.2.2 t
  let key ← match t with
    | .original => (.ok r.2.1 : Res Bytes)
    | .enhanced => outputKey l c p r.1
  return ⟨p, r.1, key, commit, proof⟩

/-- `OutputRestorer::GetWalletOutput` (OutputRestorer.cpp:48-67); the fork of two weeks before is two times 10080 blocks. -/
def walletOutput (l : KeyLib) (env : PoW.Env) (c : Chain) (height : Nat) (commit proof : Bytes) : Res (Option Made) :=
  let old := if PoW.headerVersion env (height - 20160) = 1 then l.rewind commit proof (rewindNonce l c commit .original) else none
  match old with
  | some r => do
    let m ← foundOutput l c commit proof r .original
    return some m
  | none =>
    match l.rewind commit proof (rewindNonce l c commit .enhanced) with
    | some r => do
      let m ← foundOutput l c commit proof r .enhanced
      return some m
    | none => .ok none

end Verif.Wallet
