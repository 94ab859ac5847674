import Verif.Base.Outcome
import Mathlib.Algebra.Field.Basic
import Mathlib.Algebra.Module.Basic
import Mathlib.Algebra.BigOperators.Group.List.Basic

/-!
# Signing a slate

Model of `src/Crypto/AggSig.cpp` (partial and aggregate signatures), `src/Wallet/SlateBuilder/SignatureUtil.h`,
`SlateUtil.h`, of `ReceiveSlateBuilder::BuildSignature` and of the signing part of `FinalizeSlateBuilder`.
The scalars are an arbitrary field `F`, the curve an arbitrary `F`-module `G`; the encoding of scalars and points in
bytes is left out (their parsing is modelled elsewhere), and so are the random choices, which are arguments.
-/
namespace Verif.Wallet

/-- What is used of the `aggsig` module of libsecp256k1-zkp: the generator, whether the y-coordinate of a point is a
square, the x-coordinate, and the challenge hash.  The two laws say that of a point and its negative, which share their
x-coordinate, exactly one has a square y-coordinate. -/
structure Scheme (F G X M : Type) [Field F] [AddCommGroup G] [Module F G] where
  gen : G
  quad : G → Bool
  xof : G → X
  challenge : X → G → M → F
  quad_neg : ∀ p, p ≠ 0 → quad (-p) = !quad p
  xof_neg : ∀ p, xof (-p) = xof p

/-- `SlateSignature` (Wallet/Models/Slate/SlateSignature.h): the public excess, the public nonce and the partial
signature of one participant. -/
structure Entry (F G X : Type) where
  excess : G
  nonce : G
  part : Option (X × F)
deriving DecidableEq

section
variable {F G X M : Type} [Field F] [AddCommGroup G] [Module F G] [DecidableEq G] [DecidableEq X]
variable (S : Scheme F G X M)

/-- `Crypto::AddPublicKeys` (`AggSig`/`PublicKeys.cpp`, `secp256k1_ec_pubkey_combine`): fails at the point at infinity. -/
def addPubs (ps : List G) : Res G := if ps.sum = 0 then .throw else .ok ps.sum

/-- `Slate::CalculateTotalExcess` (Slate.cpp:117-132). -/
def totalExcess (es : List (Entry F G X)) : Res G := addPubs (es.map (·.excess))

/-- `Slate::CalculateTotalNonce` (Slate.cpp:134-149). -/
def totalNonce (es : List (Entry F G X)) : Res G := addPubs (es.map (·.nonce))

/-- `AggSig::CalculatePartialSignature` (AggSig.cpp:99-145): `secp256k1_aggsig_sign_single` with a secret nonce and the
total nonce given.  The nonce is negated if the total nonce has no square y-coordinate. -/
def signPartial (key nonce : F) (sumKeys sumNonces : G) (m : M) : X × F :=
  (S.xof (nonce • S.gen),
    (if S.quad sumNonces then nonce else -nonce) + S.challenge (S.xof sumNonces) sumKeys m * key)

/-- `AggSig::VerifyPartialSignature` (AggSig.cpp:147-176): `secp256k1_aggsig_verify_single` for a partial signature. -/
def verifyPartial (sig : X × F) (key sumKeys sumNonces : G) (m : M) : Bool :=
  let r := sig.2 • S.gen - S.challenge (S.xof sumNonces) sumKeys m • key
  decide (r ≠ 0) && decide (S.xof r = sig.1)

/-- `AggSig::AggregateSignatures` (AggSig.cpp:178-215): the sum of the second halves with the x-coordinate of the total
nonce; no signatures yield a null pointer. -/
def aggregate (sigs : List (X × F)) (sumNonces : G) : Option (X × F) :=
  if sigs = [] then none else some (S.xof sumNonces, (sigs.map (·.2)).sum)

/-- `AggSig::VerifyAggregateSignature` (AggSig.cpp:296-312): `secp256k1_aggsig_verify_single` for a complete signature. -/
def verifyAggregate (sig : X × F) (key : G) (m : M) : Bool :=
  let r := sig.2 • S.gen - S.challenge sig.1 key m • key
  decide (r ≠ 0) && S.quad r && decide (S.xof r = sig.1)

/-- `SignatureUtil::VerifyPartialSignatures` (SignatureUtil.h:36-71): entries without a signature are skipped. -/
def verifyPartials (es : List (Entry F G X)) (m : M) : Res Bool := do
  let k ← totalExcess es
  let n ← totalNonce es
  return es.all fun e =>
    match e.part with
    | none => true
    | some s => verifyPartial S s e.excess k n m

/-- `SignatureUtil::AggregateSignatures` (SignatureUtil.h:11-34). -/
def aggregateSlate (es : List (Entry F G X)) : Res (X × F) := do
  let n ← totalNonce es
  match aggregate S (es.filterMap (·.part)) n with
  | none => .throw
  | some s => return s

/-- `SlateUtil::CalculateSigningKeys` (SlateUtil.h:13-48): the secret key of a participant, from the blinding factors
of the outputs and inputs they add and their share of the offset (`Crypto::AddBlindingFactors`, Crypto.cpp:54-80). -/
def signingKey (inputs outputs : List F) (offset : F) : F := outputs.sum - inputs.sum - offset

/-- `ReceiveSlateBuilder::BuildSignature` (ReceiveSlateBuilder.cpp:107-135): the entry of the receiver, signed over the
totals with the entries already on the slate. -/
def receiveSign (key nonce : F) (es : List (Entry F G X)) (m : M) : Res (Entry F G X) := do
  let mine : Entry F G X := ⟨key • S.gen, nonce • S.gen, none⟩
  let k ← totalExcess (es ++ [mine])
  let n ← totalNonce (es ++ [mine])
  let signed : Entry F G X := { mine with part := some (signPartial S key nonce k n m) }
  let ok ← verifyPartials S (es ++ [signed]) m
  if ok then return signed else .throw

/-- The loop of `FinalizeSlateBuilder::AddPartialSignature` (FinalizeSlateBuilder.cpp:129-134): the signature goes to
the first entry with the sender's excess. -/
def placeSig (excess : G) (s : X × F) : List (Entry F G X) → List (Entry F G X)
  | [] => []
  | e :: es => if e.excess = excess then { e with part := some s } :: es else e :: placeSig excess s es

/-- The first loop of `AddPartialSignature` (FinalizeSlateBuilder.cpp:104-119): an entry for the sender is added unless
the response already has one with the sender's excess — whatever nonce that one names. -/
def withSender (key nonce : F) (es : List (Entry F G X)) : List (Entry F G X) :=
  if es.any (fun e => decide (e.excess = key • S.gen)) then es
  else es ++ [⟨key • S.gen, nonce • S.gen, none⟩]

/-- `FinalizeSlateBuilder::AddPartialSignature` (FinalizeSlateBuilder.cpp:99-145). -/
def addPartial (key nonce : F) (es : List (Entry F G X)) (m : M) : Res (List (Entry F G X)) := do
  let es' := withSender S key nonce es
  let k ← totalExcess es'
  let n ← totalNonce es'
  let signed := placeSig (key • S.gen) (signPartial S key nonce k n m) es'
  let ok ← verifyPartials S signed m
  if ok then return signed else .throw

/-- The signing part of `FinalizeSlateBuilder::Finalize` and `BuildTransaction` (FinalizeSlateBuilder.cpp:55-64,
147-165): the entries of the finalized slate, the kernel's excess and its signature.  `key` and `nonce` are those of the
stored context, `es` the entries of the response. -/
def finalizeSign (key nonce : F) (es : List (Entry F G X)) (m : M) :
    Res (List (Entry F G X) × G × (X × F)) := do
  let signed ← addPartial S key nonce es m
  let excess ← totalExcess signed
  let sig ← aggregateSlate S signed
  if verifyAggregate S sig excess m then return (signed, excess, sig) else .throw

end
end Verif.Wallet
