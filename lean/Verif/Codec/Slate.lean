import Verif.Ser.Core
import Verif.Ser.Pow

/-!
# Binary slates

Model of `Slate::Serialize/Deserialize` (src/Wallet/Models/Slate/Slate.cpp) and of the structures of
`include/Wallet/Models/Slate`.  The JSON form is in `Verif.Codec.Json`.
-/
namespace Verif.Codec

/-- `ESlateStage` (SlateStage.h:5-14). -/
inductive Stage
  | none
  | standardSent
  | standardReceived
  | standardFinalized
  | invoiceSent
  | invoicePaid
  | invoiceFinalized
deriving DecidableEq, Repr

/-- `SlateStage::ToByte` (SlateStage.h:66-79). -/
def Stage.toByte : Stage → Nat
  | .none => 0
  | .standardSent => 1
  | .standardReceived => 2
  | .standardFinalized => 3
  | .invoiceSent => 4
  | .invoicePaid => 5
  | .invoiceFinalized => 6

/-- `SlateStage::FromByte` (SlateStage.h:81-94). -/
def Stage.fromByte (n : Nat) : Res Stage :=
  if n = 1 then .ok .standardSent
  else if n = 2 then .ok .standardReceived
  else if n = 3 then .ok .standardFinalized
  else if n = 4 then .ok .invoiceSent
  else if n = 5 then .ok .invoicePaid
  else if n = 6 then .ok .invoiceFinalized
  else .throw

/-- The two conversions between signatures in compact and in secp256k1's internal form
(`Crypto::ParseCompactSignature`, `Crypto::ToCompact`): external, either may fail. -/
structure SigOps where
  parse : Bytes → Option Bytes
  compact : Bytes → Option Bytes

/-- `SlateSignature` (SlateSignature.h:18-25). -/
structure SlateSig where
  excess : Bytes
  nonce : Bytes
  partialSig : Option Bytes
deriving DecidableEq, Repr

/-- `SlateSignature::Serialize` (SlateSignature.h:32-40).  When the compact signature does not parse,
`Crypto::ParseCompactSignature` (Crypto.cpp:154-159) takes `front()` of an empty vector (AggSig.cpp:325-328):
undefined behaviour. -/
def sigSer (ops : SigOps) (s : SlateSig) : Res Bytes :=
  match s.partialSig with
  | some p =>
    match ops.parse p with
    | some raw => .ok (beBytes 1 1 ++ (s.excess ++ (s.nonce ++ raw)))
    | none => .ub
  | none => .ok (beBytes 1 0 ++ (s.excess ++ s.nonce))

/-- `SlateSignature::Deserialize` (SlateSignature.h:42-55). -/
def sigDeser (ops : SigOps) : Parser SlateSig := do
  let has ← readBE 1
  let excess ← readBytes 33
  let nonce ← readBytes 33
  if has > 0 then do
    let raw ← readBytes 64
    match ops.compact raw with
    | some p => return ⟨excess, nonce, some p⟩
    | none => Parser.fail
  else return ⟨excess, nonce, none⟩

/-- `SlateCommitment` (SlateCommitment.h:17-21). -/
structure SlateCom where
  features : Nat
  commit : Bytes
  proof : Option Bytes
deriving DecidableEq, Repr

/-- `SlateCommitment::Serialize` (SlateCommitment.h:28-37). -/
def comSer (c : SlateCom) : Bytes :=
  match c.proof with
  | some p => beBytes 1 1 ++ (beBytes 1 c.features ++ (c.commit ++ proofSer p))
  | none => beBytes 1 0 ++ (beBytes 1 c.features ++ c.commit)

/-- `SlateCommitment::Deserialize` (SlateCommitment.h:39-52). -/
def comDeser : Parser SlateCom := do
  let has ← readBE 1
  let features ← readBE 1
  let commit ← readBytes 33
  if has > 0 then do
    let p ← proofDeser
    return ⟨features, commit, some p⟩
  else return ⟨features, commit, none⟩

/-- `SlatePaymentProof` (SlatePaymentProof.h:102-104). -/
structure PayProof where
  sender : Bytes
  receiver : Bytes
  signature : Option Bytes
deriving DecidableEq, Repr

/-- `SlatePaymentProof::Serialize` (SlatePaymentProof.h:58-72). -/
def payProofSer (p : PayProof) : Bytes :=
  match p.signature with
  | some s => p.sender ++ (p.receiver ++ (beBytes 1 1 ++ s))
  | none => p.sender ++ (p.receiver ++ beBytes 1 0)

/-- `SlatePaymentProof::Deserialize` (SlatePaymentProof.h:74-88). -/
def payProofDeser : Parser PayProof := do
  let sender ← readBytes 32
  let receiver ← readBytes 32
  let has ← readBE 1
  if has = 1 then do
    let s ← readBytes 64
    return ⟨sender, receiver, some s⟩
  else return ⟨sender, receiver, none⟩

/-- `Slate` (Slate.h:31-48).  `featureArgs` is `featureArgsOpt`, whose only member is an optional lock height
(SlateFeatureArgs.h:6-8). -/
structure Slate where
  id : Bytes
  stage : Stage
  version : Nat
  blockVersion : Nat
  numParts : Nat
  ttl : Nat
  features : Nat
  featureArgs : Option (Option Nat)
  offset : Bytes
  amount : Nat
  fee : Fee
  sigs : List SlateSig
  coms : List SlateCom
  proof : Option PayProof
deriving DecidableEq, Repr

/-- `Slate::GetLockHeight` (Slate.h:89). -/
def Slate.lockHeight (s : Slate) : Nat :=
  match s.featureArgs with
  | some a => a.getD 0
  | none => 0

/-- One bit of a status byte (`include_x ? 1 << i : 0`, Slate.cpp:19-23, 49-50). -/
def statusBit (b : Bool) (i : Nat) : Nat := if b then 1 <<< i else 0

/-- `BitUtil::IsSet` (BitUtil.h:35-39). -/
def isSet (byte i : Nat) : Bool := decide (byte &&& (1 <<< i) > 0)

/-- `OptionalFieldStatus::ToByte` (Slate.cpp:16-25) with the conditions of Slate.cpp:179-184. -/
def fieldStatus (s : Slate) : Nat :=
  statusBit (s.numParts ≠ 2) 0 ||| statusBit (s.amount ≠ 0) 1 ||| statusBit (s.fee ≠ ⟨0, 0⟩) 2 |||
    statusBit (s.features ≠ 0) 3 ||| statusBit (s.ttl ≠ 0) 4

/-- `OptionalStructStatus::ToByte` (Slate.cpp:46-52) with the conditions of Slate.cpp:213-215. -/
def structStatus (s : Slate) : Nat :=
  statusBit (s.coms ≠ []) 0 ||| statusBit s.proof.isSome 1

/-- A list of items whose serialization may fail, one after the other. -/
def serManyRes {α : Type} (f : α → Res Bytes) : List α → Res Bytes
  | [] => .ok []
  | a :: l => do
    let x ← f a
    let y ← serManyRes f l
    return x ++ y

/-- `Slate::Serialize` (Slate.cpp:171-234); the counts of signatures and commitments are cut to one and two
bytes. -/
def slateSer (ops : SigOps) (s : Slate) : Res Bytes := do
  let sigs ← serManyRes (sigSer ops) s.sigs
  return beBytes 2 s.version ++ (beBytes 2 s.blockVersion ++ (s.id ++ (beBytes 1 s.stage.toByte ++
    (s.offset ++ (beBytes 1 (fieldStatus s) ++
    ((if s.numParts ≠ 2 then beBytes 1 s.numParts else []) ++
    ((if s.amount ≠ 0 then beBytes 8 s.amount else []) ++
    ((if s.fee ≠ ⟨0, 0⟩ then feeSer s.fee else []) ++
    ((if s.features ≠ 0 then beBytes 1 s.features else []) ++
    ((if s.ttl ≠ 0 then beBytes 8 s.ttl else []) ++
    (beBytes 1 (s.sigs.length % 256) ++ (sigs ++
    (beBytes 1 (structStatus s) ++
    ((if s.coms ≠ [] then beBytes 2 (s.coms.length % 65536) ++ serMany comSer s.coms else []) ++
    ((match s.proof with | some p => payProofSer p | none => []) ++
    (if s.features = 2 then beBytes 8 s.lockHeight else []))))))))))))))))

/-- An optional field (Slate.cpp:252-270): read it if its bit is set, else keep the default of the
constructor (Slate.h:50-64). -/
def readIf {α : Type} (c : Bool) (p : Parser α) (d : α) : Parser α := if c then p else pure d

/-- The feature arguments (Slate.cpp:293-299). -/
def readArgs (features : Nat) : Parser (Option (Option Nat)) :=
  if features ≠ 0 then
    if features = 2 then do
      let h ← readBE 8
      return some (some h)
    else return some none
  else return none

/-- `Slate::Deserialize` (Slate.cpp:236-302). -/
def slateDeser (ops : SigOps) : Parser Slate := do
  let version ← readBE 2
  let blockVersion ← readBE 2
  let id ← readBytes 16
  let st ← readBE 1
  let stage ← Parser.lift (Stage.fromByte st)
  let offset ← readBytes 32
  let fs ← readBE 1
  let numParts ← readIf (isSet fs 0) (readBE 1) 2
  let amount ← readIf (isSet fs 1) (readBE 8) 0
  let fee ← readIf (isSet fs 2) feeDeser ⟨0, 0⟩
  let features ← readIf (isSet fs 3) (readBE 1) 0
  let ttl ← readIf (isSet fs 4) (readBE 8) 0
  let ns ← readBE 1
  let sigs ← readMany (sigDeser ops) ns
  let ss ← readBE 1
  let coms ← readIf (isSet ss 0) (do
    let nc ← readBE 2
    readMany comDeser nc) []
  let proof ← readIf (isSet ss 1) (do
    let p ← payProofDeser
    return some p) none
  let args ← readArgs features
  return ⟨id, stage, version, blockVersion, numParts, ttl, features, args, offset, amount, fee, sigs, coms, proof⟩

/-- `Slate::operator==` (Slate.h:69-84): line 74 tests `blockVersion && rhs.blockVersion`, and the feature
arguments are not compared. -/
def slateEq (a b : Slate) : Bool :=
  decide (a.id = b.id) && decide (a.stage = b.stage) && decide (a.version = b.version) &&
    decide (a.blockVersion ≠ 0) && decide (b.blockVersion ≠ 0) && decide (a.amount = b.amount) &&
    decide (a.fee = b.fee) && decide (a.offset = b.offset) && decide (a.numParts = b.numParts) &&
    decide (a.features = b.features) && decide (a.ttl = b.ttl) && decide (a.sigs = b.sigs) &&
    decide (a.coms = b.coms) && decide (a.proof = b.proof)

/-- `Slate::GetInputs` (Slate.cpp:63-74). -/
def Slate.inputs (s : Slate) : List TxInput :=
  s.coms.filterMap fun c => match c.proof with | none => some ⟨c.features, c.commit⟩ | some _ => none

/-- `Slate::GetOutputs` (Slate.cpp:76-87). -/
def Slate.outputs (s : Slate) : List TxOutput :=
  s.coms.filterMap fun c => match c.proof with | some p => some ⟨c.features, c.commit, p⟩ | none => none

/-- `Slate::AddInput` (Slate.cpp:89-99). -/
def Slate.addInput (s : Slate) (features : Nat) (commit : Bytes) : Slate :=
  if s.coms.any (fun c => c.commit = commit) then s
  else { s with coms := s.coms ++ [⟨features, commit, none⟩] }

/-- The loop of `Slate::AddOutput` (Slate.cpp:103-112): the first entry with this commitment gets the proof
if it has none. -/
def addOutputTo (features : Nat) (commit proof : Bytes) : List SlateCom → List SlateCom
  | [] => [⟨features, commit, some proof⟩]
  | c :: cs =>
    if c.commit = commit then
      (match c.proof with | none => { c with proof := some proof } | some _ => c) :: cs
    else c :: addOutputTo features commit proof cs

/-- `Slate::AddOutput` (Slate.cpp:101-115). -/
def Slate.addOutput (s : Slate) (features : Nat) (commit proof : Bytes) : Slate :=
  { s with coms := addOutputTo features commit proof s.coms }

end Verif.Codec
