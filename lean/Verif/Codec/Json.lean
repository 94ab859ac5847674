import Verif.Codec.KeyPath
import Verif.Codec.Slate

/-!
# JSON values, slates and transactions as JSON

Model of `include/Core/Util/JsonUtil.h`, of `Slate::ToJSON/FromJSON` (src/Wallet/Models/Slate/Slate.cpp) and of
the `ToJSON/FromJSON` of transactions (src/Core/Models).  Text is read and written by jsoncpp
(`Json::parseFromStream`, `Json::writeString`), which is not modelled: everything here is about `Json::Value`.
Values with a fraction (`realValue`) are left out.
-/
namespace Verif.Codec

/-- `Json::Value` of jsoncpp.  Objects are lists of members with distinct names; `Json::Value` keeps them sorted
by name. -/
inductive Json where
  | null
  | bool (b : Bool)
  | int (n : Int)
  | str (s : Bytes)
  | arr (l : List Json)
  | obj (l : List (String × Json))

/-- `Json::Value::isNull`, and comparison with `Json::nullValue`. -/
def Json.isNull : Json → Bool
  | .null => true
  | _ => false

/-- `Json::Value::get(key, Json::nullValue)`: what is neither null nor an object fails an assertion of jsoncpp,
which throws `Json::LogicError`. -/
def Json.get (j : Json) (key : String) : Res Json :=
  match j with
  | .null => .ok .null
  | .obj fs => .ok ((fs.lookup key).getD .null)
  | _ => .throw

/-- `Json::Value::asString`. -/
def Json.asString : Json → Res Bytes
  | .null => .ok []
  | .bool b => .ok (Codec.str (if b then "true" else "false"))
  | .int n => .ok (if n < 0 then 45 :: decStr n.natAbs else decStr n.natAbs)
  | .str s => .ok s
  | .arr _ => .throw
  | .obj _ => .throw

/-- A `Json::Value x;` to which members were assigned: null if there were none. -/
def Json.members (fs : List (String × Json)) : Json := match fs with | [] => .null | _ :: _ => .obj fs

/-- A `Json::Value x;` to which elements were appended: null if there were none. -/
def Json.elements (l : List Json) : Json := match l with | [] => .null | _ :: _ => .arr l

/-- `JsonUtil::GetRequiredField` (JsonUtil.h:57-71). -/
def getRequired (j : Json) (key : String) : Res Json :=
  if j.isNull then .throw
  else do
    let v ← j.get key
    if v.isNull then .throw else .ok v

/-- `JsonUtil::GetOptionalField` (JsonUtil.h:73-89). -/
def getOptional (j : Json) (key : String) : Res (Option Json) :=
  if j.isNull then .throw
  else do
    let v ← j.get key
    return if v.isNull then none else some v

/-- `JsonUtil::GetRequiredArray` (JsonUtil.h:91-106). -/
def getRequiredArray (j : Json) (key : String) : Res (List Json) := do
  let v ← getRequired j key
  match v with
  | .arr l => return l
  | _ => .throw

/-- `JsonUtil::GetArray` (JsonUtil.h:118-132): anything but an array is an empty array. -/
def getArray (j : Json) (key : String) : Res (List Json) := do
  let v ← getOptional j key
  match v with
  | some (.arr l) => return l
  | _ => return []

/-- `JsonUtil::ConvertToVector` (JsonUtil.h:41-55). -/
def jsonBytes (n : Nat) (j : Json) : Res Bytes :=
  if j.isNull then .throw
  else do
    let s ← j.asString
    let bs ← fromHex s
    if bs.length = n then .ok bs else .throw

/-- `std::stoull(s)`, base 10; `std::stoul` where `unsigned long` has 64 bits.  White space and a sign may precede
the digits, what follows them is ignored, a minus sign negates modulo `2 ^ 64`; without digits and beyond 64 bits it
throws. -/
def stoull (s : Bytes) : Res Nat :=
  let s1 := s.dropWhile isSpace
  let digits := (if s1.head? = some 45 ∨ s1.head? = some 43 then s1.drop 1 else s1).takeWhile isDigit
  if digits = [] ∨ decVal digits ≥ 2 ^ 64 then .throw
  else .ok (if s1.head? = some 45 then (2 ^ 64 - decVal digits) % 2 ^ 64 else decVal digits)

/-- `JsonUtil::ConvertToUInt64` (JsonUtil.h:351-365). -/
def jsonUInt64 : Json → Res Nat
  | .int n => if 0 ≤ n ∧ n < 2 ^ 64 then .ok n.toNat else .throw
  | .str s => stoull s
  | _ => .throw

/-- The readers of optional fields (`GetBigIntegerOpt`, `GetBlindingFactorOpt`, `GetRangeProofOpt`, `GetUInt64Opt`:
JsonUtil.h:149-158, 178-189, 314-323, 373-384). -/
def optionally {α : Type} (f : Json → Res α) (j : Json) (key : String) : Res (Option α) := do
  let v ← getOptional j key
  match v with
  | some x => do
    let a ← f x
    return some a
  | none => return none

/-- The readers of required fields (`GetBigInteger`, `GetCommitment`, `GetPublicKey`, …: JsonUtil.h:143-147,
173-176, 222-225, 240-243, 291-294, 309-312). -/
def required {α : Type} (f : Json → Res α) (j : Json) (key : String) : Res α := do
  let v ← getRequired j key
  f v

/-- `JsonUtil::GetUInt8Opt(json, key).value_or(d)` (JsonUtil.h:426-437): cut to eight bits. -/
def jsonUInt8 (j : Json) (key : String) (d : Nat) : Res Nat := do
  let v ← optionally jsonUInt64 j key
  return match v with | some n => n % 256 | none => d

/-- A member written under a condition. -/
def optField (c : Prop) [Decidable c] (key : String) (v : Json) : List (String × Json) :=
  if c then [(key, v)] else []

/-! ## Slates -/

/-- `SlateStage::ToString` (SlateStage.h:36, 39-52): the member function is `noexcept`, so an unknown stage ends the
program. -/
def stageText : Stage → Res Bytes
  | .none => .ub
  | .standardSent => .ok (str "S1")
  | .standardReceived => .ok (str "S2")
  | .standardFinalized => .ok (str "S3")
  | .invoiceSent => .ok (str "I1")
  | .invoicePaid => .ok (str "I2")
  | .invoiceFinalized => .ok (str "I3")

/-- `SlateStage::FromString` (SlateStage.h:54-64). -/
def stageOfText (s : Bytes) : Res Stage :=
  if s = str "S1" then .ok .standardSent
  else if s = str "S2" then .ok .standardReceived
  else if s = str "S3" then .ok .standardFinalized
  else if s = str "I1" then .ok .invoiceSent
  else if s = str "I2" then .ok .invoicePaid
  else if s = str "I3" then .ok .invoiceFinalized
  else .throw

/-- `uuids::to_string` (deps/stduuid/include/uuid.h:545-579). -/
def uuidText (id : Bytes) : Bytes :=
  toHex (id.take 4) ++ 45 :: (toHex ((id.drop 4).take 2) ++ 45 :: (toHex ((id.drop 6).take 2) ++
    45 :: (toHex ((id.drop 8).take 2) ++ 45 :: toHex (id.drop 10))))

/-- The loop of `uuids::uuid::from_string` (uuid.h:479-503): `digit` is the first of a pair, if it was read. -/
def uuidLoop : Bytes → Option UInt8 → Bytes → Option Bytes
  | [], _, data => if data.length < 16 then none else some data
  | c :: s, digit, data =>
    if c = 45 then uuidLoop s digit data
    else if data.length ≥ 16 then none
    else
      match hexIndex c, digit with
      | none, _ => none
      | some i, none => uuidLoop s (some i) data
      | some i, some d => uuidLoop s none (data ++ [(d <<< 4) ||| i])

/-- `uuids::uuid::from_string` (uuid.h:458-514); the string ends at its first NUL. -/
def uuidParse (s : Bytes) : Option Bytes :=
  let s := s.takeWhile (· ≠ 0)
  if s.head? = some 123 then
    if s.getLast? = some 125 then uuidLoop ((s.drop 1).dropLast) none [] else none
  else if s = [] then none
  else uuidLoop s none []

/-- `SlateSignature::ToJSON` (SlateSignature.h:57-68). -/
def sigToJson (g : SlateSig) : Json :=
  .obj ([("xs", .str (toHex g.excess)), ("nonce", .str (toHex g.nonce))] ++
    (match g.partialSig with | some p => [("part", .str (toHex p))] | none => []))

/-- `SlateSignature::FromJSON` (SlateSignature.h:70-80). -/
def sigFromJson (j : Json) : Res SlateSig := do
  let excess ← required (jsonBytes 33) j "xs"
  let nonce ← required (jsonBytes 33) j "nonce"
  let part ← optionally (jsonBytes 64) j "part"
  return ⟨excess, nonce, part⟩

/-- `SlateCommitment::ToJSON` (SlateCommitment.h:54-70). -/
def comToJson (c : SlateCom) : Json :=
  .obj ([("c", .str (toHex c.commit))] ++ (optField (c.features = 1) "f" (.int 1) ++
    (match c.proof with | some p => [("p", .str (toHex p))] | none => [])))

/-- `SlateCommitment::FromJSON` (SlateCommitment.h:72-85). -/
def comFromJson (j : Json) : Res SlateCom := do
  let commit ← required (jsonBytes 33) j "c"
  let f ← optionally jsonUInt64 j "f"
  let proof ← optionally (jsonBytes 675) j "p"
  return ⟨if f.getD 0 = 1 then 1 else 0, commit, proof⟩

/-- `SlatePaymentProof::ToJSON` (SlatePaymentProof.h:28-39). -/
def payProofToJson (p : PayProof) : Json :=
  .obj ([("saddr", .str (toHex p.sender)), ("raddr", .str (toHex p.receiver))] ++
    (match p.signature with | some s => [("rsig", .str (toHex s))] | none => []))

/-- `SlatePaymentProof::FromJSON` (SlatePaymentProof.h:41-56). -/
def payProofFromJson (j : Json) : Res PayProof := do
  let sender ← required (jsonBytes 32) j "saddr"
  let receiver ← required (jsonBytes 32) j "raddr"
  let sig ← optionally (jsonBytes 64) j "rsig"
  return ⟨sender, receiver, sig⟩

/-- `Fee::FromJSON` (Fee.h:63-66). -/
def feeOfJson (j : Json) : Res Fee := do
  let n ← jsonUInt64 j
  return feeFromJSON n

/-- `SlateFeatureArgs::ToJSON` (SlateFeatureArgs.h:10-19). -/
def argsToJson (a : Option Nat) : Json :=
  Json.members (match a with | some h => [("lock_hgt", .int h)] | none => [])

/-- The members `feat` and `feat_args` (Slate.cpp:327-331).  Without arguments the assertion of line 329 fails, or,
in a build without assertions, `value()` throws. -/
def featFields (s : Slate) : Res (List (String × Json)) :=
  if s.features ≠ 0 then
    match s.featureArgs with
    | some a => .ok [("feat", .int s.features), ("feat_args", argsToJson a)]
    | none => .throw
  else .ok []

/-- The member `proof` (Slate.cpp:351-353). -/
def proofFields (p : Option PayProof) : List (String × Json) :=
  match p with
  | some p => [("proof", payProofToJson p)]
  | none => []

/-- `Slate::ToJSON` (Slate.cpp:304-356). -/
def slateToJson (s : Slate) : Res Json := do
  let stage ← stageText s.stage
  let feat ← featFields s
  return .obj (
    [("ver", .str (decStr s.version ++ 58 :: decStr s.blockVersion)), ("id", .str (uuidText s.id)),
      ("sta", .str stage)] ++
    (optField (s.offset ≠ List.replicate 32 0) "off" (.str (toHex s.offset)) ++
    (optField (s.numParts ≠ 2) "num_parts" (.str (decStr s.numParts)) ++
    (optField (s.fee ≠ ⟨0, 0⟩) "fee" (.int (feeToJSON s.fee)) ++
    (optField (s.amount ≠ 0) "amt" (.str (decStr s.amount)) ++
    (feat ++
    (optField (s.ttl ≠ 0) "ttl" (.str (decStr s.ttl)) ++
    ([("sigs", .arr (s.sigs.map sigToJson)), ("coms", .arr (s.coms.map comToJson))] ++
    proofFields s.proof))))))))

/-- One conversion after the other (the loops of Slate.cpp:394-403, TransactionBody.cpp:108-111, 122-141). -/
def readAll {α β : Type} (f : β → Res α) : List β → Res (List α)
  | [] => .ok []
  | j :: l => do
    let a ← f j
    let as ← readAll f l
    return a :: as

/-- The two version numbers (Slate.cpp:360-364, 375-376), each cut to sixteen bits. -/
def versionOfText (s : Bytes) : Res (Nat × Nat) :=
  match split 58 s with
  | [a, b] => do
    let x ← stoull a
    let y ← stoull b
    return (x % 65536, y % 65536)
  | _ => .throw

/-- The identifier (Slate.cpp:366-370). -/
def slateId (s : Bytes) : Res Bytes :=
  match uuidParse s with
  | some id => .ok id
  | none => .throw

/-- `Slate::FromJSON` (Slate.cpp:358-411).  `feat_args` is not read (line 390). -/
def slateFromJson (j : Json) : Res Slate := do
  let vs ← required Json.asString j "ver"
  let ver ← versionOfText vs
  let ids ← required Json.asString j "id"
  let id ← slateId ids
  let sta ← required Json.asString j "sta"
  let stage ← stageOfText sta
  let offset ← optionally (jsonBytes 32) j "off"
  let numParts ← jsonUInt8 j "num_parts" 2
  let fee ← optionally feeOfJson j "fee"
  let amount ← optionally jsonUInt64 j "amt"
  let features ← jsonUInt8 j "feat" 0
  let ttl ← optionally jsonUInt64 j "ttl"
  let sigsJson ← getRequiredArray j "sigs"
  let sigs ← readAll sigFromJson sigsJson
  let comsJson ← getArray j "coms"
  let coms ← readAll comFromJson comsJson
  let proof ← optionally payProofFromJson j "proof"
  return ⟨id, stage, ver.1, ver.2, numParts, ttl.getD 0, features, none, offset.getD (List.replicate 32 0),
    amount.getD 0, fee.getD ⟨0, 0⟩, sigs, coms, proof⟩

/-! ## Transactions -/

/-- `OutputFeatures::ToString` (Features.h:22-33). -/
def outFeatText (f : Nat) : Bytes := if f = 0 then str "Plain" else if f = 1 then str "Coinbase" else []

/-- `StringUtil::ToUpper` (StringUtil.h:86-97), in the C locale. -/
def toUpper (s : Bytes) : Bytes := s.map fun c => if 97 ≤ c ∧ c ≤ 122 then c - 32 else c

/-- `OutputFeatures::FromString` (Features.h:35-48). -/
def outFeatOfText (s : Bytes) : Res Nat :=
  if toUpper s = str "TRANSACTION" ∨ toUpper s = str "PLAIN" then .ok 0
  else if toUpper s = str "COINBASE" then .ok 1
  else .throw

/-- `KernelFeatures::ToString` (Features.h:68-83). -/
def kerFeatText (f : Nat) : String :=
  if f = 0 then "Plain" else if f = 1 then "Coinbase" else if f = 2 then "HeightLocked"
  else if f = 3 then "NoRecentDuplicate" else ""

/-- `KernelFeatures::FromString` (Features.h:85-105). -/
def kerFeatOfText (s : String) : Res Nat :=
  if s = "Plain" then .ok 0
  else if s = "Coinbase" then .ok 1
  else if s = "HeightLocked" then .ok 2
  else if s = "NoRecentDuplicate" then .ok 3
  else .throw

/-- `TransactionInput::ToJSON` (TransactionInput.cpp:39-45). -/
def inputToJson (i : TxInput) : Json :=
  .obj [("features", .str (outFeatText i.features)), ("commit", .str (toHex i.commit))]

/-- `TransactionInput::FromJSON` (TransactionInput.cpp:47-52). -/
def inputFromJson (j : Json) : Res TxInput := do
  let s ← required Json.asString j "features"
  let f ← outFeatOfText s
  let c ← required (jsonBytes 33) j "commit"
  return ⟨f, c⟩

/-- `TransactionOutput::ToJSON` (TransactionOutput.cpp:43-50). -/
def outputToJson (o : TxOutput) : Json :=
  .obj [("features", .str (outFeatText o.features)), ("commit", .str (toHex o.commit)),
    ("proof", .str (toHex o.proof))]

/-- `TransactionOutput::FromJSON` (TransactionOutput.cpp:52-58). -/
def outputFromJson (j : Json) : Res TxOutput := do
  let s ← required Json.asString j "features"
  let f ← outFeatOfText s
  let c ← required (jsonBytes 33) j "commit"
  let p ← required (jsonBytes 675) j "proof"
  return ⟨f, c, p⟩

/-- The members of the kernel's features (TransactionKernel.cpp:112-120): none for a coinbase kernel, and no lock
height for a kernel that must not be repeated. -/
def kernelAttrs (k : Kernel) : Json :=
  Json.members (optField (k.features ≠ 1) "fee" (.int (feeToJSON k.fee)) ++
    optField (k.features = 2) "lock_height" (.int k.lockHeight))

/-- `TransactionKernel::ToJSON` (TransactionKernel.cpp:108-128). -/
def kernelToJson (ops : SigOps) (k : Kernel) : Res Json :=
  match ops.compact k.sig with
  | some c => .ok (.obj [("features", .obj [(kerFeatText k.features, kernelAttrs k)]),
      ("excess", .str (toHex k.excess)), ("excess_sig", .str (toHex c))])
  | none => .throw

/-- The least of the names of an object: `Json::Value::getMemberNames().front()`. -/
def leastName : List String → Option String
  | [] => none
  | n :: ns =>
    match leastName ns with
    | some m => if m < n then some m else some n
    | none => some n

/-- `features_json.getMemberNames().front()` (TransactionKernel.cpp:133): an object without members has no first
name, and what is not an object fails an assertion of jsoncpp. -/
def firstName : Json → Res String
  | .obj fs =>
    match leastName (fs.map Prod.fst) with
    | some n => .ok n
    | none => .ub
  | .null => .ub
  | _ => .throw

/-- The signature (TransactionKernel.cpp:147): `Crypto::ParseCompactSignature` of one that does not parse takes
`front()` of an empty vector. -/
def jsonSignature (ops : SigOps) (j : Json) : Res Bytes := do
  let c ← jsonBytes 64 j
  match ops.parse c with
  | some s => .ok s
  | none => .ub

/-- `TransactionKernel::FromJSON` (TransactionKernel.cpp:130-158). -/
def kernelFromJson (ops : SigOps) (j : Json) : Res Kernel := do
  let fj ← getRequired j "features"
  let name ← firstName fj
  let f ← kerFeatOfText name
  let attrs ← fj.get name
  let fee ← optionally feeOfJson attrs "fee"
  let lock ← optionally jsonUInt64 attrs "lock_height"
  let excess ← required (jsonBytes 33) j "excess"
  let sig ← required (jsonSignature ops) j "excess_sig"
  if f = 3 ∧ (lock.getD 0 = 0 ∨ lock.getD 0 > WEEK_HEIGHT) then .throw
  else return ⟨f, fee.getD ⟨0, 0⟩, lock.getD 0, excess, sig⟩

/-- `Json::Value::size` with `get(index)` for each index (TransactionBody.cpp:122-125): arrays element by element;
null, numbers and strings have size zero; an object with members fails an assertion when it is indexed. -/
def indexed : Json → Res (List Json)
  | .arr l => .ok l
  | .obj (_ :: _) => .throw
  | _ => .ok []

/-- `TransactionBody::ToJSON` (TransactionBody.cpp:89-115): an empty list is written as null. -/
def bodyToJson (ops : SigOps) (b : Body) : Res Json := do
  let ks ← readAll (kernelToJson ops) b.kernels
  return .obj [("inputs", Json.elements (b.inputs.map inputToJson)),
    ("outputs", Json.elements (b.outputs.map outputToJson)), ("kernels", Json.elements ks)]

/-- `TransactionBody::FromJSON` (TransactionBody.cpp:117-148). -/
def bodyFromJson (H : DigestNum) (ops : SigOps) (j : Json) : Res Body := do
  let ij ← getRequired j "inputs"
  let il ← indexed ij
  let ins ← readAll inputFromJson il
  let oj ← getRequired j "outputs"
  let ol ← indexed oj
  let outs ← readAll outputFromJson ol
  let kj ← getRequired j "kernels"
  let kl ← indexed kj
  let kers ← readAll (kernelFromJson ops) kl
  return ⟨sortByHash (inputHash H) ins, sortByHash (outputHash H) outs, sortByHash (kernelHash H) kers⟩

/-- `Transaction::ToJSON` (Transaction.cpp:48-54). -/
def txToJson (ops : SigOps) (t : Tx) : Res Json := do
  let b ← bodyToJson ops t.body
  return .obj [("offset", .str (toHex t.offset)), ("body", b)]

/-- `Transaction::FromJSON` (Transaction.cpp:56-65). -/
def txFromJson (H : DigestNum) (ops : SigOps) (j : Json) : Res Tx := do
  let offset ← required (jsonBytes 32) j "offset"
  let bj ← getRequired j "body"
  let b ← bodyFromJson H ops bj
  return ⟨offset, b⟩

end Verif.Codec
