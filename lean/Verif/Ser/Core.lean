import Verif.Ser.Pow

/-!
# Core models: fee, input, output, kernel, body, transaction, header, blocks

Model of the `Serialize`/`Deserialize` functions under `src/Core/Models`.  Commitments are 33-byte
strings, signatures 64, hashes and blinding factors 32 (`CBigInteger<N>`).
-/
namespace Verif

/-- `Append<int64_t>`: two's complement (Serializer.h:35-48). -/
def serI64 (x : Int) : Bytes := beBytes 8 (x % 2 ^ 64).toNat

/-- `Read64` (ByteBuffer.h:129-135). -/
def readI64 : Parser Int := do
  let n ← readBE 8
  return if n < 2 ^ 63 then (n : Int) else (n : Int) - 2 ^ 64

/-! ## Fee -/

/-- `Fee` (include/Core/Models/Fee.h:69-70): 8-bit shift, 64-bit amount. -/
structure Fee where
  shift : Nat
  fee : Nat
deriving DecidableEq, Repr

/-- `Fee::Serialize` (Fee.h:40-46). -/
def feeSer (f : Fee) : Bytes :=
  beBytes 2 0 ++ (beBytes 1 f.shift ++ (beBytes 1 (f.fee >>> 32) ++
    beBytes 4 (f.fee &&& 0xffffffff)))

/-- `Fee::Deserialize` (Fee.h:48-55). -/
def feeDeser : Parser Fee := do
  let _ ← readBE 2
  let s ← readBE 1
  let hi ← readBE 1
  let lo ← readBE 4
  return ⟨s &&& 0x0f, (hi <<< 32) + lo⟩

/-- `Fee::ToJSON` (Fee.h:57-61): the eight serialized bytes as one integer. -/
def feeToJSON (f : Fee) : Nat := beVal (feeSer f)

/-- `Fee::FromJSON` (Fee.h:63-66) through `Fee::From` (21). -/
def feeFromJSON (n : Nat) : Fee := ⟨0, n⟩

/-! ## Inputs and outputs -/

/-- `TransactionInput`: features byte and commitment. -/
structure TxInput where
  features : Nat
  commit : Bytes
deriving DecidableEq, Repr

/-- `TransactionInput::Serialize` (TransactionInput.cpp:17-24): features only below V3. -/
def inputSer (ver : Nat) (i : TxInput) : Bytes :=
  (if ver < 3 then beBytes 1 i.features else []) ++ i.commit

/-- `TransactionInput::Deserialize` (TransactionInput.cpp:26-37).  From V3 on, the features are
looked up in the chain's coin view, the parameter `coin`. -/
def inputDeser (coin : Bytes → Nat) (ver : Nat) : Parser TxInput :=
  if ver ≥ 3 then do
    let c ← readBytes 33
    return ⟨coin c, c⟩
  else do
    let f ← readBE 1
    let c ← readBytes 33
    return ⟨f, c⟩

/-- `TransactionOutput`: features byte, commitment, range proof bytes. -/
structure TxOutput where
  features : Nat
  commit : Bytes
  proof : Bytes
deriving DecidableEq, Repr

/-- `RangeProof::Serialize` (RangeProof.h:50-54). -/
def proofSer (p : Bytes) : Bytes := beBytes 8 p.length ++ p

/-- `RangeProof::Deserialize` (RangeProof.h:56-64). -/
def proofDeser : Parser Bytes := do
  let n ← readBE 8
  if n > 675 then Parser.fail else readBytes n

/-- `TransactionOutput::Serialize` (TransactionOutput.cpp:17-27). -/
def outputSer (o : TxOutput) : Bytes := beBytes 1 o.features ++ (o.commit ++ proofSer o.proof)

/-- `TransactionOutput::Deserialize` (TransactionOutput.cpp:29-41). -/
def outputDeser : Parser TxOutput := do
  let f ← readBE 1
  let c ← readBytes 33
  let p ← proofDeser
  return ⟨f, c, p⟩

/-- `OutputIdentifier::Serialize` (OutputIdentifier.cpp:17-24). -/
def outputIdSer (o : TxInput) : Bytes := beBytes 1 o.features ++ o.commit

/-- `OutputIdentifier::Deserialize` (OutputIdentifier.cpp:26-35). -/
def outputIdDeser : Parser TxInput := do
  let f ← readBE 1
  let c ← readBytes 33
  return ⟨f, c⟩

/-! ## Kernels -/

/-- `TransactionKernel` (TransactionKernel.h:76-91); features are the raw byte: 0 default,
1 coinbase, 2 height-locked, 3 no-recent-duplicate (Features.h:51-64). -/
structure Kernel where
  features : Nat
  fee : Fee
  lockHeight : Nat
  excess : Bytes
  sig : Bytes
deriving DecidableEq, Repr

/-- `Consensus::WEEK_HEIGHT` (Consensus.h:120-127): 7 * 24 * 60. -/
def WEEK_HEIGHT : Nat := 10080

/-- `TransactionKernel::Serialize` (TransactionKernel.cpp:25-58). -/
def kernelSer (ver : Nat) (k : Kernel) : Bytes :=
  if ver ≥ 2 then
    beBytes 1 k.features ++
      ((if k.features = 0 then feeSer k.fee
        else if k.features = 1 then []
        else if k.features = 2 then feeSer k.fee ++ beBytes 8 k.lockHeight
        else if k.features = 3 then feeSer k.fee ++ beBytes 2 k.lockHeight
        else []) ++ (k.excess ++ k.sig))
  else
    beBytes 1 k.features ++ (feeSer k.fee ++ (beBytes 8 k.lockHeight ++ (k.excess ++ k.sig)))

/-- The fee and lock height part of `TransactionKernel::Deserialize`
(TransactionKernel.cpp:65-87). -/
def kernelArgsDeser (ver features : Nat) : Parser (Fee × Nat) :=
  if ver ≥ 2 then do
    let fee ← (if features ≠ 1 then feeDeser else pure ⟨0, 0⟩)
    let lh ← (if features = 2 then readBE 8 else if features = 3 then readBE 2 else pure 0)
    return (fee, lh)
  else do
    let fee ← feeDeser
    let lh ← readBE 8
    return (fee, lh)

/-- `TransactionKernel::Deserialize` (TransactionKernel.cpp:60-106). -/
def kernelDeser (ver : Nat) : Parser Kernel := do
  let features ← readBE 1
  let a ← kernelArgsDeser ver features
  let excess ← readBytes 33
  let sig ← readBytes 64
  if features = 3 ∧ (a.2 = 0 ∨ a.2 > WEEK_HEIGHT) then Parser.fail
  else return ⟨features, a.1, a.2, excess, sig⟩

/-- `TransactionKernel::GetSignatureMessage` before hashing (TransactionKernel.cpp:160-181). -/
def kernelMsg (features : Nat) (fee : Fee) (lockHeight : Nat) : Bytes :=
  beBytes 1 features ++
    ((if features ≠ 1 then feeSer fee else []) ++
      ((if features = 2 then beBytes 8 lockHeight else []) ++
        (if features = 3 then beBytes 2 lockHeight else [])))

/-! ## Transaction bodies, transactions, blocks -/

/-- Blake2b digest of the bytes, read as a big-endian number.  `CBigInteger::operator<`
(BigInteger.h:190-209) compares equal-length digests lexicographically, which is the numeric
order. -/
abbrev DigestNum := Bytes → Nat

/-- Hash of an input: V1000 serialization, commitment only (TransactionInput.cpp:9-15). -/
def inputHash (H : DigestNum) (i : TxInput) : Nat := H (inputSer 1000 i)
/-- Hash of an output: features and commitment (TransactionOutput.cpp:5-15). -/
def outputHash (H : DigestNum) (o : TxOutput) : Nat := H (beBytes 1 o.features ++ o.commit)
/-- Hash of a kernel: V1 serialization (TransactionKernel.cpp:9-23). -/
def kernelHash (H : DigestNum) (k : Kernel) : Nat := H (kernelSer 1 k)

/-- `std::sort(..., SortXByHash)`.  Elements with equal hash keep their order here, whereas
`std::sort` leaves it unspecified; theorems only use it where hashes are distinct. -/
def sortByHash {α : Type} (h : α → Nat) (l : List α) : List α :=
  l.mergeSort (fun a b => decide (h a ≤ h b))

/-- `TransactionBody`. -/
structure Body where
  inputs : List TxInput
  outputs : List TxOutput
  kernels : List Kernel
deriving DecidableEq, Repr

/-- `TransactionBody::Serialize` (TransactionBody.cpp:30-53). -/
def bodySer (ver : Nat) (b : Body) : Bytes :=
  beBytes 8 b.inputs.length ++ (beBytes 8 b.outputs.length ++ (beBytes 8 b.kernels.length ++
    (serMany (inputSer ver) b.inputs ++ (serMany outputSer b.outputs ++
      serMany (kernelSer ver) b.kernels))))

/-- `TransactionBody::Deserialize` (TransactionBody.cpp:55-87); the constructor called at line 86
sorts once more (9-16), which changes nothing.  The `int` loop counters are not modelled: the
buffer is exhausted before they overflow. -/
def bodyDeser (H : DigestNum) (coin : Bytes → Nat) (ver : Nat) : Parser Body := do
  let ni ← readBE 8
  let no ← readBE 8
  let nk ← readBE 8
  let is ← readMany (inputDeser coin ver) ni
  let os ← readMany outputDeser no
  let ks ← readMany (kernelDeser ver) nk
  return ⟨sortByHash (inputHash H) is, sortByHash (outputHash H) os, sortByHash (kernelHash H) ks⟩

/-- `Transaction`: kernel offset and body. -/
structure Tx where
  offset : Bytes
  body : Body
deriving DecidableEq, Repr

/-- `Transaction::Serialize` (Transaction.cpp:27-35). -/
def txSer (ver : Nat) (t : Tx) : Bytes := t.offset ++ bodySer ver t.body

/-- `Transaction::Deserialize` (Transaction.cpp:37-46). -/
def txDeser (H : DigestNum) (coin : Bytes → Nat) (ver : Nat) : Parser Tx := do
  let o ← readBytes 32
  let b ← bodyDeser H coin ver
  return ⟨o, b⟩

/-- `BlockHeader` (BlockHeader.h:116-131). -/
structure Header where
  version : Nat
  height : Nat
  timestamp : Int
  prevHash : Bytes
  prevRoot : Bytes
  outputRoot : Bytes
  rangeProofRoot : Bytes
  kernelRoot : Bytes
  offset : Bytes
  outputMMRSize : Nat
  kernelMMRSize : Nat
  totalDifficulty : Nat
  scaling : Nat
  nonce : Nat
  pow : Pow
deriving DecidableEq, Repr

/-- `BlockHeader::GetPreProofOfWork` (BlockHeader.cpp:184-203), also the first part of
`Serialize`. -/
def headerPre (h : Header) : Bytes :=
  beBytes 2 h.version ++ (beBytes 8 h.height ++ (serI64 h.timestamp ++ (h.prevHash ++ (h.prevRoot ++
    (h.outputRoot ++ (h.rangeProofRoot ++ (h.kernelRoot ++ (h.offset ++ (beBytes 8 h.outputMMRSize ++
      (beBytes 8 h.kernelMMRSize ++ (beBytes 8 h.totalDifficulty ++ (beBytes 4 h.scaling ++
        beBytes 8 h.nonce))))))))))))

/-- `BlockHeader::Serialize` (BlockHeader.cpp:41-58). -/
def headerSer (h : Header) : Res Bytes := do
  let p ← powSer h.pow
  return headerPre h ++ p

/-- `BlockHeader::Deserialize` (BlockHeader.cpp:60-99). -/
def headerDeser (HB : Bytes → Bytes) : Parser Header := do
  let version ← readBE 2
  let height ← readBE 8
  let timestamp ← readI64
  let prevHash ← readBytes 32
  let prevRoot ← readBytes 32
  let outputRoot ← readBytes 32
  let rangeProofRoot ← readBytes 32
  let kernelRoot ← readBytes 32
  let offset ← readBytes 32
  let outputMMRSize ← readBE 8
  let kernelMMRSize ← readBE 8
  let totalDifficulty ← readBE 8
  let scaling ← readBE 4
  let nonce ← readBE 8
  let pow ← powDeser HB
  return { version, height, timestamp, prevHash, prevRoot, outputRoot, rangeProofRoot, kernelRoot,
           offset, outputMMRSize, kernelMMRSize, totalDifficulty, scaling, nonce, pow }

/-- `FullBlock`. -/
structure Block where
  header : Header
  body : Body
deriving DecidableEq, Repr

/-- `FullBlock::Serialize` (FullBlock.cpp:9-13). -/
def blockSer (ver : Nat) (b : Block) : Res Bytes := do
  let h ← headerSer b.header
  return h ++ bodySer ver b.body

/-- `FullBlock::Deserialize` (FullBlock.cpp:15-21). -/
def blockDeser (H : DigestNum) (HB : Bytes → Bytes) (coin : Bytes → Nat) (ver : Nat) :
    Parser Block := do
  let h ← headerDeser HB
  let b ← bodyDeser H coin ver
  return ⟨h, b⟩

/-- `CompactBlock`; short ids are 6-byte strings (ShortId.h:53). -/
structure CompactBlk where
  header : Header
  nonce : Nat
  outputs : List TxOutput
  kernels : List Kernel
  shortIds : List Bytes
deriving DecidableEq, Repr

/-- `CompactBlock::Serialize` (CompactBlock.cpp:18-41), `ShortId::Serialize` (ShortId.cpp:33-36). -/
def compactSer (ver : Nat) (b : CompactBlk) : Res Bytes := do
  let h ← headerSer b.header
  return h ++ (beBytes 8 b.nonce ++ (beBytes 8 b.outputs.length ++ (beBytes 8 b.kernels.length ++
    (beBytes 8 b.shortIds.length ++ (serMany outputSer b.outputs ++
      (serMany (kernelSer ver) b.kernels ++ serMany id b.shortIds))))))

/-- `CompactBlock::Deserialize` (CompactBlock.cpp:43-71), `ShortId::Deserialize`
(ShortId.cpp:38-43). -/
def compactDeser (HB : Bytes → Bytes) (ver : Nat) : Parser CompactBlk := do
  let h ← headerDeser HB
  let nonce ← readBE 8
  let no ← readBE 8
  let nk ← readBE 8
  let ns ← readBE 8
  let os ← readMany outputDeser no
  let ks ← readMany (kernelDeser ver) nk
  let ss ← readMany (readBytes 6) ns
  return ⟨h, nonce, os, ks, ss⟩

end Verif
