import Verif.Codec.KeyPath
import Verif.Ser.Core

/-!
# Records of the wallet database

Model of `include/Wallet/WalletDB/Models/OutputDataEntity.h` and `SlateContextEntity.h`.  The encryption
of the stored blobs (`OutputsTable.cpp`, `SlateContextTable.cpp`) is not modelled.
-/
namespace Verif.Codec

/-- `OutputDataEntity` (OutputDataEntity.h:17-45, 162-171): labels are byte strings, the status is its byte. -/
structure OutputRecord where
  path : List Nat
  blind : Bytes
  output : TxOutput
  amount : Nat
  status : Nat
  mmrIndex : Option Nat
  height : Option Nat
  txId : Option Nat
  labels : List Bytes
deriving DecidableEq, Repr

/-- The bytes after the label (OutputDataEntity.h:95-97). -/
def txIdSer : Option Nat → Bytes
  | some i => beBytes 4 i
  | none => []

/-- `OutputDataEntity::Serialize` (OutputDataEntity.h:83-98). -/
def recordSer (o : OutputRecord) : Bytes :=
  beBytes 1 1 ++ (serVarStr (formatPath o.path) ++ (o.blind ++ (outputSer o.output ++
    (beBytes 8 o.amount ++ (beBytes 1 o.status ++ (beBytes 8 (o.mmrIndex.getD 0) ++
      (beBytes 8 (o.height.getD 0) ++ (serVarStr (o.labels.headD []) ++ txIdSer o.txId))))))))

/-- Zero stands for an absent value (OutputDataEntity.h:121, 124). -/
def zeroIsNone (n : Nat) : Option Nat := if n = 0 then none else some n

/-- The height is missing in the oldest records (OutputDataEntity.h:123). -/
def readHeight : Parser Nat := do
  let r ← remaining
  if r ≠ 0 then readBE 8 else return 0

/-- The labels, from format 1 on (OutputDataEntity.h:126-132). -/
def readLabels (format : Nat) : Parser (List Bytes) :=
  if format ≥ 1 then do
    let l ← readVarStr
    return if l = [] then [] else [l]
  else return []

/-- The transaction id is present if anything is left in the buffer (OutputDataEntity.h:134-137). -/
def readTxId : Parser (Option Nat) := do
  let r ← remaining
  if r ≠ 0 then do
    let i ← readBE 4
    return some i
  else return none

/-- `OutputDataEntity::Deserialize` (OutputDataEntity.h:103-150). -/
def recordDeser : Parser OutputRecord := do
  let format ← readBE 1
  if format > 1 then Parser.fail
  else do
    let text ← readVarStr
    let path ← Parser.lift (pathFromString text)
    let blind ← readBytes 32
    let output ← outputDeser
    let amount ← readBE 8
    let status ← readBE 1
    let mmr ← readBE 8
    let height ← readHeight
    let labels ← readLabels format
    let txId ← readTxId
    return ⟨path, blind, output, amount, status, zeroIsNone mmr, zeroIsNone height, txId, labels⟩

/-- `SlateContextEntity` (SlateContextEntity.h:87-91). -/
structure SlateContext where
  secretKey : Bytes
  secretNonce : Bytes
  inputs : List OutputRecord
  outputs : List OutputRecord
deriving DecidableEq, Repr

/-- `SlateContextEntity::Serialize` (SlateContextEntity.h:42-58). -/
def contextSer (c : SlateContext) : Bytes :=
  c.secretKey ++ (c.secretNonce ++ (beBytes 8 c.inputs.length ++ (serMany recordSer c.inputs ++
    (beBytes 8 c.outputs.length ++ serMany recordSer c.outputs))))

/-- `SlateContextEntity::Deserialize` (SlateContextEntity.h:60-85). -/
def contextDeser : Parser SlateContext := do
  let key ← readBytes 32
  let nonce ← readBytes 32
  let ni ← readBE 8
  let inputs ← readMany recordDeser ni
  let no ← readBE 8
  let outputs ← readMany recordDeser no
  return ⟨key, nonce, inputs, outputs⟩

end Verif.Codec
