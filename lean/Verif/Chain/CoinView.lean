import Verif.Tx.TxHashSet

/-!
# The features of inputs

From protocol version 3 on, a peer sends of each input the commitment only; the node looks the features of the output up
while it reads the message: `src/BlockChain/CoinView.cpp` and the deserializers that use it.
-/
namespace Verif.Tx
open Verif.PoW Verif.MMR

/-- `CoinView::GetOutputType` (CoinView.cpp:5-19) with `TxHashSet::GetOutput` (TxHashSetImpl.cpp:328-337).  `t` is what
`TxHashSetManager::GetTxHashSet` returns, a null pointer while a snapshot is taken over (TxHashSetProcessor.cpp:31-60). -/
def coinView (db : DB) (t : Option THS) (c : Bytes) : Res Nat :=
  match db.pos c with
  | none => .ok 0
  | some loc =>
    match t with
    | none => .ub
    | some t => do
      let o ← t.outputs.getAt loc.leaf
      let p ← t.proofs.getAt loc.leaf
      match o, p with
      | some o, some _ => return idFeatures o
      | _, _ => .throw

/-- `TransactionInput::Deserialize` (TransactionInput.cpp:26-37). -/
def inputDeserView (view : Bytes → Res Nat) (ver : Nat) : Parser TxInput :=
  if ver ≥ 3 then do
    let c ← readBytes 33
    let f ← Parser.lift (view c)
    return ⟨f, c⟩
  else do
    let f ← readBE 1
    let c ← readBytes 33
    return ⟨f, c⟩

/-- `TransactionBody::Deserialize` (TransactionBody.cpp:55-87), as `bodyDeser`. -/
def bodyDeserView (H : DigestNum) (view : Bytes → Res Nat) (ver : Nat) : Parser Body := do
  let ni ← readBE 8
  let no ← readBE 8
  let nk ← readBE 8
  let is ← readMany (inputDeserView view ver) ni
  let os ← readMany outputDeser no
  let ks ← readMany (kernelDeser ver) nk
  return ⟨sortByHash (inputHash H) is, sortByHash (outputHash H) os, sortByHash (kernelHash H) ks⟩

/-- `Transaction::Deserialize` (Transaction.cpp:37-46). -/
def txDeserView (H : DigestNum) (view : Bytes → Res Nat) (ver : Nat) : Parser Tx := do
  let o ← readBytes 32
  let b ← bodyDeserView H view ver
  return ⟨o, b⟩

/-- `FullBlock::Deserialize` (FullBlock.cpp:15-21). -/
def blockDeserView (H : DigestNum) (HB : Bytes → Bytes) (view : Bytes → Res Nat) (ver : Nat) : Parser Block := do
  let h ← headerDeser HB
  let b ← bodyDeserView H view ver
  return ⟨h, b⟩

end Verif.Tx
