import Verif.Tx.TxHashSet

/-!
# Positions after a snapshot

How a node that takes over a snapshot of the chain state records where each output is:
`TxHashSet::SaveOutputPositions` and the part of `TxHashSetProcessor::ProcessTxHashSet` after the validation.
-/
namespace Verif.Tx
open Verif.PoW Verif.MMR

/-- The inner loop of `SaveOutputPositions` (TxHashSetImpl.cpp:246-254), for the given number of leaves from `leaf` on. -/
def saveLeaves (o : PMMR) (height : Nat) : Nat → Nat → DB → Res DB
  | 0, _, db => .ok db
  | n + 1, leaf, db => do
    let d ← o.getAt leaf
    match d with
    | some d => saveLeaves o height n (leaf + 1) (db.addPos (idCommit d) ⟨leaf, height⟩)
    | none => saveLeaves o height n (leaf + 1) db

/-- One round of the outer loop of `SaveOutputPositions` (TxHashSetImpl.cpp:235-255): a height of which the chain has no index or the
database no header is passed over.  `chain` is `Chain::GetByHeight`. -/
def saveHeight (chain : Nat → Option Bytes) (o : PMMR) (st : Nat × DB) (height : Nat) : Res (Nat × DB) :=
  match (chain height).bind st.2.header with
  | none => .ok st
  | some h => do
    let db ← saveLeaves o h.height (numOutputs h - st.1) st.1 st.2
    return (max st.1 (numOutputs h), db)

/-- `SaveOutputPositions` (TxHashSetImpl.cpp:232-256): heights 0 to that of the snapshot. -/
def savePositions (chain : Nat → Option Bytes) (db : DB) (t : THS) : Res DB := do
  let r ← (List.range (t.header.height + 1)).foldlM (saveHeight chain t.outputs) (0, db)
  return r.2

end Verif.Tx
