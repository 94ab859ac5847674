import Verif.Tx.TxHashSet

/-!
# The list of unspent outputs

Model of `TxHashSet::GetOutputsByLeafIndex` (src/PMMR/TxHashSetImpl.cpp), which the node answers wallets with.
-/
namespace Verif.Tx
open Verif.MMR

/-- `OutputDTO` (include/Core/Models/DTOs/OutputDTO.h) as built here: never spent; the identifier, where it is, the range proof. -/
structure Listed where
  id : Bytes
  loc : Loc
  proof : Bytes
deriving DecidableEq, Repr

/-- `OutputRange` (include/Core/Models/DTOs/OutputRange.h:5-16). -/
structure OutputRange where
  highest : Nat
  last : Nat
  outputs : List Listed
deriving DecidableEq, Repr

/-- The loop (TxHashSetImpl.cpp:280-298).  Leaf numbers of 2^63 and more, whose position does not fit in 64 bits, are not
modelled. -/
def listLoop (db : DB) (t : THS) (max : Nat) : Nat → Nat → List Listed → Res (List Listed)
  | 0, _, _ => .ub
  | f + 1, leaf, acc =>
    if acc.length ≥ max then .ok acc
    else if leafPos leaf ≥ t.outputs.size then .ok acc
    else do
      let o ← t.outputs.getAt leaf
      match o with
      | none => listLoop db t max f (leaf + 1) acc
      | some d => do
        let p ← t.proofs.getAt leaf
        match p, db.pos (idCommit d) with
        | some p, some l =>
          if l.leaf ≠ leaf then .throw else listLoop db t max f (leaf + 1) (acc ++ [⟨d, l, p⟩])
        | _, _ => .throw

/-- `GetOutputsByLeafIndex` (TxHashSetImpl.cpp:273-304).  The number of rounds is at most the size. -/
def outputsByLeafIndex (db : DB) (t : THS) (start max : Nat) : Res OutputRange := do
  let outputs ← listLoop db t max (t.outputs.size + 1) start []
  let leaves := leafIndexAt t.outputs.size
  return ⟨if leaves > 0 then leaves - 1 else 0, match outputs.getLast? with | none => 0 | some o => o.loc.leaf, outputs⟩

end Verif.Tx
