import Verif.P2P.Net
import Verif.Tx.Pool

/-!
# Transactions from peers

Model of `BlockChain::AddTransaction` (`src/BlockChain/BlockChainImpl.cpp`) between the transaction pipe
(`Verif.P2P.Net`) and the pools (`Verif.Tx.Pool`).
-/
namespace Verif.P2P
open Verif Verif.Tx

variable {S : Type}

/-- What the node has at hand in one round: the height of the confirmed tip (reading it may fail, and there may
be none), the txhashset, and the outcome of the random choice made for a stem transaction. -/
structure TxView (S : Type) where
  tip : Res (Option Nat)
  state : Option S
  stemIt : Bool

/-- `BlockChain::AddTransaction` (BlockChainImpl.cpp:205-240): every exception, and a missing tip, end at the last
line, which returns `INVALID`. -/
def addTransaction (R : PoolRules S) (v : TxView S) (p : Pools) (e : TxEntry Tx) : Res (Pools × TxStatus) :=
  match v.tip with
  | .ub => .ub
  | .throw => .ok (p, .invalid)
  | .ok none => .ok (p, .invalid)
  | .ok (some h) =>
    match addTx R p v.state h e.tx e.mempool v.stemIt with
    | .ub => .ub
    | .throw => .ok (p, .invalid)
    | .ok r => .ok (r.1, if r.2 = .added then .success else if r.2 = .invalid then .invalid else .unknownError)

/-- The same for `Pipe.round`, which takes a function that answers.  Undefined behaviour is not passed on; that there
is none is part of the theorems using this. -/
def addOr (R : PoolRules S) (v : TxView S) (p : Pools) (e : TxEntry Tx) : Pools × TxStatus :=
  match addTransaction R v p e with
  | .ok r => r
  | _ => (p, .unknownError)

/-- What happens to the pipe: a message with a transaction is queued (`AddTransactionToProcess`,
TransactionPipe.cpp:78-86), or the thread does a round (TransactionPipe.cpp:38-73).  Blocks change the pools and the
chain in between; the pools are given with each round. -/
inductive TxEvent (S : Type)
  | arrive (e : TxEntry Tx)
  | round (v : TxView S) (pool : Pools)

/-- One event. -/
def txEvent (R : PoolRules S) (announce : Pools → Tx → Res Unit) (s : Pipe Tx Pools) : TxEvent S → Pipe Tx Pools
  | .arrive e => (s.push R.hash e).1
  | .round v pool => Pipe.round (addOr R v) announce { s with pool := pool }

end Verif.P2P
