import Verif.Wallet.DB

/-!
# Histories of a wallet

Every operation takes the wallet's lock and runs one batch, so a history is a sequence of operations; one that throws
leaves the tables as they were (`SqliteTransaction.h:46-56`).
-/
namespace Verif.Wallet
open Verif.Codec Verif.PoW

/-- What is fixed for a wallet: network, configured confirmations, the order `std::sort` gives, and the commitment of a
key path and an amount. -/
structure Fixed where
  env : Env
  conf : Nat
  up : List OutputRecord → List OutputRecord
  down : List OutputRecord → List OutputRecord
  commit : List Nat → Nat → Bytes

/-- The operations of a wallet's user and of its foreign API (`WalletManagerImpl.cpp`, `ForeignServer.cpp`). -/
inductive WOp
  | send (tip : Nat) (a : SendArgs)
  | receive (slate : Bytes) (amount fee : Nat)
  | finalize (slate : Bytes) (valid : Bool) (ins outs : List Bytes)
  | cancel (id : Nat)
  | refresh (v : NodeView)
  | coinbase

/-- One operation (see `DB.lean` for the code behind each). -/
def applyOp (c : Fixed) : WOp → WDB → Res WDB
  | .send tip a, db => Wallet.send c.env c.conf tip c.up c.down c.commit a db
  | .receive s v f, db => Wallet.receive c.commit s v f db
  | .finalize s ok i o, db => Wallet.finalize s ok i o db
  | .cancel i, db => Wallet.cancel i db
  | .refresh v, db => .ok (Wallet.refresh v db).2
  | .coinbase, db => .ok (Wallet.coinbase db)

/-- The state after the operation: unchanged if it throws. -/
def stepOp (c : Fixed) (db : WDB) (op : WOp) : WDB :=
  match applyOp c op db with
  | .ok d => d
  | _ => db

/-- The state after a history. -/
def runOps (c : Fixed) (db : WDB) (ops : List WOp) : WDB := ops.foldl (stepOp c) db

end Verif.Wallet
