import Verif.Wallet.History
import Verif.Codec.Json

/-!
# Paying over the wallet's interfaces

Model of `SendHandler.h`, `FinalizeHandler.h`, `RepostTxHandler.h` (the owner's interface), of `FinalizeTxHandler.h` (the foreign one,
reachable through the Tor service), of `CheckVersionClient.h`, `ReceiveTxClient.h` and of `Send`, `Finalize`, `PostTransaction` and
`RepostTx` of `src/Wallet/WalletManagerImpl.cpp:261-382`.  The database side is that of `DB.lean`; slates are their ids, and the answer of
a receiver is what the wallet makes of it.
-/
namespace Verif.Wallet
open Verif.Codec

/-- `EPostMethod` (include/Wallet/Enums/PostMethod.h). -/
inductive PostMethod
  | join | stem | fluff
deriving DecidableEq, Repr

/-- A slate handed in to be finalized: its id, whether the signatures, the payment proof and the transaction pass all checks of the
finalizing (FinalizeSlateBuilder.cpp:56-83, here as given), and its commitments, each with whether a range proof comes with it. -/
structure Reply where
  id : Bytes
  valid : Bool
  coms : List (Bytes × Bool)
deriving DecidableEq, Repr

/-- `Slate::AddInput` (Slate.cpp:89-99). -/
def addInput (coms : List (Bytes × Bool)) (c : Bytes) : List (Bytes × Bool) :=
  if coms.any (fun x => x.1 = c) then coms else coms ++ [(c, false)]

/-- `Slate::AddOutput` (Slate.cpp:101-115): the first entry with the commitment gets the proof if it has none. -/
def addOutput (c : Bytes) : List (Bytes × Bool) → List (Bytes × Bool)
  | [] => [(c, true)]
  | x :: xs => if x.1 = c then (c, true) :: xs else x :: addOutput c xs

/-- The transaction of a finalized slate (FinalizeSlateBuilder.cpp:42-54, Slate.cpp:63-87): the commitments of the slate
handed in, the inputs and the change of the stored context; those without a proof are inputs. -/
def finalTx (ctx : Ctx) (r : Reply) : List Bytes × List Bytes :=
  let coms := ctx.outputs.foldl (fun l o => addOutput o.output.commit l)
    (ctx.inputs.foldl (fun l o => addInput l o.output.commit) r.coms)
  ((coms.filter (fun x => !x.2)).map (·.1), (coms.filter (·.2)).map (·.1))

/-- What others do during one request: whether the `i`-th `TorProcess::Connect` yields a connection (TorProcess.cpp:198-211), the API
version and the slate versions the receiver answers to `check_version`, its slate in answer to `receive_tx` (nothing if the call throws),
whether the node takes a transaction (for the pool or for the stem pool; nothing if the call throws, RPCNodeClient.h:129-138), and
whether the aggregator takes it. -/
structure World where
  connects : Nat → Bool
  version : Option (Nat × List Bytes)
  reply : Option Reply
  node : Bool → List Bytes × List Bytes → Option Bool
  join : List Bytes × List Bytes → Bool

/-- A wallet and what it has handed over to the network: slate id and transaction. -/
structure Purse where
  db : WDB
  posted : List (Bytes × (List Bytes × List Bytes))
deriving DecidableEq, Repr

/-- `MIN_SLATE_VERSION` (Slate.h:23). -/
def MIN_SLATE_VERSION : Nat := 4

/-- `MAX_SLATE_VERSION` (Slate.h:24). -/
def MAX_SLATE_VERSION : Nat := 4

/-- The loop over the versions (CheckVersionClient.h:37-50): the number after a `V` is cut to 16 bits. -/
def highestVersion (high : Nat) : List Bytes → Res Nat
  | [] => .ok high
  | s :: ss =>
    if s.head? = some 86 then do
      let n ← stoull (s.drop 1)
      let v := n % 65536
      highestVersion (if v > high ∧ v ≤ MAX_SLATE_VERSION then v else high) ss
    else highestVersion high ss

/-- `CheckVersionClient::Call` (CheckVersionClient.h:19-59): nothing if there is an error. -/
def checkVersion (answer : Option (Nat × List Bytes)) : Option Nat :=
  match answer with
  | none => none
  | some (api, vs) =>
    if api ≠ 2 then none
    else
      match highestVersion 0 vs with
      | .ok v => some v
      | _ => none

/-- `GetSlateVersion` (SendHandler.h:85-102). -/
def getSlateVersion (connected : Bool) (answer : Option (Nat × List Bytes)) : Res Nat :=
  if !connected then .ok MAX_SLATE_VERSION
  else
    match checkVersion answer with
    | none => .ok MAX_SLATE_VERSION
    | some v => if v < MIN_SLATE_VERSION then .throw else .ok v

/-- `WalletManager::PostTransaction` (WalletManagerImpl.cpp:331-367); nothing if it throws. -/
def postTransaction (W : World) (m : PostMethod) (tx : List Bytes × List Bytes) : Option Bool :=
  match m with
  | .join => some (W.join tx)
  | .stem => W.node false tx
  | .fluff => W.node true tx

/-- The effect of posting on what the network has. -/
def handOver (id : Bytes) (tx : List Bytes × List Bytes) (taken : Bool) (p : Purse) : Purse :=
  if taken then { p with posted := p.posted ++ [(id, tx)] } else p

/-- `WalletManager::Finalize` (WalletManagerImpl.cpp:311-329): the result of `PostTransaction` is not looked at. -/
def finalizeAndPost (W : World) (post : Option PostMethod) (r : Reply) (p : Purse) : Res Unit × Purse :=
  match p.db.contexts.find? (fun e => e.1 = r.id) with
  | none => (.throw, p)
  | some e =>
    let tx := finalTx e.2 r
    match finalize r.id r.valid tx.1 tx.2 p.db with
    | .ok db =>
      match post with
      | none => (.ok (), { p with db := db })
      | some m =>
        match postTransaction W m tx with
        | none => (.throw, { p with db := db })
        | some taken => (.ok (), handOver r.id tx taken { p with db := db })
    | .throw => (.throw, p)
    | .ub => (.ub, p)

/-- `FinalizeTxHandler::Handle` (FinalizeTxHandler.h:17-52): anyone who reaches the wallet's Tor service; always posted to the stem
pool. -/
def foreignFinalize (W : World) (r : Reply) (p : Purse) : Res Unit × Purse := finalizeAndPost W (some .stem) r p

/-- `WalletManager::RepostTx` (WalletManagerImpl.cpp:369-382): whether it was taken. -/
def repost (W : World) (m : PostMethod) (id : Nat) (p : Purse) : Res Bool × Purse :=
  match p.db.txs.find? (fun t => t.id = id) with
  | none => (.ok false, p)
  | some t =>
    match t.tx with
    | none => (.ok false, p)
    | some tx =>
      match postTransaction W m tx with
      | none => (.throw, p)
      | some taken => (.ok taken, handOver (t.slateId.getD []) tx taken p)

/-- `SendResponse::EStatus` (SendResponse.h:10-14). -/
inductive SendStatus
  | sent | finalized
deriving DecidableEq, Repr

/-- `SendResponse` (SendResponse.h:16-26): status, slate, the address the slatepack is encrypted for, and whether there is an error
message. -/
structure SendAnswer where
  status : SendStatus
  slate : Bytes
  sealedFor : Option Bytes
  error : Bool
deriving DecidableEq, Repr

/-- `SendHandler::Handle` (SendHandler.h:25-64), `GetRecipients` (69-83: an address that does not parse is as good as none),
`SendViaTOR` (104-131; the second connection of `ReceiveTxClient::Call`, ReceiveTxClient.h:23-24, is used without a look at whether it is
null).  `parse` is `SlatepackAddress::Parse`, `build` is `WalletManager::Send` for a slate id. -/
def sendCall (parse : Bytes → Option Bytes) (W : World) (build : WDB → Res WDB) (slate : Bytes) (address : Option Bytes)
    (post : Option PostMethod) (p : Purse) : Res SendAnswer × Purse :=
  let recipient := address.bind parse
  let version := if recipient.isSome then getSlateVersion (W.connects 0) W.version else .ok MAX_SLATE_VERSION
  match version with
  | .throw => (.throw, p)
  | .ub => (.ub, p)
  | .ok _ =>
    match build p.db with
    | .throw => (.throw, p)
    | .ub => (.ub, p)
    | .ok db =>
      let p1 : Purse := { p with db := db }
      match recipient with
      | none => (.ok ⟨.sent, slate, none, false⟩, p1)
      | some a =>
        if !W.connects 1 then (.ok ⟨.sent, slate, some a, true⟩, p1)
        else if !W.connects 2 then (.ub, p1)
        else
          match W.reply with
          | none => (.ok ⟨.sent, slate, some a, true⟩, p1)
          | some r =>
            match finalizeAndPost W post r p1 with
            | (.ok _, p2) => (.ok ⟨.finalized, r.id, none, false⟩, p2)
            | (.throw, p2) => (.ok ⟨.sent, slate, some a, true⟩, p2)
            | (.ub, p2) => (.ub, p2)

/-- What can happen to a wallet: requests of its owner, requests of strangers (`foreignFinalize`, `receive` among the operations), and the
operations of `History.lean` that post nothing. -/
inductive PurseEvent
  | send (W : World) (tip : Nat) (a : SendArgs) (address : Option Bytes) (post : Option PostMethod)
  | finalize (W : World) (post : Option PostMethod) (r : Reply)
  | foreignFinalize (W : World) (r : Reply)
  | repost (W : World) (m : PostMethod) (id : Nat)
  | receive (slate : Bytes) (amount fee : Nat)
  | cancel (id : Nat)
  | refresh (v : NodeView)
  | coinbase

/-- The state after an event. -/
def Purse.step (parse : Bytes → Option Bytes) (c : Fixed) (p : Purse) : PurseEvent → Purse
  | .send W tip a address post =>
    (sendCall parse W (Wallet.send c.env c.conf tip c.up c.down c.commit a) a.slateId address post p).2
  | .finalize W post r => (finalizeAndPost W post r p).2
  | .foreignFinalize W r => (Wallet.foreignFinalize W r p).2
  | .repost W m id => (Wallet.repost W m id p).2
  | .receive s v f => { p with db := stepOp c p.db (.receive s v f) }
  | .cancel i => { p with db := stepOp c p.db (.cancel i) }
  | .refresh v => { p with db := stepOp c p.db (.refresh v) }
  | .coinbase => { p with db := stepOp c p.db .coinbase }

/-- The state after a history. -/
def Purse.run (parse : Bytes → Option Bytes) (c : Fixed) (p : Purse) (es : List PurseEvent) : Purse := es.foldl (Purse.step parse c) p

end Verif.Wallet
