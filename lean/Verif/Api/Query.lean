import Verif.Codec.Json
import Verif.Tx.TxHashSet

/-!
# Queries of the node API

Model of the look-ups of blocks, headers and outputs by the REST server (src/Server/Node/API/BlockAPI.cpp,
HeaderAPI.cpp, ChainAPI.cpp) and by the JSON-RPC server (src/API/Node/Handlers/GetBlockHandler.h,
GetHeaderHandler.h) of the node, with the functions of `BlockChain` and `ChainState` they call.  The HTTP server
(civetweb) and the rendering of the results as JSON are left out; locks are left out.
-/
namespace Verif.Api
open Verif Verif.Codec Verif.Tx

/-- What the queries read: the tables of the block database and the two chains (ChainState.h), each the list of
its hashes by height. -/
structure Node where
  db : DB
  confirmed : List Bytes
  candidate : List Bytes

/-- `EChainType` as far as it is used here. -/
inductive ChainType | confirmed | candidate
deriving DecidableEq, Repr

/-- `ChainStore::GetChain` (ChainStore.h). -/
def Node.chain (n : Node) : ChainType → List Bytes
  | .confirmed => n.confirmed
  | .candidate => n.candidate

/-! ## Functions of the chain -/

/-- `GetBlockHeaderByHash` (ChainState.cpp:115-118). -/
def Node.headerByHash (n : Node) (hash : Bytes) : Option Header := n.db.header hash

/-- `GetBlockHeaderByHeight` (ChainState.cpp:120-129) with `Chain::GetByHeight` (Chain.cpp:47-55). -/
def Node.headerByHeight (n : Node) (height : Nat) (t : ChainType) : Option Header :=
  match (n.chain t)[height]? with
  | some hash => n.db.header hash
  | none => none

/-- `GetBlockHeaderByCommitment` (ChainState.cpp:131-146). -/
def Node.headerByCommit (n : Node) (c : Bytes) : Option Header :=
  match n.db.pos c with
  | some loc =>
    match n.confirmed[loc.height]? with
    | some hash => n.db.header hash
    | none => none
  | none => none

/-- `GetBlockByHash` (ChainState.cpp:148-151). -/
def Node.blockByHash (n : Node) (hash : Bytes) : Option Block := n.db.block hash

/-- `GetBlockByHeight` (ChainState.cpp:153-162). -/
def Node.blockByHeight (n : Node) (height : Nat) : Option Block :=
  match n.confirmed[height]? with
  | some hash => n.db.block hash
  | none => none

/-- `BlockChain::GetBlockByCommitment` (BlockChainImpl.cpp:328-337): the hash of the header is that of its proof
of work. -/
def Node.blockByCommit (n : Node) (c : Bytes) : Option Block :=
  match n.headerByCommit c with
  | some h => n.blockByHash h.pow.hash
  | none => none

/-! ## Requests over REST -/

/-- The value of a digit for `strtoull`: letters follow the decimal digits. -/
def digitOf (c : UInt8) : Nat :=
  if 48 ≤ c ∧ c ≤ 57 then c.toNat - 48
  else if 97 ≤ c ∧ c ≤ 122 then c.toNat - 87
  else if 65 ≤ c ∧ c ≤ 90 then c.toNat - 55
  else 36

/-- Base 0 of `strtoull`: `0x` before a hexadecimal digit means 16, another leading `0` means 8, else 10; with what
is left to read.  (The prefix `0b` of C23 is left out.) -/
def baseOf (s : Bytes) : Nat × Bytes :=
  match s with
  | 48 :: x :: d :: r => if (x = 120 ∨ x = 88) ∧ digitOf d < 16 then (16, d :: r) else (8, s)
  | 48 :: _ => (8, s)
  | _ => (10, s)

/-- `std::stoull(s, &sz, 0)`: white space and a sign may precede the number, what follows it is ignored, a minus
sign negates modulo `2 ^ 64`; without digits `invalid_argument` is thrown, beyond 64 bits `out_of_range`. -/
def stoullAuto (s : Bytes) : Res Nat :=
  let s1 := s.dropWhile isSpace
  let b := baseOf (if s1.head? = some 45 ∨ s1.head? = some 43 then s1.drop 1 else s1)
  let digits := b.2.takeWhile (fun c => digitOf c < b.1)
  let v := digits.foldl (fun a c => b.1 * a + digitOf c) 0
  if digits = [] ∨ v ≥ 2 ^ 64 then .throw
  else .ok (if s1.head? = some 45 then (2 ^ 64 - v) % 2 ^ 64 else v)

/-- `CBigInteger<k>::FromHex` (BigInteger.h:96-105). -/
def bigFromHex (k : Nat) (s : Bytes) : Res Bytes := do
  let bs ← fromHex s
  if bs.length = k then .ok bs else .throw

/-- A look-up inside `try`/`catch (std::exception)`: an exception is no result. -/
def caught {α : Type} (r : Res (Option α)) : Res (Option α) :=
  match r with
  | .throw => .ok none
  | r => r

/-- `BlockAPI::GetBlock` (BlockAPI.cpp:57-128) under the handler's `catch` (BlockAPI.cpp:49-54); `none` is the
response 400 "BLOCK NOT FOUND". -/
def Node.restBlock (n : Node) (id : Bytes) : Res (Option Block) :=
  caught (
    if id.length = 64 ∧ isValidHex id then do
      let h ← bigFromHex 32 id
      return n.blockByHash h
    else if id.length = 66 ∧ isValidHex id then do
      let c ← bigFromHex 33 id
      return n.blockByCommit c
    else do
      let height ← stoullAuto id
      return n.blockByHeight height)

/-- `HeaderAPI::GetHeader` (HeaderAPI.cpp:40-107) under the handler's `catch` (HeaderAPI.cpp:31-37). -/
def Node.restHeader (n : Node) (id : Bytes) : Res (Option Header) :=
  caught (
    if id.length = 64 ∧ isValidHex id then do
      let h ← bigFromHex 32 id
      return n.headerByHash h
    else if id.length = 66 ∧ isValidHex id then do
      let c ← bigFromHex 33 id
      return n.headerByCommit c
    else do
      let height ← stoullAuto id
      return n.headerByHeight height .candidate)

/-! ## Requests over JSON-RPC -/

/-- One parameter of `get_block`: if it is not null its look-up replaces what was found before
(GetBlockHandler.h:29-43). -/
def pick {α β : Type} (conv : Json → Res α) (look : α → Option β) (p : Json) (before : Option β) : Res (Option β) :=
  if p.isNull then .ok before
  else do
    let a ← conv p
    return look a

/-- `GetBlockHandler::Handle` (GetBlockHandler.h:16-52) after the check of the parameters: height, hash, output
commitment.  `none` is the error `NOT_FOUND`, an exception another error response. -/
def Node.rpcBlock (n : Node) (height hash commit : Json) : Res (Option Block) := do
  let b ← pick jsonUInt64 n.blockByHeight height none
  let b ← pick (jsonBytes 32) n.blockByHash hash b
  pick (jsonBytes 33) n.blockByCommit commit b

/-- `GetHeaderHandler::Handle` (GetHeaderHandler.h:16-52). -/
def Node.rpcHeader (n : Node) (height hash commit : Json) : Res (Option Header) := do
  let b ← pick jsonUInt64 (fun h => n.headerByHeight h .confirmed) height none
  let b ← pick (jsonBytes 32) n.headerByHash hash b
  pick (jsonBytes 33) n.headerByCommit commit b

/-! ## Outputs by height -/

/-- `OutputDTO` (OutputDTO.h) as built here: always reported as unspent. -/
structure OutputInfo where
  output : TxOutput
  loc : Loc
deriving DecidableEq, Repr

/-- `BlockWithOutputs` (BlockWithOutputs.h) with its `BlockIdentifier`. -/
structure BlockOutputs where
  hash : Bytes
  prevHash : Bytes
  height : Nat
  outputs : List OutputInfo
deriving DecidableEq, Repr

/-- `ChainState::GetBlockWithOutputs` (ChainState.cpp:169-195): the outputs of the block whose commitments have a
position. -/
def Node.blockWithOutputs (n : Node) (height : Nat) : Option BlockOutputs :=
  match n.blockByHeight height with
  | some b => some ⟨b.header.pow.hash, b.header.prevHash, b.header.height,
      b.body.outputs.filterMap (fun x => (n.db.pos x.commit).map (fun l => ⟨x, l⟩))⟩
  | none => none

/-- `BlockChain::GetOutputsByHeight` (BlockChainImpl.cpp:349-370).  `limit` is the number of elements beyond which
`reserve` throws (`length_error` or `bad_alloc`); the number asked for is computed modulo `2 ^ 64`. -/
def Node.outputsByHeight (n : Node) (limit start last : Nat) : Res (List BlockOutputs) :=
  let highest := min (n.confirmed.length - 1) last
  if (highest + 2 ^ 64 - start + 1) % 2 ^ 64 > limit then .throw
  else .ok ((List.range' start (highest + 1 - start)).filterMap n.blockWithOutputs)

/-- One parameter of the query (ChainAPI.cpp:51-72): `none` is the response 400. -/
def heightArg (start last : Nat) (token : Bytes) : Res (Option (Nat × Nat)) :=
  if startsWith token (str "start_height=") then
    match split 61 token with
    | [_, v] => do
      let x ← stoull v
      return some (x, last)
    | _ => .ok none
  else if startsWith token (str "end_height=") then
    match split 61 token with
    | [_, v] => do
      let x ← stoull v
      return some (start, x)
    | _ => .ok none
  else .ok (some (start, last))

/-- The loop over the parameters (ChainAPI.cpp:48-73). -/
def heightArgs : Nat → Nat → List Bytes → Res (Option (Nat × Nat))
  | start, last, [] => .ok (some (start, last))
  | start, last, t :: ts => do
    let r ← heightArg start last t
    match r with
    | some (a, b) => heightArgs a b ts
    | none => return none

/-- `GetChainOutputsByHeight_Handler` (ChainAPI.cpp:37-120): `none` is the response 400. -/
def Node.restOutputs (n : Node) (limit : Nat) (query : Bytes) : Res (Option (List BlockOutputs)) :=
  caught (do
    let r ← heightArgs 0 0 (split 38 query)
    match r with
    | some (start, last) => do
      let l ← n.outputsByHeight limit start (if last = 0 ∨ last < start then start else last)
      return some l
    | none => return none)

end Verif.Api
