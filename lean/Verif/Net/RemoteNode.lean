import Verif.Codec.Time
import Verif.Api.Query
import Verif.Net.Rpc

/-!
# A wallet on a node elsewhere

Model of `RPCNodeClient` (src/Server/Node/NodeClients/RPCNodeClient.h), of the methods of the node's JSON-RPC interface it calls
(src/API/Node/NodeServer.cpp, src/API/Node/Handlers/), and of block headers as JSON (BlockHeader.cpp:101-182).
-/
namespace Verif.Remote
open Verif Verif.Codec Verif.Rpc Verif.Api

/-- An integer. -/
def jn (n : Nat) : Json := .int n

/-- Bytes in hex. -/
def jx (b : Bytes) : Json := .str (toHex b)

/-! ## Headers as JSON -/

/-- `BlockHeader::ToJSON` (BlockHeader.cpp:101-136), without `timestamp_local`. -/
def headerToJson (z : Zone) (h : Header) : Json :=
  .obj [("height", jn h.height), ("hash", jx h.pow.hash), ("version", jn h.version), ("timestamp_raw", .int h.timestamp),
    ("timestamp", .str (formatUtc z h.timestamp)), ("previous", jx h.prevHash), ("prev_root", jx h.prevRoot), ("kernel_root", jx h.kernelRoot),
    ("output_root", jx h.outputRoot), ("range_proof_root", jx h.rangeProofRoot), ("output_mmr_size", jn h.outputMMRSize),
    ("kernel_mmr_size", jn h.kernelMMRSize), ("total_kernel_offset", jx h.offset), ("secondary_scaling", jn h.scaling),
    ("total_difficulty", jn h.totalDifficulty), ("nonce", jn h.nonce), ("edge_bits", jn h.pow.edgeBits),
    ("cuckoo_solution", Json.elements (h.pow.nonces.map jn))]

/-- `Json::Value::asUInt64` on what a node may send; reals are left out. -/
def asUInt64 : Json → Res Nat
  | .null => .ok 0
  | .bool b => .ok (if b then 1 else 0)
  | .int n => if 0 ≤ n ∧ n < 2 ^ 64 then .ok n.toNat else .throw
  | _ => .throw

/-- The elements a loop over a value visits: those of an array, the values of an object, else none. -/
def members : Json → List Json
  | .arr l => l
  | .obj l => l.map Prod.snd
  | _ => []

/-- `GetRequiredUInt16`, `…32`, `…8`: cut to so many bits (JsonUtil.h:403-424). -/
def uintCut (bits : Nat) (j : Json) (key : String) : Res Nat := do
  let n ← required jsonUInt64 j key
  return n % 2 ^ bits

/-- The loop over `cuckoo_solution` (BlockHeader.cpp:159-163). -/
def noncesFromJson : List Json → Res (List Nat)
  | [] => .ok []
  | x :: l => do
    let n ← asUInt64 x
    let ns ← noncesFromJson l
    return n :: ns

/-- `BlockHeader::FromJSON` (BlockHeader.cpp:138-182): the hash is read and not used. -/
def headerFromJson (H : Bytes → Bytes) (z : Zone) (j : Json) : Res Header := do
  let _ ← required (jsonBytes 32) j "hash"
  let height ← required jsonUInt64 j "height"
  let version ← uintCut 16 j "version"
  let offset ← required (jsonBytes 32) j "total_kernel_offset"
  let scaling ← uintCut 32 j "secondary_scaling"
  let diff ← required jsonUInt64 j "total_difficulty"
  let nonce ← required jsonUInt64 j "nonce"
  let time ← required Json.asString j "timestamp"
  let kernelRoot ← required (jsonBytes 32) j "kernel_root"
  let kernelSize ← required jsonUInt64 j "kernel_mmr_size"
  let outputRoot ← required (jsonBytes 32) j "output_root"
  let outputSize ← required jsonUInt64 j "output_mmr_size"
  let proofRoot ← required (jsonBytes 32) j "range_proof_root"
  let prevRoot ← required (jsonBytes 32) j "prev_root"
  let prevHash ← required (jsonBytes 32) j "previous"
  let eb ← uintCut 8 j "edge_bits"
  let sol ← getRequired j "cuckoo_solution"
  let nonces ← noncesFromJson (members sol)
  let pow ← powMake H eb nonces
  return ⟨version, height, timeFromString z time, prevHash, prevRoot, outputRoot, proofRoot, kernelRoot, offset, outputSize, kernelSize, diff,
    scaling, nonce, pow⟩

/-! ## The methods of the node -/

/-- A node: its chains, the tips of the confirmed chain and of the headers, its time zone, its version, what becomes of a transaction handed to
the pool (`true`: the pool, `false`: the stem pool) after validation (an exception, or whether it is in), and its other methods. -/
structure RemoteNode where
  chain : Api.Node
  tip : Header
  headerTip : Header
  zone : Zone
  version : Bytes
  add : Bool → Tx → Except Fail Bool
  rest : Bytes → Option Method

/-- `{"Ok": v}`. -/
def okJson (v : Json) : Json := .obj [("Ok", v)]

/-- `Request::BuildError(type, message)` (RPC.h:282-287). -/
def typedError (type msg : Bytes) : Error := ⟨-100, msg, some (.obj [("type", .str type)])⟩

/-- `PARAMS_MISSING` (Errors.h:21). -/
def paramsMissing : Error := ⟨-150, str "'params' missing", some (.obj [("type", .str (str "PARAMS_MISSING"))])⟩

/-- `GetVersionHandler::Handle` (GetVersionHandler.h:16-25). -/
def getVersion (n : RemoteNode) (_ : Request) : Except Fail (Json ⊕ Error) :=
  .ok (.inl (okJson (.obj [("node_version", .str (str "Grin++ " ++ n.version)), ("block_header_version", jn n.headerTip.version)])))

/-- `GetTipHandler::Handle` (GetTipHandler.h:16-29). -/
def getTip (n : RemoteNode) (_ : Request) : Except Fail (Json ⊕ Error) :=
  .ok (.inl (okJson (.obj [("height", jn n.tip.height), ("last_block_pushed", jx n.tip.pow.hash), ("prev_block_to_last", jx n.tip.prevHash),
    ("total_difficulty", jn n.tip.totalDifficulty)])))

/-- `GetHeaderHandler::Handle` (GetHeaderHandler.h:16-52). -/
def getHeader (n : RemoteNode) (r : Request) : Except Fail (Json ⊕ Error) :=
  match r.params with
  | none => .ok (.inr paramsMissing)
  | some (.arr (a :: b :: c :: _)) =>
    match n.chain.rpcHeader a b c with
    | .ok (some h) => .ok (.inl (okJson (headerToJson n.zone h)))
    | .ok none => .ok (.inr (typedError (str "NOT_FOUND") (str "Header not found")))
    | _ => .error (.deser (str "header"))
  | some _ => .ok (.inr (typedError (str "INVALID_PARAMS") (str "Expected 3 parameters: height, hash, commit")))

/-- `Json::Value::asBool` on the parameter (PushTransactionHandler.h:34-37); reals are left out. -/
def asBool : Json → Res Bool
  | .null => .ok false
  | .bool b => .ok b
  | .int n => .ok (n ≠ 0)
  | _ => .throw

/-- The transaction and the pool `push_transaction` is asked for (PushTransactionHandler.h:20-37); `none` for parameters of another form. -/
def pushAsks (D : DigestNum) (ops : SigOps) : Option Json → Option (Res (Bool × Tx))
  | some (.arr (t :: l)) =>
    if t.isNull then none
    else some do
      let tx ← txFromJson D ops t
      let fluff ← match l with | [] => .ok false | f :: _ => asBool f
      return (fluff, tx)
  | _ => none

/-- `PushTransactionHandler::Handle` (PushTransactionHandler.h:18-57).  Undefined behaviour on reading the transaction is left out: it is taken
for an exception. -/
def pushTransaction (D : DigestNum) (ops : SigOps) (n : RemoteNode) (r : Request) : Except Fail (Json ⊕ Error) :=
  match r.params with
  | none => .ok (.inr paramsMissing)
  | some _ =>
    match pushAsks D ops r.params with
    | none => .ok (.inr (typedError (str "INVALID_PARAMS") (str "Expected 2 parameters: transaction, fluff")))
    | some (.ok (fluff, tx)) =>
      match n.add fluff tx with
      | .error f => .error f
      | .ok true => .ok (.inl (okJson .null))
      | .ok false => .ok (.inr (typedError (str "TX_POOL_ERROR") (str "Failed to submit transaction to the transaction pool")))
    | some _ => .error (.deser (str "transaction"))

/-- What the pool has been handed by a call of `push_transaction`. -/
def handed (D : DigestNum) (ops : SigOps) (r : Request) : Option (Bool × Tx) :=
  match pushAsks D ops r.params with
  | some (.ok x) => some x
  | _ => none

/-- The methods at `/v2/foreign` (NodeServer.cpp:13-22): these, and those the client does not call. -/
def methods (D : DigestNum) (ops : SigOps) (n : RemoteNode) (name : Bytes) : Option Method :=
  if name = str "get_version" then some ⟨false, getVersion n⟩
  else if name = str "get_tip" then some ⟨false, getTip n⟩
  else if name = str "get_header" then some ⟨false, getHeader n⟩
  else if name = str "push_transaction" then some ⟨false, pushTransaction D ops n⟩
  else if name = str "get_block" ∨ name = str "get_config" ∨ name = str "update_config" then n.rest name
  else none

/-! ## The client -/

/-- A call over HTTP: the place, the request, and the response, or an exception. -/
abbrev Call := Bytes → Request → Res Response

/-- Where the node serves its methods. -/
def FOREIGN : Bytes := str "/v2/foreign"

/-- A call to a node of this program; at other places of its server there is nothing that answers with a response (NodeServer.cpp:13-24: at
`/v2/owner` there are no methods). -/
def callNode (D : DigestNum) (ops : SigOps) (n : RemoteNode) : Call := fun place r =>
  if place = FOREIGN then do
    let j ← (serve (methods D ops n) (.value r.toJson)).1.toJson
    responseFromJson j
  else .throw

/-- `HttpConnection::Invoke` (HttpConnection.h:34-42): the place, then the method. -/
def invoke (call : Call) (id : Nat) (place method : Bytes) (params : Option Json) : Res Response := call place ⟨jn id, method, params⟩

/-- `RPCNodeClient::Invoke` (RPCNodeClient.h:141-159). -/
def ask (call : Call) (id : Nat) (method : Bytes) (params : Option Json) : Res Json := do
  let r ← invoke call id FOREIGN method params
  match r.result with
  | none => .throw
  | some v => getRequired v "Ok"

/-- `RPCNodeClient::Create` (RPCNodeClient.h:22-36): the method is given as the place, the place as the method.  Whether the node is one of this
program is not used later. -/
def create (call : Call) (id : Nat) : Res Unit := do
  let r ← invoke call id (str "get_version") FOREIGN none
  match r.result with
  | none => .throw
  | some v =>
    let ok ← getRequired v "Ok"
    let _ ← required Json.asString ok "node_version"
    .ok ()

/-- `GetChainHeight` (RPCNodeClient.h:41-44). -/
def chainHeight (call : Call) (id : Nat) : Res Nat := do
  let v ← ask call id (str "get_tip") none
  required jsonUInt64 v "height"

/-- `GetBlockHeader` (RPCNodeClient.h:57-65). -/
def blockHeader (H : Bytes → Bytes) (z : Zone) (call : Call) (id height : Nat) : Res Header := do
  let v ← ask call id (str "get_header") (some (.arr [jn height, .null, .null]))
  headerFromJson H z v

/-- `GetTipHeader` (RPCNodeClient.h:49-52). -/
def tipHeader (H : Bytes → Bytes) (z : Zone) (call : Call) (id : Nat) : Res Header := do
  let h ← chainHeight call id
  blockHeader H z call (id + 1) h

/-- The loop of `GetOutputsByCommitment` (RPCNodeClient.h:87-95): commitment, index and height of those that are not spent.  `GetRequiredBool` on
texts is left out. -/
def unspentOf : List Json → Res (List (Bytes × Nat × Nat))
  | [] => .ok []
  | o :: l => do
    let s ← getRequired o "spent"
    match s with
    | .bool true => unspentOf l
    | .bool false => do
      let c ← required (jsonBytes 33) o "commit"
      let i ← required jsonUInt64 o "mmr_index"
      let h ← required jsonUInt64 o "block_height"
      let r ← unspentOf l
      return (c, max 1 i - 1, h) :: r
    | _ => .throw

/-- `GetOutputsByCommitment` (RPCNodeClient.h:70-98): the parameters are built and not sent. -/
def outputsByCommitment (call : Call) (id : Nat) (_commits : List Bytes) : Res (List (Bytes × Nat × Nat)) := do
  let v ← ask call id (str "get_outputs") none
  unspentOf (members v)

/-- `GetOutputsByLeafIndex` (RPCNodeClient.h:114-124); reading the answer is left out. -/
def outputsByIndex (call : Call) (id start most : Nat) : Res Json :=
  ask call id (str "get_unspent_outputs") (some (.arr [jn start, .null, jn most, .bool true]))

/-- `PostTransaction` (RPCNodeClient.h:129-138): whether the response has a result. -/
def postTransaction (ops : SigOps) (call : Call) (id : Nat) (tx : Tx) (fluff : Bool) : Res Bool := do
  let j ← txToJson ops tx
  let r ← invoke call id FOREIGN (str "push_transaction") (some (.arr [j, .bool fluff]))
  return r.result.isSome

end Verif.Remote
