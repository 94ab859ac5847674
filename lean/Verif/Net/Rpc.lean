import Verif.Codec.Json

/-!
# Requests and answers of the JSON-RPC interfaces

Model of `include/Net/Servers/RPC/RPCServer.h` and `include/Net/Clients/RPC/RPC.h`: from the body of an HTTP request to the answer and the
lines written to the log.  Reading and writing JSON text is jsoncpp's; the texts of messages are shortened (the name of the function that
`what()` puts in front is left out).
-/
namespace Verif.Rpc
open Verif.Codec

/-- What `HTTPUtil::GetRequestBody` (HTTPUtil.cpp:101-128) finds: no body, fewer bytes than announced, bytes that are no JSON, a value. -/
inductive ReqBody
  | missing
  | short
  | unreadable (raw : Bytes)
  | value (j : Json)

/-- `RPC::Request` (RPC.h:181-328). -/
structure Request where
  id : Json
  method : Bytes
  params : Option Json

/-- `RPC::Error` (RPC.h:23-67). -/
structure Error where
  code : Int
  message : Bytes
  data : Option Json

/-- `RPC::Response` (RPC.h:69-179). -/
structure Response where
  id : Json
  result : Option Json
  error : Option Error

/-- Exceptions by the handlers of `RPCServer::Handle` (RPCServer.h:116-151): `RPCException` with an id or without, `DeserializationException`,
`APIException`, any other. -/
inductive Fail
  | rpc (msg : Bytes) (id : Option Json)
  | deser (msg : Bytes)
  | api (code : Int) (msg : Bytes)
  | other (msg : Bytes)

/-- `Response::BuildResult` (RPC.h:74-77). -/
def Response.ofResult (id result : Json) : Response := ⟨id, some result, none⟩

/-- `Response::BuildError` (RPC.h:79-83): no data is given as null. -/
def Response.ofError (id : Json) (code : Int) (msg : Bytes) (data : Option Json := none) : Response :=
  ⟨id, none, some ⟨code, msg, some (data.getD .null)⟩⟩

/-- `Error::ToJSON` (RPC.h:45-56). -/
def Error.toJson (e : Error) : Json :=
  .obj ([("code", .int e.code), ("message", .str e.message)] ++ (match e.data with | some d => [("data", d)] | none => []))

/-- `Response::ToJSON` (RPC.h:146-162): `m_errorOpt.value()` throws if there is neither. -/
def Response.toJson (r : Response) : Res Json :=
  match r.result, r.error with
  | some v, _ => .ok (.obj [("jsonrpc", .str (str "2.0")), ("id", r.id), ("result", v)])
  | none, some e => .ok (.obj [("jsonrpc", .str (str "2.0")), ("id", r.id), ("error", e.toJson)])
  | none, none => .throw

/-- `Request::ToJSON` (RPC.h:294-307). -/
def Request.toJson (r : Request) : Json :=
  .obj ([("id", r.id), ("jsonrpc", .str (str "2.0")), ("method", .str r.method)] ++
    (match r.params with | some p => [("params", p)] | none => []))

/-- `GetOptionalField`, an exception being one of `Json` or `DeserializationException`, which `Request::Parse` turns into an `RPCException`
without an id (RPC.h:248-251). -/
def field (j : Json) (key : String) : Except (Bytes × Option Json) (Option Json) :=
  match getOptional j key with
  | .ok v => .ok v
  | _ => .error (str "not an object", none)

/-- `Request::Parse` (RPC.h:184-252), the value read; what is thrown is an `RPCException`: message and id. -/
def parseValue (j : Json) : Except (Bytes × Option Json) Request := do
  match ← field j "id" with
  | none => .error (str "id is missing", none)
  | some id =>
    match ← field j "jsonrpc" with
    | none => .error (str "jsonrpc is missing", some id)
    | some (.str v) =>
      if v ≠ str "2.0" then .error (str "invalid jsonrpc value: " ++ v, some id)
      else
        match ← field j "method" with
        | none => .error (str "method is missing", some id)
        | some (.str m) =>
          if m = [] then .error (str "method must not be empty", some id)
          else do
            let params ← field j "params"
            .ok ⟨id, m, params⟩
        | some _ => .error (str "method must be a string", some id)
    | some _ => .error (str "jsonrpc must be a string", some id)

/-- `Request::Parse` (RPC.h:184-252) with `GetRequestBody` (HTTPUtil.cpp:101-128): the exception for bytes that are no JSON carries them. -/
def parseRequest : ReqBody → Except (Bytes × Option Json) Request
  | .missing => .error (str "json missing or invalid", none)
  | .short => .error (str "http", none)
  | .unreadable raw => .error (str "Failed to parse json: " ++ raw, none)
  | .value j => parseValue j

/-- A method: `ContainsSecrets` and `Handle` (RPCMethod.h:5-17).  All handlers build their response from the request
(`Request::BuildResult`, `Request::BuildError`, RPC.h:266-292), so they give the result or the error. -/
structure Method where
  secrets : Bool
  handle : Request → Except Fail (Json ⊕ Error)

/-- Lines of the log (RPCServer.h:78-109, 118, 127, 136, 145). -/
inductive LogLine
  | request (j : Json)
  | madeWith (method : Bytes)
  | reply (r : Response)
  | methodError (method : Bytes) (e : Error)
  | notSupported (method : Bytes)
  | failure (msg : Bytes)

/-- `METHOD_NOT_FOUND` (RPC.h:18). -/
def METHOD_NOT_FOUND : Int := -32601
/-- `INVALID_REQUEST` (RPC.h:17). -/
def INVALID_REQUEST : Int := -32600
/-- `INVALID_PARAMS` (RPC.h:19). -/
def INVALID_PARAMS : Int := -32602

/-- The response of a handler that returns. -/
def Request.answer (r : Request) : Json ⊕ Error → Response
  | .inl v => .ofResult r.id v
  | .inr e => .ofError r.id e.code e.message e.data

/-- What the `catch` clauses make of an exception (RPCServer.h:116-151). -/
def failed (id : Json) : Fail → Response × LogLine
  | .deser m => (.ofError id INVALID_PARAMS (str "Failed to deserialize request: " ++ m), .failure m)
  | .rpc m i => (.ofError (i.getD .null) INVALID_REQUEST m, .failure m)
  | .api c m => (.ofError id c m, .failure m)
  | .other m => (.ofError id INVALID_REQUEST m, .failure m)

/-- `RPCServer::Handle` (RPCServer.h:63-152): the response and the log. -/
def serve (methods : Bytes → Option Method) (body : ReqBody) : Response × List LogLine :=
  match parseRequest body with
  | .error (m, i) => ((failed .null (.rpc m i)).1, [(failed .null (.rpc m i)).2])
  | .ok req =>
    match methods req.method with
    | none => (.ofError req.id METHOD_NOT_FOUND (str "Method not supported"), [.notSupported req.method])
    | some m =>
      let first := if m.secrets then LogLine.madeWith req.method else .request req.toJson
      match m.handle req with
      | .error f => ((failed req.id f).1, [first, (failed req.id f).2])
      | .ok out =>
        let resp := req.answer out
        (resp, first :: (if !m.secrets then [.reply resp] else match resp.error with | some e => [.methodError req.method e] | none => []))

/-- `JsonUtil::ConvertToInt64` (JsonUtil.h:444-456) on integers; the texts it also takes are left out. -/
def jsonInt64 : Json → Res Int
  | .int n => if -2 ^ 63 ≤ n ∧ n < 2 ^ 63 then .ok n else .throw
  | _ => .throw

/-- The cast `(int)` of a 64-bit integer (RPC.h:38). -/
def toInt32 (n : Int) : Int := (n + 2 ^ 31) % 2 ^ 32 - 2 ^ 31

/-- `Error::Parse` (RPC.h:36-43). -/
def errorFromJson (j : Json) : Res Error := do
  let c ← getRequired j "code"
  let code ← jsonInt64 c
  let m ← getRequired j "message"
  let msg ← m.asString
  let data ← getOptional j "data"
  .ok ⟨toInt32 code, msg, data⟩

/-- `Response::Parse` (RPC.h:85-140), as a client reads an answer. -/
def responseFromJson (j : Json) : Res Response := do
  match ← getOptional j "id" with
  | none => .throw
  | some id =>
    match ← getOptional j "jsonrpc" with
    | some (.str v) =>
      if v ≠ str "2.0" then .throw
      else do
        let result ← getOptional j "result"
        match ← getOptional j "error" with
        | none => .ok ⟨id, result, none⟩
        | some e => do
          let err ← errorFromJson e
          .ok ⟨id, result, some err⟩
    | _ => .throw

end Verif.Rpc
