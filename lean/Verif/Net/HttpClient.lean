import Verif.Codec.KeyPath

/-!
# The HTTP and SOCKS clients

Model of `Client` (include/Net/Clients/Client.h), `IHTTPClient`, `HTTPClient` (include/Net/Clients/HTTP/HTTPClient.h), `HTTP::Request`
(include/Net/Clients/HTTP/HTTP.h) and `SOCKSClient` (include/Net/Clients/SOCKS/SOCKSClient.h).  A connection is what arrives on it before a
time limit is missed or the other side closes it, piece by piece as the socket hands it out; after that every read fails.  Writing to an open
connection does not fail.
-/
namespace Verif.Net
open Verif.Codec

/-- An exception: `SOCKSException`, or another one (`asio::system_error`, `HTTPException`); `stuck` is a loop out of fuel. -/
inductive Fail where
  | socks
  | other
  | stuck
deriving DecidableEq, Repr

/-- `Client` (Client.h:221-223): the buffer, what still arrives on the open connection, what was written to it, and what was written to the
connections before. -/
structure Conn where
  buf : Bytes
  net : List Bytes
  sent : Bytes
  past : List Bytes
deriving DecidableEq, Repr

/-- A function of the client: exceptions leave the buffer as it is. -/
def Io (α : Type) := Conn → Except Fail α × Conn

instance : Monad Io where
  pure a c := (.ok a, c)
  bind p f c :=
    match p c with
    | (.ok a, c') => f a c'
    | (.error e, c') => (.error e, c')

/-- `throw`. -/
def Io.throw {α : Type} (e : Fail) : Io α := fun c => (.error e, c)

/-- `Client::ReadLine` (Client.h:102-126) on the buffer and what arrives: `async_read_until` adds to the buffer until it holds a line feed. -/
def readLineGo : Bytes → List Bytes → Except Fail Bytes × Bytes × List Bytes
  | buf, net =>
    if buf.contains 10 then (.ok (buf.takeWhile (· ≠ 10)), (buf.dropWhile (· ≠ 10)).drop 1, net)
    else
      match net with
      | [] => (.error .other, buf, [])
      | s :: net => readLineGo (buf ++ s) net
  termination_by _ net => net.length

/-- `Client::ReadLine` (Client.h:102-126). -/
def readLine : Io Bytes := fun c =>
  let r := readLineGo c.buf c.net
  (r.1, { c with buf := r.2.1, net := r.2.2 })

/-- `Client::Read` (Client.h:128-161): `transfer_exactly` takes no more from the socket than is missing. -/
def readGo (n : Nat) : Bytes → List Bytes → Except Fail Bytes × Bytes × List Bytes
  | buf, net =>
    if n ≤ buf.length then (.ok (buf.take n), buf.drop n, net)
    else
      match net with
      | [] => (.error .other, buf, [])
      | s :: net =>
        if s.length ≤ n - buf.length then readGo n (buf ++ s) net
        else (.ok (buf ++ s.take (n - buf.length)), [], s.drop (n - buf.length) :: net)
  termination_by _ net => net.length

/-- `Client::Read` (Client.h:128-161). -/
def read (n : Nat) : Io Bytes := fun c =>
  let r := readGo n c.buf c.net
  (r.1, { c with buf := r.2.1, net := r.2.2 })

/-- `Client::Write` (Client.h:163-182). -/
def write (bs : Bytes) : Io Unit := fun c => (.ok (), { c with sent := c.sent ++ bs })

/-- `Client::Connect` (Client.h:29-100): nothing if there is no connection.  The buffer stays. -/
def dial (net : Option (List Bytes)) : Io Unit := fun c =>
  match net with
  | none => (.error .other, { c with net := [], sent := [], past := c.past ++ [c.sent] })
  | some s => (.ok (), { c with net := s, sent := [], past := c.past ++ [c.sent] })

/-! ## SOCKS -/

/-- `SOCKSClient::Authenticate(nullptr)` (SOCKSClient.h:90-128). -/
def socksAuth : Io Unit := do
  let r ← read 2
  if r.getD 0 0 ≠ 5 then Io.throw .socks
  else if r.getD 1 0 = 0 then pure ()
  else Io.throw .socks

/-- `SOCKSClient::ReadDestination` (SOCKSClient.h:166-203), without what it returns. -/
def socksDest (type : UInt8) : Io Unit :=
  if type = 1 then do
    let _ ← read 4
    let _ ← read 2
    pure ()
  else if type = 4 then do
    let _ ← read 16
    let _ ← read 2
    pure ()
  else if type = 3 then do
    let l ← read 1
    let _ ← read (l.getD 0 0).toNat
    let _ ← read 2
    pure ()
  else Io.throw .socks

/-- The request of `SOCKSClient::Connect` (SOCKSClient.h:132-140): the length is cut to a byte. -/
def socksRequest (dest : Bytes) (port : Nat) : Bytes :=
  [5, 1, 0, 3, UInt8.ofNat dest.length] ++ dest ++ [UInt8.ofNat (port / 256 % 256), UInt8.ofNat (port % 256)]

/-- `SOCKSClient::Connect` (SOCKSClient.h:130-164): the code of the reply is not looked at. -/
def socksConnect (dest : Bytes) (port : Nat) : Io Unit := do
  write (socksRequest dest port)
  let r ← read 4
  if r.getD 0 0 ≠ 5 then Io.throw .socks
  else if r.getD 2 0 ≠ 0 then Io.throw .socks
  else socksDest (r.getD 3 0)

/-- The `try` of `SOCKSClient::EstablishConnectionInternal` (SOCKSClient.h:32-44) with `Initialize(nullptr)` (74-88). -/
def socksAttempt (net : Option (List Bytes)) (dest : Bytes) (port : Nat) : Io Unit := do
  dial net
  if dest.length > 255 then Io.throw .socks
  else do
    write [5, 1, 0]
    socksAuth
    socksConnect (dest ++ str ".onion") port

/-- `SOCKSClient::EstablishConnectionInternal` (SOCKSClient.h:29-72), `left` attempts before the sixth: after an error of the proxy there are up to
three, after another up to five.  `nets` are the connections to the proxy. -/
def socksEstablish (nets : Nat → Option (List Bytes)) (dest : Bytes) (port : Nat) : Nat → Io Unit
  | 0 => Io.throw .stuck
  | left + 1 => fun c =>
    match socksAttempt (nets (5 - (left + 1))) dest port c with
    | (.ok a, c') => (.ok a, c')
    | (.error .socks, c') => if 5 - left < 3 then socksEstablish nets dest port left c' else (.error .socks, c')
    | (.error .other, c') => if 5 - left < 5 then socksEstablish nets dest port left c' else (.error .socks, c')
    | (.error .stuck, c') => (.error .stuck, c')

/-! ## HTTP -/

/-- `HTTP::Request::ToString` (HTTP.h:35-49). -/
def httpText (post : Bool) (location host body : Bytes) : Bytes :=
  (if post then str "POST" else str "GET") ++ [32] ++ location ++ str " HTTP/1.1\r\n" ++ str "Host: " ++ host ++ str "\r\n" ++
    str "Content-Length: " ++ decStr body.length ++ str "\r\n" ++ str "Content-Type: application/json-rpc\r\n\r\n" ++ body

/-- `stream >> n` for an unsigned type with the largest value `max`: nothing if only white space is left, then `n` is not written. -/
def extractNat (max : Nat) (s : Bytes) : Option Nat :=
  match s.dropWhile isSpace with
  | [] => none
  | c :: t =>
    let digits := (if c = 45 ∨ c = 43 then t else c :: t).takeWhile isDigit
    if digits = [] then some 0
    else if decVal digits > max then some max
    else some (if c = 45 then (max + 1 - decVal digits) % (max + 1) else decVal digits)

/-- The status line (HTTPClient.h:33-42): the code is not written if the line ends before it. -/
def statusOf (line : Bytes) : Option Nat :=
  extractNat (2 ^ 32 - 1) ((line.dropWhile isSpace).dropWhile fun c => !isSpace c)

/-- `HTTP::Response` (HTTP.h:61-75). -/
structure HttpResponse where
  status : Option Nat
  headers : List (Bytes × Bytes)
  body : Bytes
deriving DecidableEq, Repr

/-- The loop over the headers (HTTPClient.h:44-69): the length and the headers. -/
def readHeaders : Nat → Nat → List (Bytes × Bytes) → Io (Nat × List (Bytes × Bytes))
  | 0, _, _ => Io.throw .stuck
  | fuel + 1, len, hs => do
    let header ← readLine
    if header = [13] then pure (len, hs)
    else
      match split 58 header with
      | k :: v :: _ =>
        readHeaders fuel (if toLower (trim k) = str "content-length" then (extractNat (2 ^ 64 - 1) v).getD len else len) (hs ++ [(trim k, trim v)])
      | _ => Io.throw .other

/-- The number of bytes that can still be read. -/
def Conn.left (c : Conn) : Nat := c.buf.length + c.net.flatten.length

/-- `IHTTPClient::Invoke` (HTTPClient.h:17-94): every exception becomes an `HTTPException`. -/
def httpInvoke (establish : Io Unit) (request : Bytes) : Io HttpResponse := do
  establish
  write request
  let line ← readLine
  let r ← fun c => readHeaders (c.left + 1) 0 [] c
  if r.1 = 0 then Io.throw .other
  else do
    let body ← read r.1
    return ⟨statusOf line, r.2, body⟩

/-- `HTTPClient` (HTTPClient.h:102-122). -/
def httpCall (net : Option (List Bytes)) (request : Bytes) : Io HttpResponse := httpInvoke (dial net) request

/-- `SOCKSClient`. -/
def torCall (nets : Nat → Option (List Bytes)) (dest : Bytes) (port : Nat) (request : Bytes) : Io HttpResponse :=
  httpInvoke (socksEstablish nets dest port 5) request

end Verif.Net
