import Verif.Ser.Core

/-!
# Peer-to-peer messages

Model of `src/P2P/Messages` and of the addresses and capabilities they carry.  A `Payload` is one of the
message classes; `payloadDeser` is the choice of deserializer by message type in
`MessageProcessor::ProcessMessageInternal` (MessageProcessor.cpp:111-432; hand and shake: HandShake.cpp).
-/
namespace Verif.Codec

/-- `IPAddress` (IPAddress.h:149-151): 4 or 16 bytes. -/
inductive IpAddr
  | v4 (b : Bytes)
  | v6 (b : Bytes)
deriving DecidableEq, Repr

/-- `SocketAddress` (SocketAddress.h:124-126). -/
structure SockAddr where
  ip : IpAddr
  port : Nat
deriving DecidableEq, Repr

/-- `IPAddress::Serialize` (IPAddress.h:118-130), `SocketAddress::Serialize` (SocketAddress.h:109-114). -/
def sockAddrSer (a : SockAddr) : Bytes :=
  match a.ip with
  | .v4 b => beBytes 1 0 ++ (b ++ beBytes 2 a.port)
  | .v6 b => beBytes 1 1 ++ (b ++ beBytes 2 a.port)

/-- `IPAddress::Deserialize` (IPAddress.h:132-147). -/
def ipDeser : Parser IpAddr := do
  let f ← readBE 1
  if f = 0 then do
    let b ← readBytes 4
    return .v4 b
  else if f = 1 then do
    let b ← readBytes 16
    return .v6 b
  else Parser.fail

/-- `SocketAddress::Deserialize` (SocketAddress.h:116-122). -/
def sockAddrDeser : Parser SockAddr := do
  let ip ← ipDeser
  let port ← readBE 2
  return ⟨ip, port⟩

/-- `HandMessage` (HandMessage.h:92-116). -/
structure Hand where
  version : Nat
  capabilities : Nat
  nonce : Nat
  hash : Bytes
  difficulty : Nat
  sender : SockAddr
  receiver : SockAddr
  userAgent : Bytes
deriving DecidableEq, Repr

/-- `HandMessage::SerializeBody` (HandMessage.h:80-90); `Capabilities::Serialize` (Capabilities.h:47-50). -/
def handSer (m : Hand) : Bytes :=
  beBytes 4 m.version ++ (beBytes 4 m.capabilities ++ (beBytes 8 m.nonce ++ (beBytes 8 m.difficulty ++
    (sockAddrSer m.sender ++ (sockAddrSer m.receiver ++ (serVarStr m.userAgent ++ m.hash))))))

/-- `HandMessage::Deserialize` (HandMessage.h:65-77). -/
def handDeser : Parser Hand := do
  let version ← readBE 4
  let caps ← readBE 4
  let nonce ← readBE 8
  let diff ← readBE 8
  let s ← sockAddrDeser
  let r ← sockAddrDeser
  let ua ← readVarStr
  let hash ← readBytes 32
  return ⟨version, caps, nonce, hash, diff, s, r, ua⟩

/-- `ShakeMessage` (ShakeMessage.h:80-95). -/
structure Shake where
  version : Nat
  capabilities : Nat
  hash : Bytes
  difficulty : Nat
  userAgent : Bytes
deriving DecidableEq, Repr

/-- `ShakeMessage::SerializeBody` (ShakeMessage.h:70-77). -/
def shakeSer (m : Shake) : Bytes :=
  beBytes 4 m.version ++ (beBytes 4 m.capabilities ++ (beBytes 8 m.difficulty ++
    (serVarStr m.userAgent ++ m.hash)))

/-- `ShakeMessage::Deserialize` (ShakeMessage.h:58-67). -/
def shakeDeser : Parser Shake := do
  let version ← readBE 4
  let caps ← readBE 4
  let diff ← readBE 8
  let ua ← readVarStr
  let hash ← readBytes 32
  return ⟨version, caps, hash, diff, ua⟩

/-- The messages, one constructor per class (the segment responses of the unfinished segmented sync are
in `Verif.Codec.Segment`). -/
inductive Payload
  | error (code : Nat) (text : Bytes)
  | hand (m : Hand)
  | shake (m : Shake)
  | ping (difficulty height : Nat)
  | pong (difficulty height : Nat)
  | getPeerAddrs (capabilities : Nat)
  | peerAddrs (l : List SockAddr)
  | getHeaders (l : List Bytes)
  | header (h : Header)
  | headers (l : List Header)
  | getBlock (hash : Bytes)
  | block (b : Block)
  | getCompactBlock (hash : Bytes)
  | compactBlock (b : CompactBlk)
  | stemTx (t : Tx)
  | tx (t : Tx)
  | txHashSetRequest (hash : Bytes) (height : Nat)
  | txHashSetArchive (hash : Bytes) (height size : Nat)
  | banReason (r : Nat)
  | getTx (hash : Bytes)
  | kernel (hash : Bytes)
  | getBitmapSegment (hash : Bytes) (height index : Nat)
  | getOutputSegment (hash : Bytes) (height index : Nat)
  | getProofSegment (hash : Bytes) (height index : Nat)
  | getKernelSegment (hash : Bytes) (height index : Nat)
deriving DecidableEq, Repr

/-- `GetMessageType` of the classes; `EMessageType` (MessageTypes.h:9-40). -/
def Payload.type : Payload → Nat
  | .error .. => 0
  | .hand .. => 1
  | .shake .. => 2
  | .ping .. => 3
  | .pong .. => 4
  | .getPeerAddrs .. => 5
  | .peerAddrs .. => 6
  | .getHeaders .. => 7
  | .header .. => 8
  | .headers .. => 9
  | .getBlock .. => 10
  | .block .. => 11
  | .getCompactBlock .. => 12
  | .compactBlock .. => 13
  | .stemTx .. => 14
  | .tx .. => 15
  | .txHashSetRequest .. => 16
  | .txHashSetArchive .. => 17
  | .banReason .. => 18
  | .getTx .. => 19
  | .kernel .. => 20
  | .getBitmapSegment .. => 21
  | .getOutputSegment .. => 23
  | .getProofSegment .. => 25
  | .getKernelSegment .. => 27

/-- Concatenated serializations that may fail (the proof-of-work packing of a header can). -/
def serAll {α : Type} (f : α → Res Bytes) : List α → Res Bytes
  | [] => .ok []
  | a :: l => do
    let x ← f a
    let y ← serAll f l
    return x ++ y

/-- `SegmentRequestMessage::SerializeBody` (SegmentRequestMessage.h:40-44), `SegmentIdentifier::Serialize`
(SegmentId.h:43-47). -/
def segmentSer (hash : Bytes) (height index : Nat) : Bytes := hash ++ (beBytes 1 height ++ beBytes 8 index)

/-- `SerializeBody` of every message: ErrorMessage.h:54-58, PingMessage.h:54-58, PongMessage.h:54-58,
GetPeerAddressesMessage.h:52-55, PeerAddressesMessage.h:61-68, GetHeadersMessage.h:60-67, HeaderMessage.h:53-56,
HeadersMessage.h:60-67, GetBlockMessage.h:58-61, BlockMessage.h:53-56, GetCompactBlockMessage.h:58-61,
CompactBlockMessage.h:58-61, StemTransactionMessage.h:54-57, TransactionMessage.h:54-57,
TxHashSetRequestMessage.h:54-58, TxHashSetArchiveMessage.h:57-62, BanReasonMessage.h:52-55,
GetTransactionMessage.h:58-61, TransactionKernelMessage.h:58-61.  Counts are cut to the width written. -/
def payloadSer (ver : Nat) : Payload → Res Bytes
  | .error c t => .ok (beBytes 4 c ++ serVarStr t)
  | .hand m => .ok (handSer m)
  | .shake m => .ok (shakeSer m)
  | .ping d h => .ok (beBytes 8 d ++ beBytes 8 h)
  | .pong d h => .ok (beBytes 8 d ++ beBytes 8 h)
  | .getPeerAddrs c => .ok (beBytes 4 c)
  | .peerAddrs l => .ok (beBytes 4 (l.length % 2 ^ 32) ++ serMany sockAddrSer l)
  | .getHeaders l => .ok (beBytes 1 (l.length % 256) ++ serMany id l)
  | .header h => headerSer h
  | .headers l => do
    let bs ← serAll headerSer l
    return beBytes 2 (l.length % 65536) ++ bs
  | .getBlock h => .ok h
  | .block b => blockSer ver b
  | .getCompactBlock h => .ok h
  | .compactBlock b => compactSer ver b
  | .stemTx t => .ok (txSer ver t)
  | .tx t => .ok (txSer ver t)
  | .txHashSetRequest h n => .ok (h ++ beBytes 8 n)
  | .txHashSetArchive h n s => .ok (h ++ (beBytes 8 n ++ beBytes 8 s))
  | .banReason r => .ok (beBytes 4 r)
  | .getTx h => .ok h
  | .kernel h => .ok h
  | .getBitmapSegment h n i => .ok (segmentSer h n i)
  | .getOutputSegment h n i => .ok (segmentSer h n i)
  | .getProofSegment h n i => .ok (segmentSer h n i)
  | .getKernelSegment h n i => .ok (segmentSer h n i)

/-- `SegmentRequestMessage::Deserialize` (SegmentRequestMessage.h:31-37), `SegmentIdentifier::Deserialize`
(SegmentId.h:49-54). -/
def segmentDeser (f : Bytes → Nat → Nat → Payload) : Parser Payload := do
  let h ← readBytes 32
  let n ← readBE 1
  let i ← readBE 8
  return f h n i

/-- `Deserialize` of the message class for a type (lines as in `payloadSer`, plus HandMessage.h:65-77 and
ShakeMessage.h:58-67); other types are ignored by the processor, here they fail. -/
def payloadDeser (H : DigestNum) (HB : Bytes → Bytes) (coin : Bytes → Nat) (ver type : Nat) : Parser Payload :=
  match type with
  | 0 => do
    let c ← readBE 4
    let t ← readVarStr
    return .error c t
  | 1 => do
    let m ← handDeser
    return .hand m
  | 2 => do
    let m ← shakeDeser
    return .shake m
  | 3 => do
    let d ← readBE 8
    let h ← readBE 8
    return .ping d h
  | 4 => do
    let d ← readBE 8
    let h ← readBE 8
    return .pong d h
  | 5 => do
    let c ← readBE 4
    return .getPeerAddrs c
  | 6 => do
    let n ← readBE 4
    let l ← readMany sockAddrDeser n
    return .peerAddrs l
  | 7 => do
    let n ← readBE 1
    let l ← readMany (readBytes 32) n
    return .getHeaders l
  | 8 => do
    let h ← headerDeser HB
    return .header h
  | 9 => do
    let n ← readBE 2
    let l ← readMany (headerDeser HB) n
    return .headers l
  | 10 => do
    let h ← readBytes 32
    return .getBlock h
  | 11 => do
    let b ← blockDeser H HB coin ver
    return .block b
  | 12 => do
    let h ← readBytes 32
    return .getCompactBlock h
  | 13 => do
    let b ← compactDeser HB ver
    return .compactBlock b
  | 14 => do
    let t ← txDeser H coin ver
    return .stemTx t
  | 15 => do
    let t ← txDeser H coin ver
    return .tx t
  | 16 => do
    let h ← readBytes 32
    let n ← readBE 8
    return .txHashSetRequest h n
  | 17 => do
    let h ← readBytes 32
    let n ← readBE 8
    let s ← readBE 8
    return .txHashSetArchive h n s
  | 18 => do
    let r ← readBE 4
    return .banReason r
  | 19 => do
    let h ← readBytes 32
    return .getTx h
  | 20 => do
    let h ← readBytes 32
    return .kernel h
  | 21 => segmentDeser .getBitmapSegment
  | 23 => segmentDeser .getOutputSegment
  | 25 => segmentDeser .getProofSegment
  | 27 => segmentDeser .getKernelSegment
  | _ => Parser.fail

/-- `P2P::MAX_BLOCK_SIZE` (P2P/Common.h:22, Consensus.h:70, 87): integer division first. -/
def MAX_BLOCK_SIZE : Nat := 40000 / 21 * 708

/-- `MessageTypes::GetMaximumSize` (MessageTypes.h:42-101), with `MAX_PEER_ADDRS`, `MAX_LOCATORS`,
`MAX_BLOCK_HEADERS` of P2P/Common.h:25-34. -/
def maximumSize (type : Nat) : Nat :=
  match type with
  | 0 => 0
  | 1 => 128
  | 2 => 88
  | 3 => 16
  | 4 => 16
  | 5 => 4
  | 6 => 4 + (1 + 16 + 2) * 256
  | 7 => 1 + 32 * 20
  | 8 => 365
  | 9 => 2 + 365 * 512
  | 10 => 32
  | 11 => MAX_BLOCK_SIZE
  | 12 => 32
  | 13 => MAX_BLOCK_SIZE / 10
  | 14 => MAX_BLOCK_SIZE
  | 15 => MAX_BLOCK_SIZE
  | 16 => 40
  | 17 => 64
  | 18 => 64
  | 19 => 32
  | 20 => 32
  | 21 => 41
  | 23 => 41
  | 25 => 41
  | 27 => 41
  | 22 => 2 * MAX_BLOCK_SIZE
  | 24 => 2 * MAX_BLOCK_SIZE
  | 26 => 2 * MAX_BLOCK_SIZE
  | 28 => 2 * MAX_BLOCK_SIZE
  | _ => 0

/-- `MessageHeader::Deserialize` (MessageHeader.h:60-78): type and length. -/
def msgHeaderDeser (magic : Nat × Nat) : Parser (Nat × Nat) := do
  let m1 ← readBE 1
  let m2 ← readBE 1
  if m1 ≠ magic.1 ∨ m2 ≠ magic.2 then Parser.fail
  else do
    let type ← readBE 1
    let len ← readBE 8
    if len > maximumSize type * 4 then Parser.fail else return (type, len)

/-- `IMessage::Serialize` (Message.h:20-32). -/
def messageSer (magic : Nat × Nat) (ver : Nat) (p : Payload) : Res Bytes := do
  let body ← payloadSer ver p
  return beBytes 1 magic.1 ++ (beBytes 1 magic.2 ++ (beBytes 1 p.type ++ (beBytes 8 body.length ++ body)))

/-- What `Connection::HandleReceivedHeader` and `HandleReceivedBody` (Connection.cpp:144-220) do with the bytes
of the stream: read a header of 11 bytes and then as many bytes as it announces, and hand those, as a buffer
of their own, to the deserializer. -/
def receive (H : DigestNum) (HB : Bytes → Bytes) (coin : Bytes → Nat) (magic : Nat × Nat) (ver : Nat)
    (stream : Bytes) : Res (Payload × Bytes) :=
  if stream.length < 11 then .throw
  else do
    let h ← msgHeaderDeser magic ⟨stream.take 11, 0⟩
    if (stream.drop 11).length < h.1.2 then .throw
    else do
      let r ← payloadDeser H HB coin ver h.1.1 ⟨(stream.drop 11).take h.1.2, 0⟩
      return (r.1, (stream.drop 11).drop h.1.2)

end Verif.Codec
