import Verif.Codec.Messages

/-!
# Segments of the chain state on the wire

Model of `include/PMMR/Common/{SegmentId,SegmentProof,Segment,BitmapSegment}.h` and
`src/P2P/Messages/SegmentResponseMessage.h`.  The node reads these messages and ignores them
(MessageProcessor.cpp:365-428).
-/
namespace Verif.Codec

/-- `SegmentIdentifier` (SegmentId.h:8-11). -/
structure SegId where
  height : Nat
  index : Nat
deriving DecidableEq, Repr

/-- `SegmentIdentifier::Serialize` (SegmentId.h:43-47). -/
def segIdSer (i : SegId) : Bytes := beBytes 1 i.height ++ beBytes 8 i.index

/-- `SegmentIdentifier::Deserialize` (SegmentId.h:49-54). -/
def segIdDeser : Parser SegId := do
  let h ← readBE 1
  let i ← readBE 8
  return ⟨h, i⟩

/-- `SegmentProof::Serialize` (SegmentProof.h:43-49). -/
def segProofSer (l : List Bytes) : Bytes := beBytes 8 l.length ++ serMany id l

/-- `SegmentProof::Deserialize` (SegmentProof.h:51-60). -/
def segProofDeser : Parser (List Bytes) := do
  let n ← readBE 8
  readMany (readBytes 32) n

/-- `Segment` (Segment.h:16-21) with leaves of any type. -/
structure Segment (α : Type) where
  id : SegId
  hashPos : List Nat
  hashes : List Bytes
  leafPos : List Nat
  leaves : List α
  proof : List Bytes
deriving DecidableEq, Repr

/-- `Segment::Serialize` (Segment.h:73-91). -/
def segmentBodySer {α : Type} (leaf : α → Bytes) (s : Segment α) : Bytes :=
  segIdSer s.id ++ (beBytes 8 s.hashPos.length ++ (serMany (beBytes 8) s.hashPos ++ (serMany id s.hashes ++
    (beBytes 8 s.leafPos.length ++ (serMany (beBytes 8) s.leafPos ++ (serMany leaf s.leaves ++ segProofSer s.proof))))))

/-- `Segment::Deserialize` (Segment.h:93-125); for the memory it asks for see `positionsMemory`. -/
def segmentBodyDeser {α : Type} (leaf : Parser α) : Parser (Segment α) := do
  let i ← segIdDeser
  let n ← readBE 8
  let hp ← readMany (readBE 8) n
  let hs ← readMany (readBytes 32) n
  let m ← readBE 8
  let lp ← readMany (readBE 8) m
  let ls ← readMany leaf m
  let p ← segProofDeser
  return ⟨i, hp, hs, lp, ls, p⟩

/-- The bytes that the constructor of `hashPos` fills with zeros (Segment.h:96-97), after the hash of the block
(SegmentResponseMessage.h:42, 87); a count above the largest size of a vector throws before. -/
def positionsMemory : Parser Nat := do
  let _ ← readBytes 32
  let _ ← segIdDeser
  let n ← readBE 8
  if n < 2 ^ 60 then return 8 * n else Parser.fail

/-- `BitmapSegmentBlock` (BitmapSegment.h:125-128); modes 0 raw, 1 set positions, 2 unset positions. -/
structure BitmapBlock where
  chunks : Nat
  mode : Nat
  positions : List Nat
  bytes : Bytes
deriving DecidableEq, Repr

/-- `BitmapSegmentBlock::Serialize` (BitmapSegment.h:50-79); the count is cut to 16 bits. -/
def bitmapBlockSer (b : BitmapBlock) : Res Bytes :=
  if b.mode = 0 then .ok (beBytes 1 b.chunks ++ (beBytes 1 0 ++ b.bytes))
  else if b.mode = 1 ∨ b.mode = 2 then
    .ok (beBytes 1 b.chunks ++ (beBytes 1 b.mode ++ (beBytes 2 (b.positions.length % 65536) ++ serMany (beBytes 2) b.positions)))
  else .throw

/-- `BitmapSegmentBlock::Deserialize` (BitmapSegment.h:81-122); the raw bytes are read at once. -/
def bitmapBlockDeser : Parser BitmapBlock := do
  let c ← readBE 1
  let m ← readBE 1
  if m > 2 then Parser.fail
  else if m = 0 then do
    let bs ← readBytes (c * 128)
    return ⟨c, 0, [], bs⟩
  else do
    let n ← readBE 2
    let ps ← readMany (readBE 2) n
    return ⟨c, m, ps, []⟩

/-- `BitmapSegment` (BitmapSegment.h:185-187). -/
structure BitmapSeg where
  id : SegId
  blocks : List BitmapBlock
  proof : List Bytes
deriving DecidableEq, Repr

/-- The blocks one after the other. -/
def bitmapBlocksSer : List BitmapBlock → Res Bytes
  | [] => .ok []
  | b :: bs => do
    let x ← bitmapBlockSer b
    let y ← bitmapBlocksSer bs
    return x ++ y

/-- `BitmapSegment::Serialize` (BitmapSegment.h:155-163). -/
def bitmapSegSer (s : BitmapSeg) : Res Bytes := do
  let bs ← bitmapBlocksSer s.blocks
  return segIdSer s.id ++ (beBytes 2 (s.blocks.length % 65536) ++ (bs ++ segProofSer s.proof))

/-- `BitmapSegment::Deserialize` (BitmapSegment.h:165-182). -/
def bitmapSegDeser : Parser BitmapSeg := do
  let i ← segIdDeser
  let n ← readBE 2
  let bs ← readMany bitmapBlockDeser n
  let p ← segProofDeser
  return ⟨i, bs, p⟩

/-- The four messages (SegmentResponseMessage.h:18-161). -/
inductive SegmentMsg
  | bitmap (hash : Bytes) (s : BitmapSeg) (root : Bytes)
  | output (hash : Bytes) (s : Segment TxInput) (root : Bytes)
  | proof (hash : Bytes) (s : Segment Bytes)
  | kernel (hash : Bytes) (s : Segment Kernel)
deriving DecidableEq, Repr

/-- `GetMessageType` (MessageTypes.h:33-39). -/
def SegmentMsg.type : SegmentMsg → Nat
  | .bitmap .. => 22
  | .output .. => 24
  | .proof .. => 26
  | .kernel .. => 28

/-- `SerializeBody` (SegmentResponseMessage.h:49-53, 98-103, 147-152). -/
def segmentMsgSer (ver : Nat) : SegmentMsg → Res Bytes
  | .bitmap h s r => do
    let x ← bitmapSegSer s
    return h ++ (x ++ r)
  | .output h s r => .ok (h ++ (segmentBodySer outputIdSer s ++ r))
  | .proof h s => .ok (h ++ segmentBodySer proofSer s)
  | .kernel h s => .ok (h ++ segmentBodySer (kernelSer ver) s)

/-- `Deserialize` (SegmentResponseMessage.h:40-46, 85-95, 134-144) for a message type. -/
def segmentMsgDeser (ver type : Nat) : Parser SegmentMsg :=
  match type with
  | 22 => do
    let h ← readBytes 32
    let s ← bitmapSegDeser
    let r ← readBytes 32
    return .bitmap h s r
  | 24 => do
    let h ← readBytes 32
    let s ← segmentBodyDeser outputIdDeser
    let r ← readBytes 32
    return .output h s r
  | 26 => do
    let h ← readBytes 32
    let s ← segmentBodyDeser proofDeser
    return .proof h s
  | 28 => do
    let h ← readBytes 32
    let s ← segmentBodyDeser (kernelDeser ver)
    return .kernel h s
  | _ => Parser.fail

end Verif.Codec
