import Verif.Base.Outcome
import Verif.Base.Bytes

/-!
# `ByteBuffer` and `Serializer`

Model of `include/Core/Serialization/ByteBuffer.h` and `include/Core/Serialization/Serializer.h`.
A `Serializer` is the byte string appended so far, so "appending" is list concatenation; each
`ser…` function of the model returns the bytes the C++ appends.
-/
namespace Verif

/-- `ByteBuffer` (ByteBuffer.h:237-240): the bytes and the cursor `m_index`.  The protocol version
member is passed to the parsers that consult it as an argument instead. -/
structure Buf where
  data : Bytes
  idx : Nat
deriving DecidableEq, Repr

/-- A member function that reads from a `ByteBuffer`. -/
def Parser (α : Type) := Buf → Res (α × Buf)

namespace Parser

/-- Sequencing of two reads. -/
def bind {α β : Type} (p : Parser α) (f : α → Parser β) : Parser β :=
  fun b => Res.bind (p b) (fun r => f r.1 r.2)

instance : Monad Parser where
  pure a := fun b => .ok (a, b)
  bind := bind

/-- `throw DESERIALIZATION_EXCEPTION(...)`. -/
def fail {α : Type} : Parser α := fun _ => .throw

/-- A deserializer reaching undefined behaviour outside the buffer itself. -/
def undef {α : Type} : Parser α := fun _ => .ub

theorem pure_run {α : Type} (a : α) (b : Buf) : (pure a : Parser α) b = .ok (a, b) := rfl

theorem bind_run {α β : Type} (p : Parser α) (f : α → Parser β) (b : Buf) :
    (p >>= f) b = Res.bind (p b) (fun r => f r.1 r.2) := rfl

end Parser

/-- `ByteBuffer::ReadVector(numBytes)` (ByteBuffer.h:196-206); the same bounds check guards
`ReadBigEndian` (32-34), `ReadVarStr` (160-162), `ReadString` (172-174), `ReadBigInteger`
(185-187) and `ReadArray` (211-213).  The check compares the 64-bit sum `m_index + numBytes`, which
wraps; when it passes although the mathematical end lies past the buffer, the iterators formed
from `m_bytes` are out of range: undefined behaviour. -/
def readBytes (n : Nat) : Parser Bytes := fun b =>
  if (b.idx + n) % U64 > b.data.length then .throw
  else if b.idx + n ≤ b.data.length then
    .ok ((b.data.drop b.idx).take n, { b with idx := b.idx + n })
  else .ub

/-- `ReadU8/16/32/64` (ByteBuffer.h:89-143): `ReadBigEndian` of an `n`-byte unsigned integer. -/
def readBE (n : Nat) : Parser Nat := do
  let bs ← readBytes n
  return beVal bs

/-- `ReadU64_LE` (ByteBuffer.h:145-151). -/
def readLE (n : Nat) : Parser Nat := do
  let bs ← readBytes n
  return beVal bs.reverse

/-- `ReadVarStr` (ByteBuffer.h:153-168). -/
def readVarStr : Parser Bytes := do
  let n ← readBE 8
  if n = 0 then return [] else readBytes n

/-- `GetRemainingSize` (ByteBuffer.h:223-226). -/
def remaining : Parser Nat := fun b => .ok (b.data.length - b.idx, b)

/-- `ReadRemainingBytes` (ByteBuffer.h:228-233). -/
def readRemaining : Parser Bytes := fun b =>
  .ok (b.data.drop b.idx, { b with idx := b.idx + (b.data.length - b.idx) })

/-- Read `n` items with `p`: the `for (i = 0; i < n; i++) v.push_back(T::Deserialize(buffer))`
loops of the deserializers. -/
def readMany {α : Type} (p : Parser α) : Nat → Parser (List α)
  | 0 => pure []
  | n + 1 => do
    let a ← p
    let as ← readMany p n
    return a :: as

/-- `AppendLittleEndian<uint64_t>` (Serializer.h:50-63). -/
def leBytes (n x : Nat) : Bytes := (beBytes n x).reverse

/-- `AppendVarStr` (Serializer.h:105-110): 64-bit length, then the characters. -/
def serVarStr (s : Bytes) : Bytes := beBytes 8 s.length ++ s

/-- Serialization of a vector of items, one after the other. -/
def serMany {α : Type} (f : α → Bytes) (l : List α) : Bytes := (l.map f).flatten

end Verif
