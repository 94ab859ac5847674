import Verif.Codec.Text
import Verif.Ser.ByteBuffer

/-!
# Base64

Model of `deps/cppcodec` as used by `include/Core/Serialization/Base64.h` (no padding written, none required) and
`include/Wallet/SessionToken.h` (padding written and required).
-/
namespace Verif.Codec

/-- `base64_rfc4648_alphabet` (base64_rfc4648.hpp:34-40). -/
def b64Alphabet : Bytes := str "ABCDEFGHIJKLMNOPQRSTUVWXYZabcdefghijklmnopqrstuvwxyz0123456789+/"

/-- `symbol` (base64_rfc4648.hpp:51-54). -/
def b64Symbol (i : Nat) : UInt8 := b64Alphabet.getD i 0

/-- `index_of` for the symbols of the alphabet (stream_codec.hpp:194-210, 274-298). -/
def b64Index (c : UInt8) : Option Nat :=
  if c ∈ b64Alphabet then some (b64Alphabet.idxOf c) else none

/-- `encode` (stream_codec.hpp:116-150) with `index` and `index_last` (base64.hpp:57-83): whole blocks of three
bytes, then one or two bytes; `pad` is `generates_padding()`. -/
def b64Encode (pad : Bool) : Bytes → Bytes
  | [] => []
  | [b0] =>
    [b64Symbol (b0.toNat >>> 2), b64Symbol ((b0.toNat &&& 0x3) <<< 4)] ++ (if pad then [61, 61] else [])
  | [b0, b1] =>
    [b64Symbol (b0.toNat >>> 2), b64Symbol (((b0.toNat &&& 0x3) <<< 4) ||| (b1.toNat >>> 4)),
      b64Symbol ((b1.toNat &&& 0xF) <<< 2)] ++ (if pad then [61] else [])
  | b0 :: b1 :: b2 :: bs =>
    [b64Symbol (b0.toNat >>> 2), b64Symbol (((b0.toNat &&& 0x3) <<< 4) ||| (b1.toNat >>> 4)),
      b64Symbol (((b1.toNat &&& 0xF) <<< 2) ||| (b2.toNat >>> 6)), b64Symbol (b2.toNat &&& 0x3F)]
      ++ b64Encode pad bs

/-- `decode_block` (base64.hpp:104-112); the list holds four indexes. -/
def b64Block (idx : List Nat) : Bytes :=
  let dec := (idx.getD 0 0 <<< 18) ||| (idx.getD 1 0 <<< 12) ||| (idx.getD 2 0 <<< 6) ||| idx.getD 3 0
  [UInt8.ofNat (dec >>> 16), UInt8.ofNat ((dec >>> 8) &&& 0xFF), UInt8.ofNat (dec &&& 0xFF)]

/-- `decode_tail` (base64.hpp:114-133): two or three indexes. -/
def b64Tail (idx : List Nat) : Res Bytes :=
  if idx.length = 1 then .throw
  else
    let first := UInt8.ofNat ((idx.getD 0 0 <<< 2) + ((idx.getD 1 0 &&& 0x30) >>> 4))
    if idx.length = 2 then .ok [first]
    else .ok [first, UInt8.ofNat (((idx.getD 1 0 &&& 0xF) <<< 4) + ((idx.getD 2 0 &&& 0x3C) >>> 2))]

/-- The end of `decode` without padding (stream_codec.hpp:387-403); `req` is `requires_padding()`. -/
def b64End (req : Bool) (idx : List Nat) : Res Bytes :=
  if idx = [] then .ok []
  else if req then .throw
  else b64Tail idx

/-- The reading of the padding (stream_codec.hpp:364-385) and the end of `decode` after it (387-403): `n`
counts what `last_index_ptr` has passed. -/
def b64Pad (idx : List Nat) : Nat → Bytes → Res Bytes
  | n, [] => if n = 4 then b64Tail idx else .throw
  | n, c :: s =>
    if c = 0 then (if n = 4 then b64Tail idx else .throw)
    else if c = 61 then (if n + 1 > 4 then .throw else b64Pad idx (n + 1) s)
    else .throw

/-- `decode` (stream_codec.hpp:320-404): `idx` holds the indexes of the current block, fewer than four. A
NUL ends the text. -/
def b64Loop (req : Bool) : Bytes → List Nat → Res Bytes
  | [], idx => b64End req idx
  | c :: s, idx =>
    match b64Index c with
    | some i =>
      if idx.length = 3 then do
        let rest ← b64Loop req s []
        return b64Block (idx ++ [i]) ++ rest
      else b64Loop req s (idx ++ [i])
    | none =>
      if c = 0 then b64End req idx
      else if c = 61 then (if idx = [] then .throw else b64Pad idx (idx.length + 1) s)
      else .throw

/-- `codec::decode`. -/
def b64Decode (req : Bool) (s : Bytes) : Res Bytes := b64Loop req s []

/-- `SessionToken` (SessionToken.h:52-54). -/
structure SessionToken where
  id : Nat
  key : Bytes
deriving DecidableEq, Repr

/-- `SessionToken::ToBase64` (SessionToken.h:31-39). -/
def tokenText (t : SessionToken) : Bytes := b64Encode true (beBytes 8 t.id ++ t.key)

/-- `SessionToken::FromBase64` (SessionToken.h:41-50). -/
def tokenOfText (s : Bytes) : Res SessionToken := do
  let bs ← b64Decode true s
  if bs.length < 8 then .throw
  else return ⟨beVal (bs.take 8), bs.drop 8⟩

end Verif.Codec
