import Verif.Codec.Text
import Verif.Codec.Bech32

/-!
# Base32 and onion addresses

Model of `deps/cppcodec` with the alphabet of RFC 4648 (base32_rfc4648.hpp, detail/base32.hpp, detail/stream_codec.hpp),
of `src/Net/Tor/TorAddressParser.cpp` and of the conversions of `SlatepackAddress`.
-/
namespace Verif.Codec

/-- `base32_rfc4648_alphabet` (base32_rfc4648.hpp:38-42). -/
def b32Alphabet : Bytes := str "ABCDEFGHIJKLMNOPQRSTUVWXYZ234567"

/-- `symbol` (base32_rfc4648.hpp:53-56). -/
def b32Symbol (i : Nat) : UInt8 := b32Alphabet.getD i 0

/-- `normalized_symbol` (base32_rfc4648.hpp:57-61). -/
def b32Upper (c : UInt8) : UInt8 := if 97 ≤ c ∧ c ≤ 122 then c - 32 else c

/-- `index_at` for the symbols of the alphabet (stream_codec.hpp:194-210, 274-298). -/
def b32Index (c : UInt8) : Option Nat :=
  if b32Upper c ∈ b32Alphabet then some (b32Alphabet.idxOf (b32Upper c)) else none

/-- `index<1>` (base32.hpp:66). -/
def b32I1 (b0 b1 : Nat) : Nat := ((b0 <<< 2) &&& 0x1C) ||| ((b1 >>> 6) &&& 0x3)
/-- `index<3>` (base32.hpp:68). -/
def b32I3 (b1 b2 : Nat) : Nat := ((b1 <<< 4) &&& 0x10) ||| ((b2 >>> 4) &&& 0xF)
/-- `index<4>` (base32.hpp:69). -/
def b32I4 (b2 b3 : Nat) : Nat := ((b2 <<< 1) &&& 0x1E) ||| ((b3 >>> 7) &&& 0x1)
/-- `index<6>` (base32.hpp:71). -/
def b32I6 (b3 b4 : Nat) : Nat := ((b3 <<< 3) &&& 0x18) ||| ((b4 >>> 5) &&& 0x7)

/-- `encode` (stream_codec.hpp:116-150) with `index` (base32.hpp:58-73) for whole blocks of five bytes, and with
`index_last` (base32.hpp:78-87) and the padding for the rest. -/
def b32Encode : Bytes → Bytes
  | [] => []
  | [b0] =>
    [b32Symbol ((b0.toNat >>> 3) &&& 0x1F), b32Symbol ((b0.toNat <<< 2) &&& 0x1C)] ++ List.replicate 6 61
  | [b0, b1] =>
    [b32Symbol ((b0.toNat >>> 3) &&& 0x1F), b32Symbol (b32I1 b0.toNat b1.toNat),
      b32Symbol ((b1.toNat >>> 1) &&& 0x1F), b32Symbol ((b1.toNat <<< 4) &&& 0x10)] ++ List.replicate 4 61
  | [b0, b1, b2] =>
    [b32Symbol ((b0.toNat >>> 3) &&& 0x1F), b32Symbol (b32I1 b0.toNat b1.toNat),
      b32Symbol ((b1.toNat >>> 1) &&& 0x1F), b32Symbol (b32I3 b1.toNat b2.toNat),
      b32Symbol ((b2.toNat <<< 1) &&& 0x1E)] ++ List.replicate 3 61
  | [b0, b1, b2, b3] =>
    [b32Symbol ((b0.toNat >>> 3) &&& 0x1F), b32Symbol (b32I1 b0.toNat b1.toNat),
      b32Symbol ((b1.toNat >>> 1) &&& 0x1F), b32Symbol (b32I3 b1.toNat b2.toNat),
      b32Symbol (b32I4 b2.toNat b3.toNat), b32Symbol ((b3.toNat >>> 2) &&& 0x1F),
      b32Symbol ((b3.toNat <<< 3) &&& 0x18)] ++ List.replicate 1 61
  | b0 :: b1 :: b2 :: b3 :: b4 :: bs =>
    [b32Symbol ((b0.toNat >>> 3) &&& 0x1F), b32Symbol (b32I1 b0.toNat b1.toNat),
      b32Symbol ((b1.toNat >>> 1) &&& 0x1F), b32Symbol (b32I3 b1.toNat b2.toNat),
      b32Symbol (b32I4 b2.toNat b3.toNat), b32Symbol ((b3.toNat >>> 2) &&& 0x1F),
      b32Symbol (b32I6 b3.toNat b4.toNat), b32Symbol (b4.toNat &&& 0x1F)] ++ b32Encode bs

/-- The first byte of a block (base32.hpp:118, 148). -/
def b32B0 (i0 i1 : Nat) : UInt8 := UInt8.ofNat (((i0 <<< 3) &&& 0xF8) ||| ((i1 >>> 2) &&& 0x7))
/-- The second byte of a block (base32.hpp:119, 153). -/
def b32B1 (i1 i2 i3 : Nat) : UInt8 :=
  UInt8.ofNat (((i1 <<< 6) &&& 0xC0) ||| ((i2 <<< 1) &&& 0x3E) ||| ((i3 >>> 4) &&& 0x1))
/-- The third byte of a block (base32.hpp:120, 158). -/
def b32B2 (i3 i4 : Nat) : UInt8 := UInt8.ofNat (((i3 <<< 4) &&& 0xF0) ||| ((i4 >>> 1) &&& 0xF))
/-- The fourth byte of a block (base32.hpp:121, 163). -/
def b32B3 (i4 i5 i6 : Nat) : UInt8 :=
  UInt8.ofNat (((i4 <<< 7) &&& 0x80) ||| ((i5 <<< 2) &&& 0x7C) ||| ((i6 >>> 3) &&& 0x3))
/-- The fifth byte of a block (base32.hpp:122). -/
def b32B4 (i6 i7 : Nat) : UInt8 := UInt8.ofNat (((i6 <<< 5) &&& 0xE0) ||| (i7 &&& 0x1F))

/-- `decode_block` (base32.hpp:113-123); the list holds eight indexes. -/
def b32Block (idx : List Nat) : Bytes :=
  let g := fun k => idx.getD k 0
  [b32B0 (g 0) (g 1), b32B1 (g 1) (g 2) (g 3), b32B2 (g 3) (g 4), b32B3 (g 4) (g 5) (g 6), b32B4 (g 6) (g 7)]

/-- `decode_tail` (base32.hpp:127-164). -/
def b32Tail (idx : List Nat) : Res Bytes :=
  if idx.length = 1 ∨ idx.length = 3 ∨ idx.length = 6 then .throw
  else
    let g := fun k => idx.getD k 0
    if idx.length = 2 then .ok [b32B0 (g 0) (g 1)]
    else if idx.length = 4 then .ok [b32B0 (g 0) (g 1), b32B1 (g 1) (g 2) (g 3)]
    else if idx.length = 5 then .ok [b32B0 (g 0) (g 1), b32B1 (g 1) (g 2) (g 3), b32B2 (g 3) (g 4)]
    else .ok [b32B0 (g 0) (g 1), b32B1 (g 1) (g 2) (g 3), b32B2 (g 3) (g 4), b32B3 (g 4) (g 5) (g 6)]

/-- The end of `decode` without padding (stream_codec.hpp:387-403): the padding is required. -/
def b32End (idx : List Nat) : Res Bytes := if idx = [] then .ok [] else .throw

/-- The reading of the padding (stream_codec.hpp:364-385) and the end of `decode` after it (387-403): `n` counts what
`last_index_ptr` has passed. -/
def b32Pad (idx : List Nat) : Nat → Bytes → Res Bytes
  | n, [] => if n = 8 then b32Tail idx else .throw
  | n, c :: s =>
    if c = 0 then (if n = 8 then b32Tail idx else .throw)
    else if c = 61 then (if n + 1 > 8 then .throw else b32Pad idx (n + 1) s)
    else .throw

/-- `decode` (stream_codec.hpp:320-404): `idx` holds the indexes of the current block, fewer than eight.  A NUL ends
the text. -/
def b32Loop : Bytes → List Nat → Res Bytes
  | [], idx => b32End idx
  | c :: s, idx =>
    match b32Index c with
    | some i =>
      if idx.length = 7 then do
        let rest ← b32Loop s []
        return b32Block (idx ++ [i]) ++ rest
      else b32Loop s (idx ++ [i])
    | none =>
      if c = 0 then b32End idx
      else if c = 61 then (if idx = [] then .throw else b32Pad idx (idx.length + 1) s)
      else .throw

/-- `codec::decode`. -/
def b32Decode (s : Bytes) : Res Bytes := b32Loop s []

/-- What is used of the libraries: SHA3-256 (as bytes; the code takes it apart in hexadecimal) and
`crypto_core_ed25519_is_valid_point`. -/
structure OnionLib where
  sha3 : Bytes → Bytes
  valid : Bytes → Bool

/-- `TorAddress` (TorAddress.h:6-23): text, public key and version. -/
structure TorAddr where
  text : Bytes
  key : Bytes
  version : UInt8
deriving DecidableEq, Repr

/-- `TorAddressParser::BuildChecksum` (TorAddressParser.cpp:156-174): two bytes. -/
def onionSum (l : OnionLib) (key : Bytes) (v : UInt8) : Bytes := (l.sha3 (str ".onion checksum" ++ key ++ [v])).take 2

/-- `TorAddressParser::IsValid` (TorAddressParser.cpp:129-149). -/
def onionValid (l : OnionLib) (v : UInt8) (key sum : Bytes) : Bool := decide (sum = onionSum l key v) && l.valid key

/-- `TorAddressParser::Parse` (TorAddressParser.cpp:61-112): every exception becomes no address. -/
def onionParse (l : OnionLib) (s : Bytes) : Option TorAddr :=
  if s.length ≠ 56 then none
  else match b32Decode s with
    | .ok bs =>
      if bs.length ≠ 35 then none
      else
        let key := bs.take 32
        let sum := (bs.drop 32).take 2
        let v := bs.getD 34 0
        if onionValid l v key sum then some ⟨s, key, v⟩ else none
    | _ => none

/-- The text of `FromPubKey` for any version (TorAddressParser.cpp:118-126). -/
def onionText (l : OnionLib) (key : Bytes) (v : UInt8) : Bytes :=
  toLower (b32Encode (key ++ onionSum l key v ++ [v]))

/-- `TorAddressParser::FromPubKey` (TorAddressParser.cpp:114-127). -/
def onionFromKey (l : OnionLib) (key : Bytes) : TorAddr := ⟨onionText l key 3, key, 3⟩

/-- `SlatepackAddress::Parse` (SlatepackAddress.h:18-24) with `ED25519::ToPubKey` (ED25519.cpp:8-21): the prefix is
read and not looked at. -/
def slatepackKey (l : OnionLib) (s : Bytes) : Res Bytes := do
  let r ← bech32Parse s
  if r.2.length ≠ 32 then .throw
  else if l.valid r.2 then return r.2 else .throw

/-- `SlatepackAddress::ToString` (SlatepackAddress.h:40) with the prefix of the network. -/
def slatepackText (hrc key : Bytes) : Res Bytes := bech32ToString hrc key

end Verif.Codec
