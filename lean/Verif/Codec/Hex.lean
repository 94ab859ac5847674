import Verif.Codec.Text

/-!
# Hexadecimal text

Model of `src/Common/Util/HexUtil.cpp` and of the hexadecimal codec of `deps/cppcodec`.
-/
namespace Verif.Codec

/-- `hex_lower_alphabet` (hex_lower.hpp:34-37). -/
def hexAlphabet : Bytes := str "0123456789abcdef"

/-- `hex_lower::symbol` (hex_lower.hpp:48-51). -/
def hexSymbol (i : UInt8) : UInt8 := hexAlphabet.getD i.toNat 0

/-- `index_at` (stream_codec.hpp:194-210, 274-298) with `normalized_symbol` (hex_lower.hpp:52-57): the
position in the alphabet, or nothing. -/
def hexIndex (c : UInt8) : Option UInt8 :=
  let c := if 65 ≤ c ∧ c ≤ 70 then c - 65 + 97 else c
  if c ∈ hexAlphabet then some (UInt8.ofNat (hexAlphabet.idxOf c)) else none

/-- `hex_lower::encode` (stream_codec.hpp:116-150, hex.hpp:52-61); `HexUtil::ConvertToHex`
(HexUtil.cpp:34-37). -/
def toHex : Bytes → Bytes
  | [] => []
  | b :: bs => hexSymbol (b >>> 4) :: hexSymbol (b &&& 0xf) :: toHex bs

/-- `hex_lower::decode` (stream_codec.hpp:320-404, hex.hpp:93-109): a NUL at a block boundary ends the
input, a character outside the alphabet and an odd number of characters are errors. -/
def hexDecode : Bytes → Res Bytes
  | [] => .ok []
  | [c] => if c = 0 then .ok [] else .throw
  | c :: d :: s =>
    if c = 0 then .ok []
    else
      match hexIndex c, hexIndex d with
      | some i, some j => do
        let rest ← hexDecode s
        return ((i <<< 4) ||| j) :: rest
      | _, _ => .throw

/-- The characters `IsValidHex` accepts (HexUtil.cpp:11). -/
def hexChars : Bytes := str "0123456789abcdefABCDEF"

/-- `HexUtil::IsValidHex` (HexUtil.cpp:8-15). -/
def isValidHex (s : Bytes) : Bool :=
  if s.length > 2 ∧ s.take 2 = str "0x" then (s.drop 2).all (· ∈ hexChars)
  else s.all (· ∈ hexChars)

/-- `HexUtil::FromHex` (HexUtil.cpp:17-32). -/
def fromHex (s : Bytes) : Res Bytes :=
  let t := trim (toLower s)
  let t := if startsWith t (str "0x") then t.drop 2 else t
  if isValidHex t then hexDecode t else .throw

end Verif.Codec
