import Verif.Codec.Text

/-!
# Bech32

Model of `deps/bitcoin/src/bech32.cpp` and `include/Wallet/Models/Slatepack/Bech32Address.h`.  32-bit and
8-bit words are naturals; where the C++ truncates a shifted word the model takes the remainder.
-/
namespace Verif.Codec

/-- `CHARSET` (bech32.cpp:13). -/
def charset : Bytes := str "qpzry9x8gf2tvdw0s3jn54khce6mua7l"

/-- `CHARSET_REV` (bech32.cpp:16-25); 255 stands for -1. -/
def charsetRev : List Nat :=
  List.replicate 48 255 ++
  [15, 255, 10, 17, 21, 20, 26, 30, 7, 5, 255, 255, 255, 255, 255, 255,
   255, 29, 255, 24, 13, 25, 9, 8, 23, 255, 18, 22, 31, 27, 19, 255,
   1, 0, 3, 16, 11, 28, 12, 14, 6, 4, 2, 255, 255, 255, 255, 255,
   255, 29, 255, 24, 13, 25, 9, 8, 23, 255, 18, 22, 31, 27, 19, 255,
   1, 0, 3, 16, 11, 28, 12, 14, 6, 4, 2, 255, 255, 255, 255, 255]

/-- One round of `PolyMod` (bech32.cpp:80-91). -/
def polyStep (c v : Nat) : Nat :=
  let c0 := (c >>> 25) % 256
  let c := (((c &&& 0x1ffffff) <<< 5) % 2 ^ 32) ^^^ v
  let c := if c0 &&& 1 ≠ 0 then c ^^^ 0x3b6a57b2 else c
  let c := if c0 &&& 2 ≠ 0 then c ^^^ 0x26508e6d else c
  let c := if c0 &&& 4 ≠ 0 then c ^^^ 0x1ea119fa else c
  let c := if c0 &&& 8 ≠ 0 then c ^^^ 0x3d4233dd else c
  if c0 &&& 16 ≠ 0 then c ^^^ 0x2a1462b3 else c

/-- `PolyMod` (bech32.cpp:37-94). -/
def polyMod (v : List Nat) : Nat := v.foldl polyStep 1

/-- `ExpandHRP` (bech32.cpp:103-115). -/
def expandHRP (hrp : Bytes) : List Nat :=
  hrp.map (fun c => c.toNat >>> 5) ++ 0 :: hrp.map (fun c => c.toNat &&& 0x1f)

/-- `VerifyChecksum` (bech32.cpp:118-125). -/
def verifyChecksum (hrp : Bytes) (values : List Nat) : Bool := polyMod (expandHRP hrp ++ values) = 1

/-- `CreateChecksum` (bech32.cpp:128-139). -/
def createChecksum (hrp : Bytes) (values : List Nat) : List Nat :=
  let m := polyMod (expandHRP hrp ++ values ++ List.replicate 6 0) ^^^ 1
  (List.range 6).map fun i => (m >>> (5 * (5 - i))) &&& 31

/-- `Encode` (bech32.cpp:147-156); a value above 31 would read past the alphabet. -/
def bech32Encode (hrp : Bytes) (values : List Nat) : Res Bytes :=
  let combined := values ++ createChecksum hrp values
  if combined.all (· < 32) then
    .ok (hrp ++ 49 :: combined.map fun v => charset.getD v 0)
  else .ub

/-- `LowerCase` (bech32.cpp:97-100). -/
def bechLower (c : UInt8) : UInt8 := if 65 ≤ c ∧ c ≤ 90 then (c - 65) + 97 else c

/-- `str.rfind('1')` (bech32.cpp:168). -/
def rfindOne (s : Bytes) : Option Nat :=
  if (49 : UInt8) ∈ s then some (s.length - 1 - s.reverse.idxOf 49) else none

/-- `Decode` (bech32.cpp:159-190); nothing stands for the empty pair.  A character above 127 would read
past `CHARSET_REV`; the first loop has excluded it. -/
def bech32Decode (s : Bytes) : Res (Option (Bytes × List Nat)) :=
  let lower := s.any fun c => 97 ≤ c ∧ c ≤ 122
  let upper := s.any fun c => 65 ≤ c ∧ c ≤ 90
  if s.any fun c => c < 33 ∨ c > 126 then .ok none
  else if lower && upper then .ok none
  else match rfindOne s with
    | none => .ok none
    | some pos =>
      if s.length > 90 ∨ pos = 0 ∨ pos + 7 > s.length then .ok none
      else
        let chars := s.drop (pos + 1)
        if chars.any fun c => c.toNat ≥ 128 then .ub
        else
          let values := chars.map fun c => charsetRev.getD c.toNat 255
          if values.any (· = 255) then .ok none
          else
            let hrp := (s.take pos).map bechLower
            if verifyChecksum hrp values then .ok (some (hrp, values.take (values.length - 6)))
            else .ok none

/-- `FromBase32` (Bech32Address.h:26-54): state `(acc, bits, ret)`; `acc` is 32 bits wide.  The inner
loop runs at most once, as `bits < 8` before. -/
def fromBase32Loop : List Nat → Nat × Nat × Bytes → Res (Nat × Nat × Bytes)
  | [], st => .ok st
  | v :: vs, (acc, bits, ret) =>
    if v > 31 then .throw
    else
      let acc := ((acc <<< 5) % 2 ^ 32) ||| v
      let bits := bits + 5
      if bits ≥ 8 then
        fromBase32Loop vs (acc, bits - 8, ret ++ [UInt8.ofNat ((acc >>> (bits - 8)) &&& 255)])
      else fromBase32Loop vs (acc, bits, ret)

/-- `FromBase32` (Bech32Address.h:26-54). -/
def fromBase32 (vs : List Nat) : Res Bytes := do
  let r ← fromBase32Loop vs (0, 0, [])
  if r.2.1 ≥ 5 ∨ ((r.1 <<< (8 - r.2.1)) % 2 ^ 32) &&& 255 ≠ 0 then .throw else return r.2.2

/-- Writing a full group from the buffer of `ToBase32` (Bech32Address.h:71-75, 88-92): state
`(ret, buffer, buffer_bits)`. -/
def emit5 (st : List Nat × Nat × Nat) : List Nat × Nat × Nat :=
  if st.2.2 ≥ 5 then
    (st.1 ++ [(st.2.1 &&& 0xf8) >>> 3], (st.2.1 <<< 5) % 256, st.2.2 - 5)
  else st

/-- One byte of `ToBase32` (Bech32Address.h:67-85). -/
def toBase32Step (st : List Nat × Nat × Nat) (b : UInt8) : List Nat × Nat × Nat :=
  let (ret, buffer, bits) := emit5 st
  (ret ++ [(buffer >>> 3) ||| (b.toNat >>> (3 + bits))], (b.toNat <<< (5 - bits)) % 256, 3 + bits)

/-- `ToBase32` (Bech32Address.h:56-99). -/
def toBase32 (bs : Bytes) : List Nat :=
  let (ret, buffer, bits) := emit5 (bs.foldl toBase32Step ([], 0, 0))
  if bits ≠ 0 then ret ++ [buffer >>> 3] else ret

/-- `Bech32Address::ToString` (Bech32Address.h:21). -/
def bech32ToString (hrp : Bytes) (data : Bytes) : Res Bytes := bech32Encode hrp (toBase32 data)

/-- `Bech32Address::Parse` (Bech32Address.h:11-19). -/
def bech32Parse (s : Bytes) : Res (Bytes × Bytes) := do
  match ← bech32Decode s with
  | none => .throw
  | some (hrp, values) =>
    if hrp = [] ∨ values = [] then .throw
    else do
      let data ← fromBase32 values
      return (hrp, data)

end Verif.Codec
