import Verif.Codec.Text

/-!
# Base58

Model of `src/Core/Serialization/Base58.cpp`.  The digit vectors `b58` and `b256` are processed from
their end; here they are lists with the least significant digit first.  The `int` counters do not
overflow below 2^31 characters and are naturals.  SHA-256 applied twice is the parameter `H`.
-/
namespace Verif.Codec

/-- `pszBase58` (Base58.cpp:12). -/
def base58Alphabet : Bytes := str "123456789ABCDEFGHJKLMNPQRSTUVWXYZabcdefghijkmnopqrstuvwxyz"

/-- `mapBase58` (Base58.cpp:13-30), row by row; 255 stands for -1. -/
def mapBase58 : List Nat :=
  List.replicate 48 255 ++
  [255, 0, 1, 2, 3, 4, 5, 6, 7, 8, 255, 255, 255, 255, 255, 255,
   255, 9, 10, 11, 12, 13, 14, 15, 16, 255, 17, 18, 19, 20, 21, 255,
   22, 23, 24, 25, 26, 27, 28, 29, 30, 31, 32, 255, 255, 255, 255, 255,
   255, 33, 34, 35, 36, 37, 38, 39, 40, 41, 42, 43, 255, 44, 45, 46,
   47, 48, 49, 50, 51, 52, 53, 54, 55, 56, 57, 255, 255, 255, 255, 255] ++
  List.replicate 128 255

/-- The inner loops (Base58.cpp:80-84, 139-143): multiply the number in `buf` (digits to base `B`) by
`M` and add `carry`, touching at least `length` digits.  Returns the digits, the carry left and the
number of digits touched. -/
def carryLoop (B M : Nat) : List Nat → Nat → Nat → Nat → List Nat × Nat × Nat
  | [], carry, i, _ => ([], carry, i)
  | d :: ds, carry, i, length =>
    if carry ≠ 0 ∨ i < length then
      let t := carry + M * d
      let r := carryLoop B M ds (t / B) (i + 1) length
      ((t % B) :: r.1, r.2)
    else (d :: ds, carry, i)

/-- The outer loops: one digit after the other (Base58.cpp:71-89, 135-148).  A carry left over fails the
assertion (86, 145), or in a release build is dropped: undefined behaviour here. -/
def convertLoop (B M : Nat) : List Nat → List Nat × Nat → Res (List Nat × Nat)
  | [], st => .ok st
  | x :: xs, (buf, length) =>
    let r := carryLoop B M buf x 0 length
    if r.2.1 ≠ 0 then .ub else convertLoop B M xs (r.1, r.2.2)

/-- `Encode` (Base58.cpp:118-160). -/
def b58Encode (includeVersion : Bool) (bs : Bytes) : Res Bytes := do
  let zeroes := if includeVersion then (bs.takeWhile (· == 0)).length else 0
  let rest := bs.drop zeroes
  let size := rest.length * 138 / 100 + 1
  let r ← convertLoop 58 256 (rest.map (·.toNat)) (List.replicate size 0, 0)
  let digits := ((r.1.take r.2).reverse).dropWhile (· == 0)
  return List.replicate zeroes 49 ++ digits.map (fun d => base58Alphabet.getD d 0)

/-- The C string: what precedes the first NUL (`strlen`, `*psz`). -/
def cstr (s : Bytes) : Bytes := s.takeWhile (· ≠ 0)

/-- The characters mapped to digits; a character without one throws (Base58.cpp:71-77). -/
def mapDigits : Bytes → Res (List Nat)
  | [] => .ok []
  | c :: s =>
    let d := mapBase58.getD c.toNat 255
    if d = 255 then .throw
    else do
      let ds ← mapDigits s
      return d :: ds

/-- `Decode` (Base58.cpp:47-116).  All characters are mapped before the arithmetic starts, which makes no
difference as the arithmetic has no effect outside the buffer. -/
def b58Decode (includeVersion : Bool) (s : Bytes) : Res Bytes := do
  let s := (cstr s).dropWhile isSpace
  let zeroes := if includeVersion then (s.takeWhile (· == 49)).length else 0
  let s := s.drop zeroes
  let size := s.length * 733 / 1000 + 1
  let digits ← mapDigits (s.takeWhile (fun c => !isSpace c))
  let r ← convertLoop 256 58 digits (List.replicate size 0, 0)
  if ((s.dropWhile (fun c => !isSpace c)).dropWhile isSpace) ≠ [] then .throw
  else
    let bytes := ((r.1.take r.2).reverse).dropWhile (· == 0)
    return List.replicate zeroes 0 ++ bytes.map UInt8.ofNat

/-- `EncodeCheck` (Base58.cpp:172-179). -/
def b58EncodeCheck (H : Bytes → Bytes) (bs : Bytes) : Res Bytes := b58Encode true (bs ++ (H bs).take 4)

/-- `DecodeCheck` (Base58.cpp:181-197). -/
def b58DecodeCheck (H : Bytes → Bytes) (s : Bytes) : Res Bytes := do
  let d ← b58Decode true s
  if d.length < 4 then .throw
  else
    let body := d.take (d.length - 4)
    if (H body).take 4 ≠ d.drop (d.length - 4) then .throw else return body

/-- `SimpleEncodeCheck` (Base58.cpp:204-213). -/
def simpleEncodeCheck (H : Bytes → Bytes) (bs : Bytes) : Res Bytes :=
  b58Encode false ((H bs).take 4 ++ bs)

/-- `SimpleDecodeCheck` (Base58.cpp:215-230). -/
def simpleDecodeCheck (H : Bytes → Bytes) (s : Bytes) : Res Bytes := do
  let d ← b58Decode false s
  if d.length < 4 then .throw
  else if (H (d.drop 4)).take 4 ≠ d.take 4 then .throw
  else return d.drop 4

end Verif.Codec
