import Verif.Codec.Base58
import Verif.Codec.Text

/-!
# Seed phrases

Model of `src/Wallet/Keychain/Mnemonic.cpp`.  `H` is SHA-256, `W` the word list.
-/
namespace Verif.Codec

/-- `v[i] |= bit << s` for the bits `bits`, in order, at the places `place loc`, `place (loc + 1)`, …
(the loop bodies of Mnemonic.cpp:27-29, 37-39 and 101-103).  An index past the end is undefined. -/
def orBits (place : Nat → Nat × Nat) : List Bool → Nat → List Nat → Res (List Nat)
  | [], _, v => .ok v
  | b :: bs, loc, v =>
    let i := (place loc).1
    if i < v.length then
      orBits place bs (loc + 1) (v.set i (v.getD i 0 ||| (b.toNat <<< (place loc).2)))
    else .ub

/-- The bits `n-1, …, 0` of a number. -/
def topBits (x : Nat) : Nat → List Bool
  | 0 => []
  | n + 1 => x.testBit n :: topBits x n

/-- Where bit number `loc` goes in the 11-bit words (Mnemonic.cpp:28). -/
def wordPlace (loc : Nat) : Nat × Nat := (loc / 11, 10 - loc % 11)

/-- The checksum (Mnemonic.cpp:33-34, 87 and 107).  With more than 8 checksum bits the shift count
`8 - checksumBits` wraps, which is undefined. -/
def seedChecksum (H : Bytes → Bytes) (entropy : Bytes) (bits : Nat) : Res Nat :=
  if bits ≤ 8 then .ok ((((H entropy).headD 0).toNat >>> (8 - bits)) &&& (2 ^ bits - 1)) else .ub

/-- Spelling the word indices (Mnemonic.cpp:42-51). -/
def spell (W : List Bytes) : List Nat → Res (List Bytes)
  | [] => .ok []
  | i :: is =>
    if i < W.length then do
      let rest ← spell W is
      return W.getD i [] :: rest
    else .ub

/-- The word indices of `CreateMnemonic` (Mnemonic.cpp:10-40). -/
def wordIndices (H : Bytes → Bytes) (entropy : Bytes) : Res (List Nat) :=
  if entropy.length % 4 ≠ 0 then .throw
  else do
    let checksumBits := entropy.length * 8 / 32
    let numWords := (entropy.length * 8 + checksumBits) / 11
    let bits := entropy.flatMap fun b => topBits b.toNat 8
    let v ← orBits wordPlace bits 0 (List.replicate numWords 0)
    let checksum ← seedChecksum H entropy checksumBits
    orBits wordPlace (topBits checksum checksumBits) bits.length v

/-- `Mnemonic::CreateMnemonic` (Mnemonic.cpp:8-54). -/
def createMnemonic (H : Bytes → Bytes) (W : List Bytes) (entropy : Bytes) : Res Bytes := do
  let is ← wordIndices H entropy
  let words ← spell W is
  return join 32 words

/-- Looking the words up (Mnemonic.cpp:66-84). -/
def findWords (W : List Bytes) : List Bytes → Res (List Nat)
  | [] => .ok []
  | w :: ws =>
    match W.findIdx? (· == w) with
    | none => .throw
    | some i => do
      let rest ← findWords W ws
      return i :: rest

/-- Where bit number `loc`, counted from the end, goes in the entropy (Mnemonic.cpp:102); a byte index
below zero wraps and lies past the end. -/
def bytePlace (dataLength loc : Nat) : Nat × Nat :=
  (if loc / 8 ≤ dataLength then dataLength - loc / 8 else dataLength + 1, loc % 8)

/-- The entropy and the checksum in the words (Mnemonic.cpp:86-105). -/
def entropyOf (is : List Nat) : Res (List Nat × Nat) := do
  let numWords := is.length
  let checksumBits := numWords / 3
  let last := is.getLastD 0
  let expected := (last % 256) &&& (2 ^ checksumBits - 1)
  let dataLength := (11 * numWords - checksumBits) / 8 - 1
  let start := (List.replicate (dataLength + 1) 0).set dataLength ((last >>> checksumBits) % 256)
  let bits := is.dropLast.reverse.flatMap fun w => (topBits w 11).reverse
  let e ← orBits (bytePlace dataLength) bits (11 - checksumBits) start
  return (e, expected)

/-- `Mnemonic::ToEntropy` (Mnemonic.cpp:56-114); the string is read up to its first NUL. -/
def toEntropy (H : Bytes → Bytes) (W : List Bytes) (s : Bytes) : Res Bytes := do
  let words := split 32 (trim (cstr s))
  if words.length < 12 ∨ words.length > 24 ∨ words.length % 3 ≠ 0 then .throw
  else do
    let is ← findWords W words
    let r ← entropyOf is
    let e : Bytes := r.1.map UInt8.ofNat
    let actual ← seedChecksum H e (words.length / 3)
    if actual ≠ r.2 then .throw else return e

end Verif.Codec
