import Verif.Codec.Hex
import Verif.Ser.Reads

/-!
# Key-chain paths

Model of `include/Wallet/KeyChainPath.h` and `include/Crypto/Models/ProofMessage.h`.  A path is the list of
its 32-bit indices.
-/
namespace Verif.Codec

/-- `std::to_string` of an unsigned number. -/
def decStr (n : Nat) : Bytes :=
  if n < 10 then [UInt8.ofNat (48 + n)] else decStr (n / 10) ++ [UInt8.ofNat (48 + n % 10)]

/-- `KeyChainPath::Format` (KeyChainPath.h:32-41). -/
def formatPath (p : List Nat) : Bytes := str "m" ++ p.flatMap fun i => str "/" ++ decStr i

/-- `std::isdigit`. -/
def isDigit (c : UInt8) : Bool := 48 ≤ c && c ≤ 57

/-- The number written by decimal digits. -/
def decVal (s : Bytes) : Nat := s.foldl (fun a c => 10 * a + (c.toNat - 48)) 0

/-- `std::stoi(s, &sz)`, base 10: the value and the number of characters used.  White space and a sign
may precede the digits; without digits and outside `int` it throws. -/
def stoi (s : Bytes) : Res (Int × Nat) :=
  let ws := (s.takeWhile isSpace).length
  let s1 := s.dropWhile isSpace
  let neg := s1.head? = some 45
  let sign := if s1.head? = some 45 ∨ s1.head? = some 43 then 1 else 0
  let digits := (s1.drop sign).takeWhile isDigit
  if digits = [] then .throw
  else
    let v : Int := if neg then -(decVal digits : Int) else decVal digits
    if v < -(2 ^ 31) ∨ v ≥ 2 ^ 31 then .throw else .ok (v, ws + sign + digits.length)

/-- The loop of `KeyChainPath::FromString` (KeyChainPath.h:104-118).  Each round shortens the string, so
fuel equal to its length suffices. -/
def parsePath : Nat → Bytes → Res (List Nat)
  | 0, s => if s.length ≥ 2 then .ub else .ok []
  | fuel + 1, s =>
    if s.length ≥ 2 then
      if s.head? ≠ some 47 then .throw
      else do
        let r ← stoi (s.drop 1)
        let rest ← parsePath fuel ((s.drop 1).drop r.2)
        return (r.1 % 2 ^ 32).toNat :: rest
    else .ok []

/-- `KeyChainPath::FromString` (KeyChainPath.h:95-121). -/
def pathFromString (s : Bytes) : Res (List Nat) :=
  if s.head? ≠ some 109 then .throw else parsePath s.length (s.drop 1)

/-- `KeyChainPath::ToHex` (KeyChainPath.h:62-72). -/
def pathToHex (p : List Nat) : Bytes :=
  toHex (beBytes 1 (p.length % 256) ++ (beBytes 4 (p.getD 0 0) ++ (beBytes 4 (p.getD 1 0) ++
    (beBytes 4 (p.getD 2 0) ++ beBytes 4 (p.getD 3 0)))))

/-- The reading part of `KeyChainPath::FromHex` (KeyChainPath.h:48-57). -/
def readPath : Parser (List Nat) := do
  let n ← readBE 1
  if n > 4 then Parser.fail else readMany (readBE 4) n

/-- `KeyChainPath::FromHex` (KeyChainPath.h:43-60). -/
def pathFromHex (s : Bytes) : Res (List Nat) := do
  let bs ← fromHex s
  let r ← readPath ⟨bs, 0⟩
  return r.1

/-- `EBulletproofType` (BulletproofType.h). -/
inductive ProofType
  | original
  | enhanced
deriving DecidableEq, Repr

/-- `ProofMessage::FromKeyIndices` (ProofMessage.h:13-33): more than four indices are written past the end
of the 20 bytes. -/
def proofMessage (p : List Nat) (t : ProofType) : Res Bytes :=
  if p.length > 4 then .ub
  else
    let head : Bytes := match t with
      | .enhanced => [0, 0, 1, UInt8.ofNat p.length]
      | .original => [0, 0, 0, 0]
    .ok (head ++ serMany (beBytes 4) p ++ List.replicate (16 - 4 * p.length) 0)

/-- `ProofMessage::ToKeyIndices` (ProofMessage.h:35-63) as a reader of the 20 bytes. -/
def readProofMessage (t : ProofType) : Parser (List Nat) := do
  let length ← match t with
    | .enhanced => (do
        let _ ← readBE 1
        let _ ← readBE 1
        let _ ← readBE 1
        readBE 1 : Parser Nat)
    | .original => (do
        let first ← readBE 4
        if first ≠ 0 then Parser.fail else pure 3)
  readMany (readBE 4) (if length = 0 then 3 else length)

/-- `ProofMessage::ToKeyIndices` (ProofMessage.h:35-63). -/
def proofIndices (bs : Bytes) (t : ProofType) : Res (List Nat) := do
  let r ← readProofMessage t ⟨bs, 0⟩
  return r.1

end Verif.Codec
