import Verif.Ser.ByteBuffer

/-!
# `ProofOfWork`: packing of the cycle nonces

Model of `src/Core/Models/ProofOfWork.cpp`.  Blake2b is the parameter `H`.
-/
namespace Verif

/-- `Consensus::PROOFSIZE` (include/Consensus.h:207). -/
def PROOFSIZE : Nat := 42

/-- `bits[p / 8] |= (uint8_t)(1 << (p % 8))` (ProofOfWork.cpp:39-41); an index past the vector is
undefined behaviour. -/
def setPackedBit (bits : Bytes) (p : Nat) : Res Bytes :=
  match bits[p / 8]? with
  | none => .ub
  | some b => .ok (bits.set (p / 8) (b ||| UInt8.ofNat (1 <<< (p % 8))))

/-- The inner loop over `bit` of `SerializeCycle` for one nonce (ProofOfWork.cpp:34-43).  Shifting
a 64-bit one by 64 or more is undefined behaviour. -/
def packNonce (eb n nonce : Nat) (bits : Bytes) : Res Bytes :=
  (List.range eb).foldlM (fun bits bit =>
    if bit ≥ 64 then .ub
    else if nonce &&& (1 <<< bit) ≠ 0 then setPackedBit bits (n * eb + bit)
    else .ok bits) bits

/-- The outer loop over the nonces, starting with nonce number `n` (ProofOfWork.cpp:32-44). -/
def packFrom (eb : Nat) : Nat → List Nat → Bytes → Res Bytes
  | _, [], bits => .ok bits
  | n, x :: xs, bits => packNonce eb n x bits >>= packFrom eb (n + 1) xs

/-- `bytes_len = ((edgeBits * PROOFSIZE) + 7) / 8` (ProofOfWork.cpp:30 and 53). -/
def cycleBytes (eb : Nat) : Nat := (eb * PROOFSIZE + 7) / 8

/-- `ProofOfWork::SerializeCycle` (ProofOfWork.cpp:28-47). -/
def serCycle (eb : Nat) (nonces : List Nat) : Res Bytes :=
  packFrom eb 0 nonces (List.replicate (cycleBytes eb) 0)

/-- One nonce read back: the inner loop of `DeserializeProofNonces` (ProofOfWork.cpp:96-107).  The
cast `(uint8_t)positionTemp % 8` reduces mod 256 first. -/
def unpackNonce (bits : Bytes) (eb n : Nat) : Res Nat :=
  (List.range eb).foldlM (fun acc bit =>
    let p := n * eb + bit
    match bits[p / 8]? with
    | none => .ub
    | some b =>
      .ok (if b.toNat &&& (1 <<< ((p % 256) % 8)) ≠ 0 then acc ||| (1 <<< bit) else acc)) 0

/-- `ProofOfWork::DeserializeProofNonces` (ProofOfWork.cpp:62-111). -/
def unpackNonces (bits : Bytes) (eb : Nat) : Res (List Nat) :=
  if eb = 0 ∨ eb > 63 then .throw
  else (List.range PROOFSIZE).mapM (unpackNonce bits eb)

/-- `ProofOfWork` (ProofOfWork.h:55-57): edge bits, nonces and the cached hash. -/
structure Pow where
  edgeBits : Nat
  nonces : List Nat
  hash : Bytes
deriving DecidableEq, Repr

/-- Lift a computation on values into the parser. -/
def Parser.lift {α : Type} (r : Res α) : Parser α := fun b => r >>= fun a => .ok (a, b)

/-- `ProofOfWork::Deserialize` (ProofOfWork.cpp:49-60): the hash is taken over the raw bytes. -/
def powDeser (H : Bytes → Bytes) : Parser Pow := do
  let eb ← readBE 1
  let bits ← readBytes (cycleBytes eb)
  let nonces ← Parser.lift (unpackNonces bits eb)
  return { edgeBits := eb, nonces := nonces, hash := H bits }

/-- `ProofOfWork::Serialize` (ProofOfWork.cpp:22-26). -/
def powSer (p : Pow) : Res Bytes := do
  let c ← serCycle p.edgeBits p.nonces
  return beBytes 1 p.edgeBits ++ c

/-- `ProofOfWork(edgeBits, proofNonces)` (ProofOfWork.cpp:5-12): the hash is taken over the packed
cycle. -/
def powMake (H : Bytes → Bytes) (eb : Nat) (nonces : List Nat) : Res Pow := do
  let c ← serCycle eb nonces
  return { edgeBits := eb, nonces := nonces, hash := H c }

end Verif
