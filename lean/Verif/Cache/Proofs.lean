import Verif.Cache.Cache
import Verif.Base.Bytes

/-!
# Batch verification of range proofs

Model of `Bulletproofs::VerifyBulletproofs` (src/Crypto/Bulletproofs.cpp:33-84) and of `BulletProofsCache`
(src/Crypto/BulletProofsCache.h).  The locks are not modelled: each call is one step.
-/
namespace Verif.Cache

variable {C : Type} [DecidableEq C]

/-- `BulletProofsCache::BulletProofsCache` (BulletProofsCache.h:10-14). -/
def freshProofs : Cache C C := create .lru 3000

/-- `BulletProofsCache::WasAlreadyVerified` (BulletProofsCache.h:23-33). -/
def wasVerified (c : Cache C C) (k : C) : Res (Cache C C × Bool) :=
  if cached c k then do
    let r ← fetch c k
    .ok (r.1, decide (r.2 = k))
  else .ok (c, false)

/-- The loop that picks what has to be verified (Bulletproofs.cpp:45-52). -/
def pick (c : Cache C C) : List (C × Bytes) → Res (Cache C C × List (C × Bytes))
  | [] => .ok (c, [])
  | p :: l => do
    let r ← wasVerified c p.1
    let s ← pick r.1 l
    .ok (s.1, if r.2 then s.2 else p :: s.2)

/-- The loop of `AddToCache` (Bulletproofs.cpp:78-81, BulletProofsCache.h:16-21). -/
def addProven (c : Cache C C) : List (C × Bytes) → Res (Cache C C)
  | [] => .ok c
  | p :: l => do
    let c ← put c p.1 p.1
    addProven c l

/-- What is used of libsecp256k1-zkp: whether a commitment parses (`ConvertCommitments` throws otherwise) and
`secp256k1_bulletproof_rangeproof_verify_multi` on commitments and the bytes read of their proofs. -/
structure ProofLib (C : Type) where
  parses : C → Bool
  multi : List (C × Bytes) → Bool

/-- `Bulletproofs::VerifyBulletproofs` (Bulletproofs.cpp:33-84): the result is `none` for an exception.  `front` of an empty vector is
undefined; the library reads `proofLength` bytes, the length of the first proof, from each of the proofs, past the end of a
shorter one. -/
def verifyProofs (lib : ProofLib C) (c : Cache C C) (l : List (C × Bytes)) : Res (Cache C C × Option Bool) :=
  match l with
  | [] => .ub
  | p :: _ => do
    let proofLength := p.2.length
    let r ← pick c l
    if r.2 = [] then .ok (r.1, some true)
    else if r.2.any (fun q => !lib.parses q.1) then .ok (r.1, none)
    else if r.2.any (fun q => q.2.length < proofLength) then .ub
    else if lib.multi (r.2.map (fun q => (q.1, q.2.take proofLength))) then do
      let c' ← addProven r.1 r.2
      .ok (c', some true)
    else .ok (r.1, some false)

/-- A history of calls, and the result of each. -/
def verifyAll (lib : ProofLib C) (c : Cache C C) : List (List (C × Bytes)) → Res (Cache C C × List (Option Bool))
  | [] => .ok (c, [])
  | l :: ls => do
    let r ← verifyProofs lib c l
    let s ← verifyAll lib r.1 ls
    .ok (s.1, r.2 :: s.2)

end Verif.Cache
