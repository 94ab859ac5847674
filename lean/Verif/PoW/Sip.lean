import Verif.Tx.Compact
import Verif.PoW.Difficulty

/-!
# SipHash: of a message (short ids), of a nonce (the graphs of the proof of work)

Model of `src/Crypto/ThirdParty/siphash.h`, `Hasher::SipHash24`, `src/PoW/Common.h` and of the endpoints in
`src/PoW/Cuckatoo.cpp`, `Cuckaroo.cpp`, `Cuckarood.cpp`, `Cuckaroom.cpp`, `Cuckarooz.cpp`.  Words are read from memory as on
the little-endian machines the node is built for.
-/
namespace Verif.PoW

open Verif Verif.Tx

/-- The four words of the state (siphash.h:64-70; `siphash_state`, Common.h:49-52; `siphash_keys`, Common.h:31-34). -/
structure Sip where
  v0 : UInt64
  v1 : UInt64
  v2 : UInt64
  v3 : UInt64
deriving DecidableEq, Repr

/-- `SIPHASH_BIT_ROTL` (siphash.h:34), `siphash_state::rotl` (Common.h:69-72). -/
def rotl (x b : UInt64) : UInt64 := x <<< b ||| x >>> (64 - b)

/-- `SIPHASH_ROUND` (siphash.h:36-51), where `rotE` is 21, and `siphash_state::sip_round` (Common.h:73-80); line by line. -/
def Sip.round (rotE : UInt64) (s : Sip) : Sip :=
  let v0 := s.v0 + s.v1
  let v2 := s.v2 + s.v3
  let v1 := rotl s.v1 13
  let v3 := rotl s.v3 16
  let v1 := v1 ^^^ v0
  let v3 := v3 ^^^ v2
  let v0 := rotl v0 32
  let v2 := v2 + v1
  let v0 := v0 + v3
  let v1 := rotl v1 17
  let v3 := rotl v3 rotE
  let v1 := v1 ^^^ v2
  let v3 := v3 ^^^ v0
  let v2 := rotl v2 32
  ⟨v0, v1, v2, v3⟩

/-- `for (k = 0; k < n; k++) SIPHASH_ROUND` (siphash.h:81-83, 102-104, 111-113). -/
def Sip.rounds (rotE : UInt64) : Nat → Sip → Sip
  | 0, s => s
  | n + 1, s => Sip.rounds rotE n (s.round rotE)

/-- `*(uint64_t*)(ptr + i)` on a little-endian machine. -/
def word64 (bs : Bytes) (i : Nat) : UInt64 := UInt64.ofNat (beVal ((bs.drop i).take 8).reverse)

/-- The body of the loop over the words (siphash.h:77-85), and siphash.h:100-105. -/
def Sip.absorb (rblk : Nat) (s : Sip) (mi : UInt64) : Sip :=
  let s := Sip.rounds 21 rblk { s with v3 := s.v3 ^^^ mi }
  { s with v0 := s.v0 ^^^ mi }

/-- The `switch` (siphash.h:91-99), entered at `case n`: falls through to `case 1`. -/
def tailWord (ptr : Bytes) : Nat → UInt64 → UInt64
  | 0, mi => mi
  | n + 1, mi => tailWord ptr n (mi ||| (ptr.getD n 0).toUInt64 <<< UInt64.ofNat (8 * n))

/-- `siphash` (siphash.h:53-116). -/
def siphash (rblk rfin : Nat) (k0 k1 : UInt64) (src : Bytes) : UInt64 :=
  let len := src.length
  let init : Sip := ⟨k0 ^^^ 0x736f6d6570736575, k1 ^^^ 0x646f72616e646f6d, k0 ^^^ 0x6c7967656e657261, k1 ^^^ 0x7465646279746573⟩
  let s := (List.range (len / 8)).foldl (fun s i => Sip.absorb rblk s (word64 src (8 * i))) init
  let i := 8 * (len / 8)
  let mi := tailWord (src.drop i) (len - i) (UInt64.ofNat len <<< 56)
  let s := Sip.absorb rblk s mi
  let s := Sip.rounds 21 rfin { s with v2 := s.v2 ^^^ 0xff }
  s.v0 ^^^ s.v1 ^^^ s.v2 ^^^ s.v3

/-- `Hasher::SipHash24` (Hasher.cpp:115-120), `siphash24` (siphash.h:121), between numbers below `2 ^ 64`. -/
def sipHash24 (k0 k1 : Nat) (data : Bytes) : Nat := (siphash 2 4 (UInt64.ofNat k0) (UInt64.ofNat k1) data).toNat

/-! ## The graphs of the proof of work -/

/-- `siphash_keys(keybuf)` (Common.h:36-42). -/
def sipKeys (keybuf : Bytes) : Sip := ⟨word64 keybuf 0, word64 keybuf 8, word64 keybuf 16, word64 keybuf 24⟩

/-- `siphash_state::hash24` (Common.h:81-88). -/
def Sip.hash24 (rotE : UInt64) (s : Sip) (nonce : UInt64) : Sip :=
  let s := { s with v3 := s.v3 ^^^ nonce }
  let s := (s.round rotE).round rotE
  let s := { s with v0 := s.v0 ^^^ nonce, v2 := s.v2 ^^^ 0xff }
  (((s.round rotE).round rotE).round rotE).round rotE

/-- `siphash_state::xor_lanes` (Common.h:58-61). -/
def Sip.lanes (s : Sip) : UInt64 := s.v0 ^^^ s.v1 ^^^ (s.v2 ^^^ s.v3)

/-- The loop that fills the buffer (Common.h:98-102, Cuckaroom.cpp:25-29, Cuckarooz.cpp:23-27) from index `i` on, `n` entries:
the state is kept from one entry to the next. -/
def fillBlock (rotE edge0 : UInt64) : Nat → Nat → Sip → List UInt64
  | 0, _, _ => []
  | n + 1, i, s =>
    let s := s.hash24 rotE (edge0 + UInt64.ofNat i)
    s.lanes :: fillBlock rotE edge0 n (i + 1) s

/-- `for (i = 0; i < EDGE_BLOCK_MASK; i++) buf[i] ^= last` (Common.h:104-108). -/
def xorLast (buf : List UInt64) : List UInt64 :=
  let last := buf.getD 63 0
  (List.range 63).foldl (fun buf i => buf.set i (buf.getD i 0 ^^^ last)) buf

/-- `for (i = EDGE_BLOCK_MASK; i; i--) buf[i - 1] ^= buf[i]` (Cuckaroom.cpp:31-34, Cuckarooz.cpp:29-32). -/
def xorDown : Nat → List UInt64 → List UInt64
  | 0, buf => buf
  | i + 1, buf => xorDown i (buf.set i (buf.getD i 0 ^^^ buf.getD (i + 1) 0))

/-- `sipblock<rotE>` (Common.h:93-111). -/
def sipblock (rotE : UInt64) (keys : Sip) (edge : UInt64) : UInt64 :=
  (xorLast (fillBlock rotE (edge &&& ~~~63) 64 0 keys)).getD (edge &&& 63).toNat 0

/-- `cuckaroom_sipblock` (Cuckaroom.cpp:20-37) and `cuckarooz_sipblock` (Cuckarooz.cpp:19-35). -/
def sipblockAll (keys : Sip) (edge : UInt64) : UInt64 :=
  (xorDown 63 (fillBlock 21 (edge &&& ~~~63) 64 0 keys)).getD (edge &&& 63).toNat 0

/-- `sipnode` (Cuckatoo.cpp:7-12). -/
def sipnode (keys : Sip) (edge uorv mask : UInt64) : UInt64 := (keys.hash24 21 (2 * edge + uorv)).lanes &&& mask

/-- The two halves of the hash of an edge, as in `edge & mask`, `(edge >> 32) & mask`. -/
def halves (edge mask : UInt64) : Nat × Nat := ((edge &&& mask).toNat, (edge >>> 32 &&& mask).toNat)

/-- `((word_t)1 << edgeBits) - 1` (Cuckatoo.cpp:21-24, Cuckaroo.cpp:14-17). -/
def edgeMask (edgeBits : Nat) : UInt64 := (1 : UInt64) <<< UInt64.ofNat edgeBits - 1

/-- The endpoints of an edge: Cuckatoo.cpp:36-37, Cuckaroo.cpp:29-31, Cuckarood.cpp:33-36 (with `NODE1MASK`, `EDGEBITS` 29),
Cuckaroom.cpp:56-58, Cuckarooz.cpp:54-56 (with `NODEMASK`). -/
def edgeEnds (family : Family) (edgeBits : Nat) (keys : Sip) (e : UInt64) : Nat × Nat :=
  match family with
  | .cuckatoo => ((sipnode keys e 0 (edgeMask edgeBits)).toNat, (sipnode keys e 1 (edgeMask edgeBits)).toNat)
  | .cuckaroo => halves (sipblock 21 keys e) (edgeMask edgeBits)
  | .cuckarood => halves (sipblock 25 keys e) ((1 : UInt64) <<< 29 / 2 - 1)
  | .cuckaroom => halves (sipblockAll keys e) ((1 : UInt64) <<< 29 - 1)
  | .cuckarooz => halves (sipblockAll keys e) ((2 : UInt64) * (1 : UInt64) <<< 29 - 1)

/-- The endpoints used by `Validate` of the five families (Cuckatoo.cpp:82-84, Cuckaroo.cpp:74-76, Cuckarood.cpp:67-69,
Cuckaroom.cpp:91-93, Cuckarooz.cpp:99-101): the keys are the hash `B` (Blake2b) of the header without its proof. -/
def sipEnds (B : Bytes → Bytes) (family : Family) (h : Header) (e : Nat) : Nat × Nat :=
  edgeEnds family h.pow.edgeBits (sipKeys (B (headerPre h))) (UInt64.ofNat e)

/-- The functions of compact blocks, with SipHash as it is. -/
def compactHashes (H : DigestNum) (B : Bytes → Bytes) (blockHash : Header → Bytes) : Hashes := ⟨H, B, sipHash24, blockHash⟩

end Verif.PoW
