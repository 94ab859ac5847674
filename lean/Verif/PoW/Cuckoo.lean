import Verif.Ser.Pow

/-!
# Verification of cuckoo cycles

Model of `src/PoW/{Cuckatoo,Cuckaroo,Cuckarood,Cuckaroom,Cuckarooz}.cpp`.  The siphash of an edge nonce
(`src/PoW/Common.h:45-111`) is the parameter `ends`, which gives the two (masked) endpoints of an edge.
-/
namespace Verif.PoW

open Verif

/-- `verify_code` (Common.h:17), without the unused header-length code. -/
inductive Code
  | ok | tooBig | tooSmall | nonMatching | branch | deadEnd | shortCycle | unbalanced
deriving DecidableEq, Repr

/-- The first loop of the verifiers: every nonce must fit the mask and exceed the one before; else the code of
the first offence (Cuckatoo.cpp:26-38, Cuckaroo.cpp:19-32, Cuckaroom.cpp:46-60, Cuckarooz.cpp:44-57). -/
def readEdges (mask : Nat) (ends : Nat → Nat × Nat) : Option Nat → List Nat → Except Code (List (Nat × Nat))
  | _, [] => .ok []
  | prev, e :: es =>
    if e > mask then .error .tooBig
    else if prev.any (fun p => e ≤ p) then .error .tooSmall
    else
      match readEdges mask ends (some e) es with
      | .ok rest => .ok (ends e :: rest)
      | .error c => .error c

/-- The array `uvs`: entry `2n` and `2n + 1` are the endpoints of the `n`-th edge. -/
def endpoint (uvs : List (Nat × Nat)) (i : Nat) : Nat :=
  if i % 2 = 0 then (uvs.getD (i / 2) (0, 0)).1 else (uvs.getD (i / 2) (0, 0)).2

/-- `x ^= ...` over a list. -/
def xorAll (l : List Nat) : Nat := l.foldl (· ^^^ ·) 0

/-- `for (k = j = i; (k = (k + stride) % (2 * PROOFSIZE)) != i; )` (Cuckatoo.cpp:49, Cuckaroo.cpp:42,
Cuckarooz.cpp:67): the indices visited, `total = 2 * PROOFSIZE`. -/
def scanOrder (total stride i : Nat) : List Nat :=
  (List.range (total / stride - 1)).map fun t => (i + stride * (t + 1)) % total

/-- The body of that loop (Cuckatoo.cpp:49-60): `none` for a branch, else the last `j`. -/
def scan (same : Nat → Bool) (i : Nat) : List Nat → Nat → Option Nat
  | [], j => some j
  | k :: ks, j =>
    if same k then (if j ≠ i then none else scan same i ks k) else scan same i ks j

/-- One round of the outer loop (Cuckatoo.cpp:48-67): the next `i` or an error code.  `bad i j` is the extra
condition `uvs[j] == uvs[i]` of Cuckatoo.cpp:62. -/
def followStep (order : Nat → List Nat) (same : Nat → Nat → Bool) (bad : Nat → Nat → Bool) (i : Nat) :
    Except Code Nat :=
  match scan (same i) i (order i) i with
  | none => .error .branch
  | some j => if j = i || bad i j then .error .deadEnd else .ok (j ^^^ 1)

/-- The outer `do … while (i != 0)` loop (Cuckatoo.cpp:45-71, Cuckaroo.cpp:39-63, Cuckarood.cpp:42-55, Cuckarooz.cpp:64-87) with the final test of the length.  There are
fewer than `fuel` states, so running out of fuel means that the loop does not end. -/
def walk (len : Nat) (step : Nat → Except Code Nat) : Nat → Nat → Nat → Res Code
  | 0, _, _ => .ub
  | fuel + 1, i, n =>
    match step i with
    | .error c => .ok c
    | .ok i' => if i' = 0 then .ok (if n + 1 = len then .ok else .shortCycle) else walk len step fuel i' (n + 1)

/-- `verify_cuckatoo` (Cuckatoo.cpp:15-72) for cycles of `len` edges (42 in the code). -/
def verifyCuckatooLen (len : Nat) (ends : Nat → Nat × Nat) (edgeBits : Nat) (edges : List Nat) : Res Code :=
  match readEdges (2 ^ edgeBits - 1) ends none edges with
  | .error c => .ok c
  | .ok uvs =>
    let start := len / 2 &&& 1
    if (start ^^^ xorAll (uvs.map (·.1))) ||| (start ^^^ xorAll (uvs.map (·.2))) ≠ 0 then .ok .nonMatching
    else walk len (followStep (scanOrder (2 * len) 2)
      (fun i k => endpoint uvs k >>> 1 == endpoint uvs i >>> 1)
      (fun i j => endpoint uvs j == endpoint uvs i)) (2 * len + 1) 0 0

/-- `verify_cuckaroo` (Cuckaroo.cpp:7-64). -/
def verifyCuckarooLen (len : Nat) (ends : Nat → Nat × Nat) (edgeBits : Nat) (edges : List Nat) : Res Code :=
  match readEdges (2 ^ edgeBits - 1) ends none edges with
  | .error c => .ok c
  | .ok uvs =>
    if xorAll (uvs.map (·.1)) ||| xorAll (uvs.map (·.2)) ≠ 0 then .ok .nonMatching
    else walk len (followStep (scanOrder (2 * len) 2)
      (fun i k => endpoint uvs k == endpoint uvs i) (fun _ _ => false)) (2 * len + 1) 0 0

/-- `verify_cuckarooz` (Cuckarooz.cpp:38-88); the graph is not bipartite, all endpoints are compared. -/
def verifyCuckaroozLen (len : Nat) (ends : Nat → Nat × Nat) (edges : List Nat) : Res Code :=
  match readEdges (2 ^ 29 - 1) ends none edges with
  | .error c => .ok c
  | .ok uvs =>
    if xorAll (uvs.map (·.1)) ^^^ xorAll (uvs.map (·.2)) ≠ 0 then .ok .nonMatching
    else walk len (followStep (scanOrder (2 * len) 1)
      (fun i k => endpoint uvs k == endpoint uvs i) (fun _ _ => false)) (2 * len + 1) 0 0

/-- The search for the next edge (Cuckaroom.cpp:72-75): the first edge leaving the node that `node` is. -/
def firstFrom (uvs : List (Nat × Nat)) (node : Nat) : Option Nat := uvs.findIdx? fun p => p.1 == node

/-- The loop of `verify_cuckaroom` (Cuckaroom.cpp:67-79); `visited` is the list of flags set. -/
def walkDirected (len : Nat) (uvs : List (Nat × Nat)) : Nat → List Nat → Nat → Nat → Res Code
  | 0, _, _, _ => .ub
  | fuel + 1, visited, i, n =>
    if i ∈ visited then .ok .branch
    else
      match firstFrom uvs (uvs.getD i (0, 0)).2 with
      | none => .ok .deadEnd
      | some i' =>
        if i' = 0 then .ok (if n + 1 = len then .ok else .shortCycle)
        else walkDirected len uvs fuel (i :: visited) i' (n + 1)

/-- `verify_cuckaroom` (Cuckaroom.cpp:40-80); an edge goes from its first endpoint to its second. -/
def verifyCuckaroomLen (len : Nat) (ends : Nat → Nat × Nat) (edges : List Nat) : Res Code :=
  match readEdges (2 ^ 29 - 1) ends none edges with
  | .error c => .ok c
  | .ok uvs =>
    if xorAll (uvs.map (·.1)) ≠ xorAll (uvs.map (·.2)) then .ok .nonMatching
    else walkDirected len uvs (len + 1) [] 0 0

/-- The first loop of `verify_cuckarood` (Cuckarood.cpp:25-39): the edges with even and those with odd nonce, in
order; at most half of each. -/
def readDirected (half : Nat) (ends : Nat → Nat × Nat) : Option Nat → List Nat → List (Nat × Nat) × List (Nat × Nat) →
    Except Code (List (Nat × Nat) × List (Nat × Nat))
  | _, [], acc => .ok acc
  | prev, e :: es, acc =>
    if (if e % 2 = 0 then acc.1.length else acc.2.length) ≥ half then .error .unbalanced
    else if e ≥ 2 ^ 29 then .error .tooBig
    else if prev.any (fun p => e ≤ p) then .error .tooSmall
    else readDirected half ends (some e) es
      (if e % 2 = 0 then (acc.1 ++ [ends e], acc.2) else (acc.1, acc.2 ++ [ends e]))

/-- Entry `i` of `uvs` in `verify_cuckarood`: position `4 n + 2 dir + side` (Cuckarood.cpp:34-36). -/
def endpointD (uvs : List (Nat × Nat) × List (Nat × Nat)) (i : Nat) : Nat :=
  let p := if i / 2 % 2 = 0 then uvs.1.getD (i / 4) (0, 0) else uvs.2.getD (i / 4) (0, 0)
  if i % 2 = 0 then p.1 else p.2

/-- `for (k = ((j = i) % 4) ^ 2; k < 2 * PROOFSIZE; k += 4)` (Cuckarood.cpp:44): the same side of the edges in
the other direction. -/
def scanOther (total i : Nat) : List Nat :=
  (List.range total).filter fun k => k % 4 = i % 4 ^^^ 2

/-- `verify_cuckarood` (Cuckarood.cpp:18-56). -/
def verifyCuckaroodLen (len : Nat) (ends : Nat → Nat × Nat) (edges : List Nat) : Res Code :=
  match readDirected (len / 2) ends none edges ([], []) with
  | .error c => .ok c
  | .ok uvs =>
    if xorAll ((uvs.1 ++ uvs.2).map (·.1)) ||| xorAll ((uvs.1 ++ uvs.2).map (·.2)) ≠ 0 then .ok .nonMatching
    else walk len (followStep (scanOther (2 * len))
      (fun i k => endpointD uvs k == endpointD uvs i) (fun _ _ => false)) (2 * len + 1) 0 0

/-- The verifiers, for 42 edges; a proof of another length is refused before (e.g. Cuckatoo.cpp:78-80). -/
def verifyProof (verify : Nat → List Nat → Res Code) (edges : List Nat) : Res Bool :=
  if edges.length ≠ PROOFSIZE then .ok false
  else do
    let c ← verify PROOFSIZE edges
    return c = .ok

end Verif.PoW
