import Verif.Base.Outcome
import Verif.PoW.Difficulty

/-!
# The 128-bit unsigned integers used to compute the maximum difficulty of a proof

`src/PoW/uint128.h`, `src/PoW/uint128.cpp` and their one user, `src/PoW/PoWValidator.cpp`.
The machine's `uint64_t` is `UInt64`; its operations wrap as the code's do.
-/

namespace Verif.PoW

/-- `uint128_t` (uint128.h:54-56): two words. -/
structure U128 where
  upper : UInt64
  lower : UInt64
deriving DecidableEq, Repr

namespace U128

/-- `uint128_0` (uint128.cpp:3). -/
def zero : U128 := ⟨0, 0⟩
/-- `uint128_1` (uint128.cpp:4). -/
def one : U128 := ⟨0, 1⟩

/-- The constructor from an unsigned word (uint128.h:64-67). Signed arguments are not modelled: the one
user passes unsigned ones only. -/
def ofWord (w : UInt64) : U128 := ⟨0, w⟩

/-- `operator bool` (uint128.cpp:39-41). -/
def toBool (a : U128) : Bool := (a.upper ||| a.lower) != 0

/-- `operator uint64_t` (uint128.cpp:55-57). -/
def toWord (a : U128) : UInt64 := a.lower

/-- `operator&` with a word (uint128.h:96-99): the upper half of the result is zero. -/
def andWord (a : U128) (w : UInt64) : U128 := ⟨0, a.lower &&& w⟩

/-- `operator==` (uint128.cpp:159-161). -/
def eq (a b : U128) : Bool := a.upper == b.upper && a.lower == b.lower

/-- `operator<` (uint128.cpp:174-179). -/
def lt (a b : U128) : Bool :=
  if a.upper == b.upper then decide (a.lower < b.lower) else decide (a.upper < b.upper)

/-- `operator>` (uint128.cpp:167-172). -/
def gt (a b : U128) : Bool :=
  if a.upper == b.upper then decide (a.lower > b.lower) else decide (a.upper > b.upper)

/-- `operator>=` (uint128.cpp:181-183). -/
def ge (a b : U128) : Bool := gt a b || eq a b

/-- `operator<=` (uint128.cpp:185-187). -/
def le (a b : U128) : Bool := lt a b || eq a b

/-- `operator<` with a word (uint128.h:212-215). -/
def ltWord (a : U128) (w : UInt64) : Bool := if a.upper == 0 then decide (a.lower < w) else false

/-- A comparison's value as a number (the conversion of `bool` in uint128.cpp:190, 200). -/
def bit (b : Bool) : UInt64 := if b then 1 else 0

/-- `operator+` and `operator+=` (uint128.cpp:189-197). -/
def add (a b : U128) : U128 :=
  ⟨a.upper + b.upper + bit (decide (a.lower + b.lower < a.lower)), a.lower + b.lower⟩

/-- `operator-` and `operator-=` (uint128.cpp:199-206). -/
def sub (a b : U128) : U128 :=
  ⟨a.upper - b.upper - bit (decide (a.lower - b.lower > a.lower)), a.lower - b.lower⟩

/-- `operator++` (uint128.cpp:309-311). -/
def incr (a : U128) : U128 := add a one

/-- `operator--` (uint128.cpp:319-321). -/
def decr (a : U128) : U128 := sub a one

/-- `operator~` (uint128.cpp:89-91). -/
def not (a : U128) : U128 := ⟨~~~ a.upper, ~~~ a.lower⟩

/-- Unary `operator-` (uint128.cpp:333-335). -/
def neg (a : U128) : U128 := add (not a) one

/-- `operator<<` (uint128.cpp:93-113); its last branch cannot be reached. -/
def shl (a s : U128) : U128 :=
  let shift := s.lower
  if s.upper != 0 || decide (shift ≥ 128) then zero
  else if shift == 64 then ⟨a.lower, 0⟩
  else if shift == 0 then a
  else if shift < 64 then ⟨(a.upper <<< shift) + (a.lower >>> (64 - shift)), a.lower <<< shift⟩
  else if 128 > shift && shift > 64 then ⟨a.lower <<< (shift - 64), 0⟩
  else zero

/-- `operator>>` (uint128.cpp:120-140). -/
def shr (a s : U128) : U128 :=
  let shift := s.lower
  if s.upper != 0 || decide (shift ≥ 128) then zero
  else if shift == 64 then ⟨0, a.upper⟩
  else if shift == 0 then a
  else if shift < 64 then ⟨a.upper >>> shift, (a.upper <<< (64 - shift)) + (a.lower >>> shift)⟩
  else if 128 > shift && shift > 64 then ⟨0, a.upper >>> (shift - 64)⟩
  else zero

/-- `operator*` (uint128.cpp:208-252): schoolbook on four digits of 32 bits; `p i j` is `products[i][j]`. -/
def mul (a b : U128) : U128 :=
  let m : UInt64 := 0xffffffff
  let top : Fin 4 → UInt64 := fun i =>
    match i with
    | 0 => a.upper >>> 32 | 1 => a.upper &&& m | 2 => a.lower >>> 32 | 3 => a.lower &&& m
  let bottom : Fin 4 → UInt64 := fun i =>
    match i with
    | 0 => b.upper >>> 32 | 1 => b.upper &&& m | 2 => b.lower >>> 32 | 3 => b.lower &&& m
  let p : Fin 4 → Fin 4 → UInt64 := fun i j => top (3 - i) * bottom j
  -- first row
  let fourth := p 0 3 &&& m
  let third := (p 0 2 &&& m) + (p 0 3 >>> 32)
  let second := (p 0 1 &&& m) + (p 0 2 >>> 32)
  let first := (p 0 0 &&& m) + (p 0 1 >>> 32)
  -- second row
  let third := third + (p 1 3 &&& m)
  let second := second + ((p 1 2 &&& m) + (p 1 3 >>> 32))
  let first := first + ((p 1 1 &&& m) + (p 1 2 >>> 32))
  -- third row
  let second := second + (p 2 3 &&& m)
  let first := first + ((p 2 2 &&& m) + (p 2 3 >>> 32))
  -- fourth row
  let first := first + (p 3 3 &&& m)
  -- carries
  let third := third + (fourth >>> 32)
  let second := second + (third >>> 32)
  let first := first + (second >>> 32)
  let fourth := fourth &&& m
  let third := third &&& m
  let second := second &&& m
  let first := first &&& m
  ⟨(first <<< 32) ||| second, (third <<< 32) ||| fourth⟩

/-- The `while` of `bits` (uint128.cpp:350-353, 357-360): `out` is a `uint8_t`. The first argument bounds the
steps; 64 suffice for a word (`U128.bits_loop`). -/
def bitsLoop : Nat → UInt64 → UInt8 → Res UInt8
  | 0, w, out => if w == 0 then .ok out else .ub
  | n + 1, w, out => if w == 0 then .ok out else bitsLoop n (w >>> 1) (out + 1)

/-- `bits` (uint128.cpp:345-363). -/
def bits (a : U128) : Res UInt8 :=
  if a.upper != 0 then bitsLoop 64 a.upper 64 else bitsLoop 64 a.lower 0

/-- One round of the division (uint128.cpp:276-287). -/
def divStep (lhs rhs : U128) (x : UInt8) (qr : U128 × U128) : U128 × U128 :=
  let q := shl qr.1 one
  let r := shl qr.2 one
  let r := if toBool (andWord (shr lhs (ofWord (x - 1).toUInt64)) 1) then incr r else r
  if ge r rhs then (incr q, sub r rhs) else (q, r)

/-- The loop of `divmod` (uint128.cpp:275): `x` counts down to zero. -/
def divLoop (lhs rhs : U128) : Nat → UInt8 → U128 × U128 → Res (U128 × U128)
  | 0, x, qr => if x == 0 then .ok qr else .ub
  | n + 1, x, qr => if x == 0 then .ok qr else divLoop lhs rhs n (x - 1) (divStep lhs rhs x qr)

/-- `divmod` (uint128.cpp:259-289). -/
def divmod (lhs rhs : U128) : Res (U128 × U128) :=
  if eq rhs zero then .throw
  else if eq rhs one then .ok (lhs, zero)
  else if eq lhs rhs then .ok (one, zero)
  else if eq lhs zero || lt lhs rhs then .ok (zero, lhs)
  else do
    let n ← bits lhs
    divLoop lhs rhs 255 n (zero, zero)

/-- `operator/` (uint128.cpp:291-293). -/
def div (a b : U128) : Res U128 := do
  let qr ← divmod a b
  return qr.1

/-- `operator%` (uint128.cpp:300-302). -/
def mod (a b : U128) : Res U128 := do
  let qr ← divmod a b
  return qr.2

/-- The `do … while` of `str` (uint128.cpp:375-378), the digits from the least significant one upwards;
the index into the sixteen digits is the value kept here. -/
def strLoop (base : U128) : Nat → U128 → List UInt8 → Res (List UInt8)
  | 0, _, _ => .ub
  | n + 1, a, out => do
    let qr ← divmod a base
    let out := qr.2.lower.toUInt8 :: out
    if toBool qr.1 then strLoop base n qr.1 out else return out

/-- `str` (uint128.cpp:365-384), each character as the value of its digit. -/
def str (a : U128) (base : UInt8) (len : Nat) : Res (List UInt8) :=
  if base < 2 || base > 16 then .throw
  else do
    let out ← if !toBool a then pure [0] else strLoop (ofWord base.toUInt64) 128 a []
    return List.replicate (len - out.length) 0 ++ out

/-- The end of `GetMaximumDifficulty` (PoWValidator.cpp:80-88): `scaling` and `hash64` are words. -/
def maxDifficulty (scaling hash64 : UInt64) : Res UInt64 := do
  let scaled := shl (ofWord scaling) (ofWord 64)
  let hash128 := ofWord (if (1 : UInt64) < hash64 then hash64 else 1)
  let difference ← div scaled hash128
  if ltWord difference 0xffffffffffffffff then return toWord difference
  return 0xffffffffffffffff

end U128

end Verif.PoW
