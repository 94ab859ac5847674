import Verif.Codec.KeyPath

/-!
# Times as text

Model of `include/Common/Util/TimeUtil.h`.  The calendar is that of the C library; a time zone is how far local time is ahead of UTC at each
moment, and how far without summer time.
-/
namespace Verif.Codec

/-- `std::tm`, with the year and month counted as people do. -/
structure Tm where
  year : Int
  mon : Int
  day : Int
  hour : Int
  min : Int
  sec : Int
deriving DecidableEq, Repr

/-- A day of a cycle of 400 years as the year of the cycle and the day of the year: centuries, the last day of the cycle belonging to the last
one, four years, years, the last day of the four belonging to the last one. -/
def yearDay (doe : Int) : Int × Int :=
  let c := if doe / 36524 = 4 then 3 else doe / 36524
  let doc := doe - c * 36524
  let doq := doc % 1461
  let y := if doq / 365 = 4 then 3 else doq / 365
  (c * 100 + doc / 1461 * 4 + y, doq - y * 365)

/-- `gmtime`: date and time of day of a number of seconds since 1970 in the Gregorian calendar.  Years are counted from March. -/
def gmTime (s : Int) : Tm :=
  let z := s / 86400 + 719468
  let r := yearDay (z % 146097)
  let mp := (5 * r.2 + 2) / 153
  let mon := if mp < 10 then mp + 3 else mp - 9
  ⟨r.1 + z / 146097 * 400 + (if mon ≤ 2 then 1 else 0), mon, r.2 - (153 * mp + 2) / 5 + 1, s % 86400 / 3600, s % 3600 / 60, s % 60⟩

/-- `timegm`: the seconds since 1970. -/
def secsOf (t : Tm) : Int :=
  let y := if t.mon ≤ 2 then t.year - 1 else t.year
  let yoe := y % 400
  let mp := if t.mon > 2 then t.mon - 3 else t.mon + 9
  let doe := yoe * 365 + yoe / 4 - yoe / 100 + ((153 * mp + 2) / 5 + t.day - 1)
  (y / 400 * 146097 + doe - 719468) * 86400 + t.hour * 3600 + t.min * 60 + t.sec

/-- A time zone: seconds ahead of UTC at each moment, and without summer time. -/
structure Zone where
  ahead : Int → Int
  standard : Int

/-- `localtime`. -/
def Zone.localTime (z : Zone) (t : Int) : Tm := gmTime (t + z.ahead t)

/-- `mktime` with `tm_isdst = 0`. -/
def Zone.mkTime (z : Zone) (t : Tm) : Int := secsOf t - z.standard

/-- Two digits. -/
def pad2 (n : Int) : Bytes := [UInt8.ofNat (48 + n.toNat / 10), UInt8.ofNat (48 + n.toNat % 10)]

/-- `put_time` with `%Y-%m-%d %H:%M:%S`. -/
def putTime (t : Tm) : Bytes :=
  decStr t.year.toNat ++ [45] ++ pad2 t.mon ++ [45] ++ pad2 t.day ++ [32] ++ pad2 t.hour ++ [58] ++ pad2 t.min ++ [58] ++ pad2 t.sec

/-- `TimeUtil::FormatUTC` (TimeUtil.h:18-21) with `Format` (31-45): local time, and the letters UTC. -/
def formatUtc (z : Zone) (t : Int) : Bytes := putTime (z.localTime t) ++ str " UTC"

/-- A number of at most `k` digits, of which there is at least one, in a range (`time_get::_M_extract_num` of libstdc++). -/
def takeNum (k lo hi : Nat) (s : Bytes) : Option (Int × Bytes) :=
  let d := (s.take k).takeWhile isDigit
  if d = [] ∨ decVal d < lo ∨ hi < decVal d then none else some (decVal d, s.drop d.length)

/-- A character of the format that stands for itself. -/
def takeChar (c : UInt8) : Bytes → Option Bytes
  | [] => none
  | x :: s => if x = c then some s else none

/-- `get_time` with `%Y-%m-%d %H:%M:%S%z`: what was read before it fails stays in the structure, which starts as zeros; what `%z` reads is not
used. -/
def getTime (s : Bytes) : Tm :=
  match takeNum 4 0 9999 s with
  | none => ⟨1900, 1, 0, 0, 0, 0⟩
  | some (y, s) =>
  match takeChar 45 s >>= takeNum 2 1 12 with
  | none => ⟨y, 1, 0, 0, 0, 0⟩
  | some (mo, s) =>
  match takeChar 45 s >>= takeNum 2 1 31 with
  | none => ⟨y, mo, 0, 0, 0, 0⟩
  | some (d, s) =>
  match takeChar 32 s >>= takeNum 2 0 23 with
  | none => ⟨y, mo, d, 0, 0, 0⟩
  | some (h, s) =>
  match takeChar 58 s >>= takeNum 2 0 59 with
  | none => ⟨y, mo, d, h, 0, 0⟩
  | some (mi, s) =>
  match takeChar 58 s >>= takeNum 2 0 60 with
  | none => ⟨y, mo, d, h, mi, 0⟩
  | some (se, _) => ⟨y, mo, d, h, mi, se⟩

/-- `TimeUtil::FromString` (TimeUtil.h:23-29). -/
def timeFromString (z : Zone) (s : Bytes) : Int := z.mkTime (getTime s)

end Verif.Codec
