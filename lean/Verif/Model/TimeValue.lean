import Verif.Model.Basic

/-!
# `TimeValue` and `Timestamp` (src/wins/timevalue.rs, src/wins/timestamp.rs, src/wins/convert.rs,
integer part of src/ops/scaling.rs)

A `TimeValue` is its number of ticks, an `Int`. A `Timestamp` wraps a `TimeValue`
(src/wins/timestamp.rs:10) and every method forwards to it, so both are `Int` here.
The value `i64::MIN` is not a legal `TimeValue`; the `debug_assert_ne!(self.0, i64::MIN)` in
`is_past_infinite` (timevalue.rs:230) and the overflow of `abs`/`-` on it are not modelled.
-/

namespace Chrono

/-! ## Constructors -/

/-- src/wins/timevalue.rs:31-34 `TimeValue::from_ticks` -/
def fromTicks (t : Int) : Int := max t (-INF)

/-- src/wins/timevalue.rs:55-62 `TimeValue::from_secs` -/
def fromSecs (sec : Int) : Int := if sec > MAX_SEC then INF else shl30 sec

/-- src/wins/timevalue.rs:64-74 `TimeValue::from_fract` (the private worker of the three below) -/
def fromFract (t unit : Int) : Res Int := do
  let sec ← div64 t unit
  let p ← chk64 (sec * unit)
  let frac ← chk64 (t - p)
  if sec > MAX_SEC then
    return INF
  else
    let f ← div64 (shl30 frac) unit
    chk64 (shl30 sec + f)

/-- src/wins/timevalue.rs:81 `from_years` -/
def fromYears (n : Int) : Int := fromSecs (sat64 (n * (146097*24*3600/400)))
/-- src/wins/timevalue.rs:88 `from_months` -/
def fromMonths (n : Int) : Int := fromSecs (sat64 (n * (146097*24*3600/400/12)))
/-- src/wins/timevalue.rs:94 `from_weeks` -/
def fromWeeks (n : Int) : Int := fromSecs (sat64 (n * (3600*24*7)))
/-- src/wins/timevalue.rs:100 `from_days` -/
def fromDays (n : Int) : Int := fromSecs (sat64 (n * (3600*24)))
/-- src/wins/timevalue.rs:106 `from_hours` -/
def fromHours (n : Int) : Int := fromSecs (sat64 (n * 3600))
/-- src/wins/timevalue.rs:112 `from_mins` -/
def fromMins (n : Int) : Int := fromSecs (sat64 (n * 60))
/-- src/wins/timevalue.rs:119 `from_millis` -/
def fromMillis (n : Int) : Res Int := fromFract n 1000
/-- src/wins/timevalue.rs:126 `from_micros` -/
def fromMicros (n : Int) : Res Int := fromFract n 1000000
/-- src/wins/timevalue.rs:133 `from_nanos` -/
def fromNanos (n : Int) : Res Int := fromFract n 1000000000

/-! ## Accessors -/

/-- src/wins/timevalue.rs:142 `as_secs` : arithmetic shift right, i.e. floor division. -/
def asSecs (t : Int) : Int := t / TICKS

/-- src/wins/timevalue.rs:169-172 `subsec_nanos`: `self.0 & MASK` is the residue modulo 2^30, the
product and sum are `u64`, `>> 30` is floor division, the final cast keeps the low 32 bits. -/
def subsecNanos (t : Int) : Res Int := do
  let p ← chkU64 ((t % TICKS) * 10000000000)
  let q ← chkU64 (p + 5000000000)
  return Int.bmod ((q / TICKS) / 10) 4294967296

/-- src/wins/timevalue.rs:159-162 `subsec_micros` (`i32` division) -/
def subsecMicros (t : Int) : Res Int := do return (← subsecNanos t).tdiv 1000
/-- src/wins/timevalue.rs:149-152 `subsec_millis` (`i32` division) -/
def subsecMillis (t : Int) : Res Int := do return (← subsecNanos t).tdiv 1000000

/-- src/wins/timevalue.rs:178 `is_zero` -/
def isZero (t : Int) : Bool := t == 0
/-- src/wins/timevalue.rs:181 `is_positive` -/
def isPositive (t : Int) : Bool := decide (t ≥ 0)
/-- src/wins/timevalue.rs:184 `is_negative` -/
def isNegative (t : Int) : Bool := decide (t ≤ 0)
/-- src/wins/timevalue.rs:187 `is_strictly_positive` -/
def isStrictlyPositive (t : Int) : Bool := decide (t > 0)
/-- src/wins/timevalue.rs:190 `is_strictly_negative` -/
def isStrictlyNegative (t : Int) : Bool := decide (t < 0)

/-- src/wins/timevalue.rs:193-202 `floor` (also `Timestamp::floor`, timestamp.rs:37-40) -/
def floorTo (t period : Int) : Res Int := do
  if t ≥ 0 then
    chk64 ((← div64 t period) * period)
  else
    let a ← chk64 (t + 1)
    let b ← chk64 ((← div64 a period) - 1)
    chk64 (b * period)

/-- src/wins/timevalue.rs:205-214 `ceil` (also `Timestamp::ceil`, timestamp.rs:43-46) -/
def ceilTo (t period : Int) : Res Int := do
  if t > 0 then
    let a ← chk64 (t - 1)
    let b ← chk64 ((← div64 a period) + 1)
    chk64 (b * period)
  else
    let a ← chk64 (t - 1)
    chk64 ((← div64 a period) * period)

/-! ## `TimePoint` (src/wins/timevalue.rs:218-248; timestamp.rs:59-67 forwards) -/

/-- src/wins/timevalue.rs:223-226 `is_future_infinite` -/
def isFutureInfinite (t : Int) : Bool := t == INF
/-- src/wins/timevalue.rs:229-232 `is_past_infinite` -/
def isPastInfinite (t : Int) : Bool := t == -INF
/-- src/wins/timevalue.rs:235 `is_finite` : `self.0.abs() != INFINITE` -/
def isFinite (t : Int) : Bool := ((t.natAbs : Int) != INF)
/-- src/wins/timevalue.rs:238-241 `just_after` -/
def justAfter (t : Int) : Int := if isFinite t then t + 1 else t
/-- src/wins/timevalue.rs:244-247 `just_before` -/
def justBefore (t : Int) : Int := if isFinite t then t - 1 else t

/-! ## Conversions with `chrono::Duration` and `std::time::Duration` -/

/-- src/wins/timevalue.rs:250-258: nanoseconds handed to `chrono::Duration::nanoseconds`
(`i128` product, shift = floor division, cast to i64). -/
def toChronoNanos (t : Int) : Int := asI64 ((t * 1000000000) / TICKS)

/-- src/wins/timevalue.rs:260-270: the argument is `t.num_nanoseconds()`. -/
def fromChronoNanos : Option Int → Res Int
  | none => return INF
  | some nanos => fromNanos nanos

/-- src/wins/timevalue.rs:272-279: seconds and sub-second nanoseconds of the resulting
`std::time::Duration` (`as u64`, `as u32` casts of non-negative values; `Duration::new` carries
`nanos / 10^9` into seconds, which is 0 here). -/
def toStdDuration (t : Int) : Res (Int × Int) := do
  if t ≥ 0 then
    return (asU64 (asSecs t), (← subsecNanos t) % 4294967296)
  else
    .error .assertFail

/-- src/wins/timevalue.rs:281-293: from seconds (`u64`) and sub-second nanoseconds. -/
def fromStdDuration (sec ns : Int) : Res Int := do
  if sec > 2147483647 then
    return INF
  else
    let f ← div64 (shl30 ns) 1000000000
    chk64 (shl30 sec + f)

/-! ## Arithmetic -/

/-- src/wins/timevalue.rs:296-304 `Neg` (timestamp.rs:54-57 forwards) -/
def tvNeg (t : Int) : Int := -t

/-- src/wins/timevalue.rs:323-341 `Add` -/
def tvAdd (a b : Int) : Res Int :=
  if isFutureInfinite a then
    (if isPastInfinite b then .error .assertFail else .ok a)
  else if isPastInfinite a then
    (if isFutureInfinite b then .error .assertFail else .ok a)
  else if isFinite b then
    .ok (fromTicks (sat64 (a + b)))
  else .ok b

/-- src/wins/timevalue.rs:347-350 `Sub` -/
def tvSub (a b : Int) : Res Int := tvAdd a (tvNeg b)

/-- src/wins/timevalue.rs:356-360 `Sum` -/
def tvSum (l : List Int) : Res Int := l.foldlM tvAdd 0

/-- src/wins/timestamp.rs:121-125 `Timestamp - Timestamp` -/
def tsSub (a b : Int) : Res Int := tvSub a b
/-- src/wins/timestamp.rs:127-131 `Timestamp + TimeValue` (139-143 `+=`) -/
def tsAdd (t d : Int) : Res Int := tvAdd t d
/-- src/wins/timestamp.rs:133-137 `Timestamp - TimeValue` (145-149 `-=`) -/
def tsSubDur (t d : Int) : Res Int := tvSub t d
/-- src/wins/timestamp.rs:151-154 `TimeValue + Timestamp` -/
def tvAddTs (d t : Int) : Res Int := tsAdd t d
/-- src/wins/timestamp.rs:156-159 `TimeValue - Timestamp` -/
def tvSubTs (d t : Int) : Res Int := tsAdd (tvNeg t) d

/-! ## Unit truncation: `IntoTimeValue for TimeValue` (src/wins/convert.rs:18-50) -/

/-- The common body of convert.rs:20-22, 26-37, 40-48 for a unit of `u` ticks. -/
def truncUnit (t u : Int) : Res Int := if isStrictlyNegative t then ceilTo t u else floorTo t u

/-- src/wins/convert.rs:20-22 `years` -/
def tvYears (t : Int) : Res Int := truncUnit t (fromYears 1)
/-- src/wins/convert.rs:23-25 `months` (the source really uses `1.years()`) -/
def tvMonths (t : Int) : Res Int := truncUnit t (fromYears 1)
/-- src/wins/convert.rs:26-28 `weeks` -/
def tvWeeks (t : Int) : Res Int := truncUnit t (fromWeeks 1)
/-- src/wins/convert.rs:29-31 `days` -/
def tvDays (t : Int) : Res Int := truncUnit t (fromDays 1)
/-- src/wins/convert.rs:32-34 `hours` -/
def tvHours (t : Int) : Res Int := truncUnit t (fromHours 1)
/-- src/wins/convert.rs:35-37 `mins` -/
def tvMins (t : Int) : Res Int := truncUnit t (fromMins 1)
/-- src/wins/convert.rs:38 `secs`: clears the low 30 bits -/
def tvSecs (t : Int) : Int := t - t % TICKS
/-- src/wins/convert.rs:40-42 `millis` -/
def tvMillis (t : Int) : Res Int := do truncUnit t (← fromMillis 1)
/-- src/wins/convert.rs:43-45 `micros` -/
def tvMicros (t : Int) : Res Int := do truncUnit t (← fromMicros 1)
/-- src/wins/convert.rs:46-48 `nanos` -/
def tvNanos (t : Int) : Res Int := do truncUnit t (← fromNanos 1)

/-! ## Conversion of integers (src/wins/convert.rs:53-87) -/

/-- The integer types with `IntoTimeValue` (src/wins/convert.rs:71-87), on a 64-bit target. -/
inductive IntTy where
  | i8 | u8 | i16 | u16 | i32 | u32 | i64 | u64 | i128 | u128 | isize | usize
  deriving DecidableEq, Repr

/-- The second argument of `convert_safely!` for each type (src/wins/convert.rs:71-87). -/
def toI64 : IntTy → Int → Int
  | .u64, x | .u128, x | .usize, x => if x > I64_MAX then I64_MAX else asI64 x
  | .i128, x => if x > I64_MAX then I64_MAX else if x < I64_MIN then I64_MIN else asI64 x
  | .i64, x => x
  | _, x => asI64 x

/-- src/wins/convert.rs:56 `years` of an integer -/
def intYears (ty : IntTy) (x : Int) : Int := fromYears (toI64 ty x)
/-- src/wins/convert.rs:57 `months` of an integer -/
def intMonths (ty : IntTy) (x : Int) : Int := fromMonths (toI64 ty x)
/-- src/wins/convert.rs:58 `weeks` of an integer -/
def intWeeks (ty : IntTy) (x : Int) : Int := fromWeeks (toI64 ty x)
/-- src/wins/convert.rs:59 `days` of an integer -/
def intDays (ty : IntTy) (x : Int) : Int := fromDays (toI64 ty x)
/-- src/wins/convert.rs:60 `hours` of an integer -/
def intHours (ty : IntTy) (x : Int) : Int := fromHours (toI64 ty x)
/-- src/wins/convert.rs:61 `mins` of an integer -/
def intMins (ty : IntTy) (x : Int) : Int := fromMins (toI64 ty x)
/-- src/wins/convert.rs:62 `secs` of an integer -/
def intSecs (ty : IntTy) (x : Int) : Int := fromSecs (toI64 ty x)
/-- src/wins/convert.rs:63 `millis` of an integer -/
def intMillis (ty : IntTy) (x : Int) : Res Int := fromMillis (toI64 ty x)
/-- src/wins/convert.rs:64 `micros` of an integer -/
def intMicros (ty : IntTy) (x : Int) : Res Int := fromMicros (toI64 ty x)
/-- src/wins/convert.rs:65 `nanos` of an integer -/
def intNanos (ty : IntTy) (x : Int) : Res Int := fromNanos (toI64 ty x)
/-- src/wins/convert.rs:66 `ticks` of an integer -/
def intTicks (ty : IntTy) (x : Int) : Int := fromTicks (toI64 ty x)

/-! ## Integer scaling (src/ops/scaling.rs:7-91) -/

/-- src/ops/scaling.rs:9-14 `TimeValue * n`, n of a type included in i64 -/
def mulSmall (t n : Int) : Int := fromTicks (sat64 (t * n))
/-- src/ops/scaling.rs:15-20 `TimeValue / n`, n of a type included in i64 -/
def divSmall (t n : Int) : Res Int := do return fromTicks (← satDiv64 t n)
/-- src/ops/scaling.rs:35-46 `TimeValue * n`, n : i128 (or isize) -/
def mulBig (t n : Int) : Int :=
  if n > INF then INF else if n < -INF then -INF else fromTicks (sat64 (t * n))
/-- src/ops/scaling.rs:47-56 `TimeValue / n`, n : i128 (or isize) -/
def divBig (t n : Int) : Res Int := do
  if n > INF ∨ n < -INF then return 0 else return fromTicks (← satDiv64 t n)
/-- src/ops/scaling.rs:67-76 `TimeValue * n`, n : u64, u128 or usize -/
def mulUBig (t : Int) (n : Nat) : Int :=
  if (n : Int) > INF then INF else fromTicks (sat64 (t * n))
/-- src/ops/scaling.rs:77-86 `TimeValue / n`, n : u64, u128 or usize -/
def divUBig (t : Int) (n : Nat) : Res Int := do
  if (n : Int) > INF then return 0 else return fromTicks (← satDiv64 t n)

end Chrono
