import Verif.Model.Format

/-!
# Timestamps, the system clock and chrono (src/wins/timestamp.rs, src/wins/format.rs)

Of the crate `chrono` (0.4.40) only what the code calls is described here, after its documentation: a
`NaiveDateTime` or a `DateTime` is the number of seconds since 1970-01-01 00:00:00 UTC and the
nanoseconds within the second, which reach 1 999 999 999 in a leap second. The calendar, the time zones
and the text of a date are not modelled: the latter is a parameter of the functions that print.
-/

namespace Chrono

/-- `chrono::NaiveDateTime` / `chrono::DateTime` (a time zone does not change the instant). -/
structure DateTime where
  secs : Int
  nanos : Int
  deriving DecidableEq, Repr

/-- chrono: the first second of the year -262143 -/
def DT_MIN : Int := -8334601228800
/-- chrono: the last second of the year 262142 -/
def DT_MAX : Int := 8210266876799

/-- chrono `NaiveDateTime::from_timestamp_opt(secs, nsecs)`: `None` out of the calendar, and if `nsecs`
is neither below one second nor in a leap second (which can only be the last one of a minute). -/
def fromTimestampOpt (secs nanos : Int) : Option DateTime :=
  if DT_MIN ≤ secs ∧ secs ≤ DT_MAX ∧
      (nanos < 1000000000 ∨ nanos < 2000000000 ∧ secs % 60 = 59) then some ⟨secs, nanos⟩
  else none

/-- chrono `timestamp_nanos_opt`: in `i64` arithmetic, `None` on overflow -/
def timestampNanosOpt (d : DateTime) : Option Int :=
  let s := if d.secs < 0 then d.secs + 1 else d.secs
  let n := if d.secs < 0 then d.nanos - 1000000000 else d.nanos
  if I64_MIN ≤ s * 1000000000 ∧ s * 1000000000 ≤ I64_MAX then
    if I64_MIN ≤ s * 1000000000 + n ∧ s * 1000000000 + n ≤ I64_MAX then some (s * 1000000000 + n)
    else none
  else none

/-- src/wins/timestamp.rs:94-100 `From<Timestamp> for NaiveDateTime` (`subsec_nanos() as u32`, `unwrap`) -/
def toNaive (t : Int) : Res DateTime := do
  match fromTimestampOpt (asSecs t) ((← subsecNanos t) % 4294967296) with
  | some d => return d
  | none => .error .unwrapNone

/-- src/wins/timestamp.rs:34 `to_datetime` (`Utc.from_utc_datetime` keeps the instant) -/
def toDatetime (t : Int) : Res DateTime := toNaive t

/-- src/wins/timestamp.rs:102-108, 111-117 `From<NaiveDateTime>` and `From<DateTime<Tz>>` for `Timestamp`
(`unwrap`) -/
def ofDatetime (d : DateTime) : Res Int :=
  match timestampNanosOpt d with
  | some n => fromNanos n
  | none => .error .unwrapNone

/-- src/wins/timestamp.rs:25-28 `now`. The argument is what `SystemTime::now().duration_since(UNIX_EPOCH)`
gives: seconds and nanoseconds since 1970, or `none` (`Err`) if the clock is before 1970. -/
def tsNow : Option (Int × Int) → Res Int
  | some (sec, ns) => fromStdDuration sec ns
  | none => .error .unwrapNone

/-- src/wins/timestamp.rs:30-31 `elapsed`, given the state of the clock -/
def tsElapsed (clock : Option (Int × Int)) (t : Int) : Res Int := do tsSub (← tsNow clock) t

/-- src/wins/format.rs:175-194 `Display for Timestamp`, given the text chrono displays for a date -/
def displayTs (dt : DateTime → List Char) (t : Int) : Res (List Char) := do
  if isPositive t then
    if isFutureInfinite t then return "+oo".toList else return dt (← toDatetime t)
  else
    if isPastInfinite t then return "-oo".toList
    else return (← displayTv (tvNeg t)) ++ " before 1970-01-01 00:00:00 UTC".toList

/-- src/wins/format.rs:24-29, 81-83 `Timestamp::format_timepoint`, given what chrono writes for a date in the
format (it panics on an invalid format) -/
def formatTs (fmt : DateTime → Res (List Char)) (t : Int) : Res (List Char) := do fmt (← toDatetime t)

end Chrono
