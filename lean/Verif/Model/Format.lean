import Verif.Model.TimeSet

/-!
# Formatting (src/wins/format.rs)

Strings are lists of characters. What goes through `chrono` (`format_timestamp`, `Display for Timestamp`) is in
Model/DateTime, with the text `chrono` writes as a parameter.
-/

namespace Chrono

/-- The decimal digit of `n < 10`. -/
def digitChar (n : Nat) : Char := Char.ofNat (48 + n)

/-- `{}` / `{:?}` on an unsigned integer: its decimal digits without leading zero (Rust std). -/
def natStr (n : Nat) : List Char :=
  if n < 10 then [digitChar n] else natStr (n / 10) ++ [digitChar (n % 10)]
termination_by n

/-- `{}` / `{:?}` on a signed integer (Rust std). -/
def intStr (x : Int) : List Char := if x < 0 then '-' :: natStr x.natAbs else natStr x.toNat

/-- src/wins/format.rs:37-45 `concat_unit` -/
def concatUnit (ticks : Int × List Char) (conv : Int → Int) (unit : String) :
    Res (Int × List Char) := do
  let x ← div64 ticks.1 (conv 1)
  if x = 0 then return ticks
  else return (← chk64 (ticks.1 - conv x), ticks.2 ++ intStr x ++ unit.toList ++ [' '])

/-- src/wins/format.rs:55-66: the sub-second part appended to `str` -/
def concatSubsec (str : List Char) (nanos : Int) : List Char :=
  let (str, nanos) :=
    if nanos > 1000000 then (str ++ intStr (nanos.tdiv 1000000) ++ "ms ".toList, nanos.tmod 1000000)
    else (str, nanos)
  let (str, nanos) :=
    if nanos > 1000 then (str ++ intStr (nanos.tdiv 1000) ++ "us ".toList, nanos.tmod 1000)
    else (str, nanos)
  if nanos > 0 then str ++ intStr nanos ++ "ns ".toList else str

/-- src/wins/format.rs:31-79 `format_duration` -/
def formatDuration (t : Int) : Res (List Char) := do
  if t ≥ 0 then
    let nanos ← subsecNanos (fromTicks t)
    let r ← fromNanos nanos
    let _ ← chk64 (t - r)
    if t = 0 then return "0".toList
    else
      let p ← concatUnit (t, []) fromYears "y"
      let p ← concatUnit p fromMonths "mo"
      let p ← concatUnit p fromDays "d"
      let p ← concatUnit p fromHours "h"
      let p ← concatUnit p fromMins "min"
      let p ← concatUnit p fromSecs "s"
      let str := concatSubsec p.2 nanos
      if str.isEmpty then return "0".toList else return str.dropLast
  else .error .assertFail

/-- src/wins/format.rs:146-165 `Display for TimeValue` -/
def displayTv (t : Int) : Res (List Char) := do
  if t ≥ 0 then
    if isFutureInfinite t then return "+oo".toList else formatDuration t
  else
    if isPastInfinite t then return "-oo".toList
    else return "- ".toList ++ (← formatDuration (← chk64 (-t)))

/-- src/wins/format.rs:124-143 `Debug for TimeValue` -/
def debugTv (t : Int) : List Char :=
  if t ≥ 0 then (if isFutureInfinite t then "+oo".toList else intStr t)
  else (if isPastInfinite t then "-oo".toList else intStr t)

/-- src/wins/format.rs:167-173 `Debug for Timestamp` -/
def debugTs (t : Int) : List Char := "t=".toList ++ debugTv t

/-- src/wins/format.rs:197-220 `Debug for TimeInterval`, given `Debug` of the time points -/
def debugIv (dbg : Int → List Char) (i : Iv) : List Char :=
  if i.isLowBounded then
    if i.isUpBounded then
      if i.lower == i.upper then ['{'] ++ dbg i.lower ++ ['}']
      else ['['] ++ dbg i.lower ++ [','] ++ dbg i.upper ++ [']']
    else ['['] ++ dbg i.lower ++ ",+oo[".toList
  else
    if i.isUpBounded then "]-oo,".toList ++ dbg i.upper ++ [']']
    else "]-oo,+oo[".toList

/-- src/wins/format.rs:249-261 `Debug for TimeSet` -/
def debugSet (dbg : Int → List Char) : TSet → List Char
  | [] => "{}".toList
  | first :: rest => rest.foldl (fun s i => s ++ ['U'] ++ debugIv dbg i) (debugIv dbg first)

/-- src/wins/format.rs:223-245 `Display for TimeInterval`, given `Display` of the time points -/
def displayIv (disp : Int → Res (List Char)) (i : Iv) : Res (List Char) := do
  if i.isEmpty then return "{}".toList
  else if i.isSingleton then return ['{'] ++ (← disp i.lower) ++ ['}']
  else if i.isLowBounded then
    if i.isUpBounded then return ['['] ++ (← disp i.lower) ++ [','] ++ (← disp i.upper) ++ [']']
    else return ['['] ++ (← disp i.lower) ++ ",+oo[".toList
  else if i.isUpBounded then return "]-oo,".toList ++ (← disp i.upper) ++ [']']
  else return "]-oo,+oo[".toList

/-- src/wins/format.rs:263-275 `Display for TimeSet` -/
def displaySet (disp : Int → Res (List Char)) : TSet → Res (List Char)
  | [] => .ok "{}".toList
  | first :: rest => do
    rest.foldlM (fun s i => do return s ++ ['U'] ++ (← displayIv disp i)) (← displayIv disp first)

/-! ## `TimeSetFormat` (src/wins/format.rs:5-120) -/

/-- src/wins/format.rs:15-22 `TimeValue::format_timepoint` (the format is ignored) -/
def formatTimepoint (t : Int) : Res (List Char) := do
  if isPositive t then formatDuration t
  else return "- ".toList ++ (← formatDuration (← chk64 (-t)))

/-- src/wins/format.rs:85-105 `format_timeslot` on an interval, given `format_timepoint` on its points; `"{{}}".to_string()`
is not a format string, the braces are doubled in the result. -/
def formatTimeslot (fp : Int → Res (List Char)) (i : Iv) : Res (List Char) := do
  if i.isEmpty then return "{{}}".toList
  else if i.isSingleton then return ['{'] ++ (← fp i.lower) ++ ['}']
  else if i.isLowBounded then
    if i.isUpBounded then return ['['] ++ (← fp i.lower) ++ [','] ++ (← fp i.upper) ++ [']']
    else return ['['] ++ (← fp i.lower) ++ ",+oo[".toList
  else if i.isUpBounded then return "]-oo,".toList ++ (← fp i.upper) ++ [']']
  else return "]-oo,+oo[".toList

/-- src/wins/format.rs:107-120 `format_timeset`, on the intervals `iter()` yields -/
def formatTimeset (fp : Int → Res (List Char)) : List Iv → Res (List Char)
  | [] => .ok "{{}}".toList
  | first :: rest => do
    rest.foldlM (fun s i => do return s ++ ['U'] ++ (← formatTimeslot fp i)) (← formatTimeslot fp first)

end Chrono
