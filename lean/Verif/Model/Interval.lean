import Verif.Model.TimeValue

/-!
# Intervals and convex windows
(src/wins/timeinterval.rs, src/wins/mod.rs, src/ops/range.rs, interval parts of src/ops/{compl,intersect,union,transl}.rs)
-/

namespace Chrono

/-- src/wins/timeinterval.rs:19 `TimeInterval<T> { lower, upper }` -/
structure Iv where
  lower : Int
  upper : Int
  deriving DecidableEq, Repr

namespace Iv

/-- src/wins/timeinterval.rs:67-72 `empty` (also `Default`, lines 22-25) -/
def empty : Iv := ⟨INF, -INF⟩

/-- src/wins/timeinterval.rs:78-85 `singleton` (also `From<T>`, lines 208-210) -/
def singleton (t : Int) : Iv := if isFinite t then ⟨t, t⟩ else empty

/-- src/wins/timeinterval.rs:38-45 `new` (also `From<(T,T)>`, lines 212-217) -/
def new (l u : Int) : Iv := if l < u then ⟨l, u⟩ else if l = u then singleton l else empty

/-- src/wins/timeinterval.rs:91-98 `after` -/
def after (t : Int) : Iv := if isFutureInfinite t then empty else ⟨t, INF⟩

/-- src/wins/timeinterval.rs:104-111 `before` -/
def before (t : Int) : Iv := if isPastInfinite t then empty else ⟨-INF, t⟩

/-- src/wins/timeinterval.rs:115-118 `all` (also `From<RangeFull>`, src/ops/range.rs:63-65) -/
def all : Iv := ⟨-INF, INF⟩

/-- src/wins/timeinterval.rs:184 `is_empty` -/
def isEmpty (i : Iv) : Bool := isFutureInfinite i.lower
/-- src/wins/timeinterval.rs:185 `is_singleton` -/
def isSingleton (i : Iv) : Bool := i.lower == i.upper
/-- src/wins/timeinterval.rs:187 `is_low_bounded` -/
def isLowBounded (i : Iv) : Bool := !isPastInfinite i.lower
/-- src/wins/timeinterval.rs:188 `is_up_bounded` -/
def isUpBounded (i : Iv) : Bool := !isFutureInfinite i.upper
/-- src/wins/timeinterval.rs:186 `is_bounded` -/
def isBounded (i : Iv) : Bool := i.isLowBounded && i.isUpBounded

/-- src/wins/timeinterval.rs:29-31 `TimeSlot::duration` -/
def duration (i : Iv) : Res Int := if i.upper ≤ i.lower then .ok 0 else tsSub i.upper i.lower

/-- src/wins/timeinterval.rs:125-137 `truncate_before`: new value and returned flag -/
def truncateBefore (i : Iv) (l : Int) : Iv × Bool :=
  if l ≤ i.lower then (i, false)
  else if i.upper < l then (empty, true) else (⟨l, i.upper⟩, true)

/-- src/wins/timeinterval.rs:140-152 `truncate_after`: new value and returned flag -/
def truncateAfter (i : Iv) (u : Int) : Iv × Bool :=
  if i.upper ≤ u then (i, false)
  else if u < i.lower then (empty, true) else (⟨i.lower, u⟩, true)

/-- src/wins/timeinterval.rs:160-167 `centered`. `then_some` evaluates its argument eagerly, so both
bounds are computed (and may panic) whatever the sign of `delta`. -/
def centered (origin delta : Int) : Res (Option Iv) := do
  let lower ← tvSub origin delta
  let upper ← tvAdd origin delta
  return if isPositive delta then some ⟨lower, upper⟩ else none

/-- src/wins/timeinterval.rs:170-176 `enlarge` -/
def enlarge (i : Iv) (delta : Int) : Res (Option Iv) := do
  let lower ← tvSub i.lower delta
  let upper ← tvAdd i.upper delta
  return if lower ≤ upper then some ⟨lower, upper⟩ else none

/-- src/wins/timeinterval.rs:197-204 `Neg` -/
def neg (i : Iv) : Iv := ⟨-i.upper, -i.lower⟩

end Iv

/-- A value of a type implementing `TimeConvex`: an interval (`TimeInterval`, `TimeGraphConstraint`),
a time point (src/wins/timevalue.rs:319, timestamp.rs:81) or one of the Rust ranges
(src/ops/range.rs:92-96). -/
inductive Convex where
  | iv (i : Iv)
  | point (t : Int)
  /-- `a..b` -/
  | range (a b : Int)
  /-- `a..` -/
  | rangeFrom (a : Int)
  /-- `a..=b` -/
  | rangeIncl (a b : Int)
  /-- `..b` -/
  | rangeTo (b : Int)
  /-- `..=b` -/
  | rangeToIncl (b : Int)
  deriving DecidableEq, Repr

namespace Convex

/-- `TimeBounds::is_empty`: timeinterval.rs:184, timevalue.rs:310, timestamp.rs:72,
range.rs:10,21,32,43,54 (`Range::is_empty` is `!(start < end)`, `RangeInclusive::is_empty` is
`!(start <= end)` for a range that has not been iterated). -/
def isEmpty : Convex → Bool
  | iv i => i.isEmpty
  | point _ => false
  | range a b => !decide (a < b)
  | rangeFrom _ => false
  | rangeIncl a b => !decide (a ≤ b)
  | rangeTo _ => false
  | rangeToIncl _ => false

/-- `TimeBounds::lower_bound`: timeinterval.rs:189, timevalue.rs:315, range.rs:14,25,36,47,58 -/
def lower : Convex → Int
  | iv i => i.lower
  | point t => t
  | range a b => if a < b then a else INF
  | rangeFrom a => a
  | rangeIncl a b => if a ≤ b then a else INF
  | rangeTo _ => -INF
  | rangeToIncl _ => -INF

/-- `TimeBounds::upper_bound`: timeinterval.rs:190, timevalue.rs:316, range.rs:15,26,37,48,59 -/
def upper : Convex → Int
  | iv i => i.upper
  | point t => t
  | range a b => if a < b then justBefore b else -INF
  | rangeFrom _ => INF
  | rangeIncl a b => if a ≤ b then b else -INF
  | rangeTo b => justBefore b
  | rangeToIncl b => b

/-- `TimeBounds::is_low_bounded`: timeinterval.rs:187, timevalue.rs:313, range.rs:12,23,34,45,56 -/
def isLowBounded (w : Convex) : Bool :=
  match w with
  | iv i => i.isLowBounded
  | point t => isFinite t
  | range _ _ => !w.isEmpty && isFinite w.lower
  | rangeFrom _ => isFinite w.lower
  | rangeIncl _ _ => !w.isEmpty && isFinite w.lower
  | rangeTo _ => false
  | rangeToIncl _ => false

/-- `TimeBounds::is_up_bounded`: timeinterval.rs:188, timevalue.rs:314, range.rs:13,24,35,46,57 -/
def isUpBounded (w : Convex) : Bool :=
  match w with
  | iv i => i.isUpBounded
  | point t => isFinite t
  | range _ _ => !w.isEmpty && isFinite w.upper
  | rangeFrom _ => false
  | rangeIncl _ _ => !w.isEmpty && isFinite w.upper
  | rangeTo _ => isFinite w.upper
  | rangeToIncl _ => isFinite w.upper

/-- `TimeBounds::is_bounded`: timeinterval.rs:186, timevalue.rs:312, range.rs:11,22,33,44,55 -/
def isBounded (w : Convex) : Bool :=
  match w with
  | iv i => i.isBounded
  | point t => isFinite t
  | range _ _ => !w.isEmpty && isFinite w.lower && isFinite w.upper
  | rangeFrom _ => false
  | rangeIncl _ _ => !w.isEmpty && isFinite w.lower && isFinite w.upper
  | rangeTo _ => false
  | rangeToIncl _ => false

/-- `TimeBounds::is_singleton`: timeinterval.rs:185, timevalue.rs:311, default wins/mod.rs:39-41 -/
def isSingleton (w : Convex) : Bool :=
  match w with
  | iv i => i.isSingleton
  | point _ => true
  | _ => !w.isEmpty && w.lower == w.upper

/-- `Into<TimeInterval>`: identity, timeinterval.rs:208-210 (singleton) and range.rs:83-88 -/
def into : Convex → Iv
  | iv i => i
  | point t => Iv.singleton t
  | w => ⟨w.lower, w.upper⟩

/-- `TimeWindow::is_all` of a convex window: wins/mod.rs:76-78 with `is_convex = true` (line 123) -/
def isAll (w : Convex) : Bool := !w.isLowBounded && !w.isUpBounded

/-- `TimeWindow::convex_count` of a convex window: wins/mod.rs:128-130 -/
def convexCount (w : Convex) : Nat := if w.isEmpty then 0 else 1

/-- `TimeWindow::iter` of a convex window: wins/mod.rs:135-145 (and `IntoIterator for TimeInterval`,
src/iter/mod.rs:41-52) -/
def iter (w : Convex) : List Iv := if w.isEmpty then [] else [⟨w.lower, w.upper⟩]

/-- `TimeWindow::convex_envelope` of a convex window: wins/mod.rs:99-101 (and `From` of a window,
range.rs:83-88) -/
def envelope (w : Convex) : Iv := ⟨w.lower, w.upper⟩

end Convex

namespace Iv

/-- src/ops/intersect.rs:49-56 `&TimeInterval & TW` (also 34-40, and 8-20 for time points) -/
def inter (i : Iv) (w : Convex) : Iv :=
  let j := w.into
  ⟨max i.lower j.lower, min i.upper j.upper⟩

/-- src/ops/intersect.rs:24-32 `TimeInterval &= TW` (reads the bounds of `tw`, not `tw.into()`) -/
def interAssign (i : Iv) (w : Convex) : Iv :=
  let i := if i.lower < w.lower then ⟨w.lower, i.upper⟩ else i
  if i.upper > w.upper then ⟨i.lower, w.upper⟩ else i

/-- src/ops/union.rs:32-60 `&TimeInterval | TW` (also 25-30, and 8-20 for time points). The first
branch uses `TimeSet::from(tw)` (timeset.rs:161-168), the second `From<TimeInterval>`. -/
def union (i : Iv) (w : Convex) : List Iv :=
  if i.isEmpty then w.iter
  else if w.isEmpty then [i]
  else if w.upper < justBefore i.lower then [w.into, i]
  else if i.upper < justBefore w.lower then [i, w.into]
  else [⟨min i.lower w.lower, max i.upper w.upper⟩]

/-- src/ops/compl.rs:33-55 `!TimeInterval` -/
def compl (i : Iv) : List Iv :=
  if i.isEmpty then [all]
  else
    let cut1 := justBefore i.lower
    let cut2 := justAfter i.upper
    match isPastInfinite cut1, isFutureInfinite cut2 with
    | true, true => []
    | true, false => [⟨cut2, INF⟩]
    | false, true => [⟨-INF, cut1⟩]
    | false, false => [⟨-INF, cut1⟩, ⟨cut2, INF⟩]

/-- The `debug_assert!(!tw.is_empty(), "time interval translation overflows")` which ends the
translations of src/ops/transl.rs; it is only compiled in debug builds. -/
def debugNonEmpty (dbg : Bool) (tw : Iv) : Res Iv :=
  if dbg && tw.isEmpty then .error .debugAssert else .ok tw

/-- src/ops/transl.rs:11-15 `TimeInterval + TimeValue` (51-56: `TimeValue + TimeInterval`) -/
def addTv (dbg : Bool) (i : Iv) (d : Int) : Res Iv := do
  let l ← tvAdd i.lower d
  let u ← tvAdd i.upper d
  debugNonEmpty dbg (Iv.new l u)

/-- src/ops/transl.rs:22-26 `TimeInterval - TimeValue` -/
def subTv (dbg : Bool) (i : Iv) (d : Int) : Res Iv := do
  let l ← tvSub i.lower d
  let u ← tvSub i.upper d
  debugNonEmpty dbg (Iv.new l u)

/-- src/ops/transl.rs:33-37 `TimeInterval += TimeValue` -/
def addAssignTv (i : Iv) (d : Int) : Res Iv := do
  let l ← tvAdd i.lower d
  let u ← tvAdd i.upper d
  if l != u || !isFinite l then .ok ⟨l, u⟩ else .error .assertFail

/-- src/ops/transl.rs:44-48 `TimeInterval -= TimeValue` -/
def subAssignTv (i : Iv) (d : Int) : Res Iv := do
  let l ← tvAdd i.lower (tvNeg d)
  let u ← tvAdd i.upper (tvNeg d)
  if l != u || !isFinite l then .ok ⟨l, u⟩ else .error .assertFail

/-- src/ops/transl.rs:62 `TimeValue - TimeInterval` -/
def tvSubIv (dbg : Bool) (d : Int) (i : Iv) : Res Iv := addTv dbg i.neg d

/-- src/ops/transl.rs:69-73 `TimeInterval + TimeSpan` -/
def addSpan (dbg : Bool) (i s : Iv) : Res Iv := do
  let l ← tvAdd i.lower s.lower
  let u ← tvAdd i.upper s.upper
  debugNonEmpty dbg (Iv.new l u)

/-- src/ops/transl.rs:80-84 `TimeInterval - TimeSpan` (also 144-148 `TimeSlot - TimeSlot`) -/
def subSpan (dbg : Bool) (i s : Iv) : Res Iv := do
  let l ← tvSub i.lower s.upper
  let u ← tvSub i.upper s.lower
  debugNonEmpty dbg (Iv.new l u)

/-- src/ops/transl.rs:91-95 `TimeInterval += TimeSpan` -/
def addAssignSpan (i s : Iv) : Res Iv := do
  let l ← tvAdd i.lower s.lower
  let u ← tvAdd i.upper s.upper
  if l != u || !isFinite l then .ok ⟨l, u⟩ else .error .assertFail

/-- src/ops/transl.rs:102-106 `TimeInterval -= TimeSpan` -/
def subAssignSpan (i s : Iv) : Res Iv := do
  let l ← tvAdd i.lower (tvNeg s.upper)
  let u ← tvAdd i.upper (tvNeg s.lower)
  if l != u || !isFinite l then .ok ⟨l, u⟩ else .error .assertFail

/-- src/ops/transl.rs:112-116 `Timestamp + TimeSpan` (132: `TimeSpan + Timestamp`;
138: `TimeSpan - Timestamp` is this function on `-other`) -/
def tsAddSpan (dbg : Bool) (t : Int) (s : Iv) : Res Iv := do
  let l ← tvAdd t s.lower
  let u ← tvAdd t s.upper
  debugNonEmpty dbg (Iv.new l u)

/-- src/ops/transl.rs:122-126 `Timestamp - TimeSpan` (also 164-168 `Timestamp - TimeSlot`) -/
def tsSubSpan (dbg : Bool) (t : Int) (s : Iv) : Res Iv := do
  let l ← tvSub t s.upper
  let u ← tvSub t s.lower
  debugNonEmpty dbg (Iv.new l u)

/-- src/ops/transl.rs:154-158 `TimeSlot - Timestamp` -/
def slotSubTs (dbg : Bool) (i : Iv) (t : Int) : Res Iv := do
  let l ← tvSub i.lower t
  let u ← tvSub i.upper t
  debugNonEmpty dbg (Iv.new l u)

end Iv

/-- src/ops/compl.rs:59-85 `!TimeValue`, `!Timestamp` -/
def pointCompl (t : Int) : List Iv :=
  let first := Iv.before (justBefore t)
  let second := Iv.after (justAfter t)
  if first.isEmpty then
    (if second.isEmpty then [] else [second])
  else
    (if second.isEmpty then [first] else [first, second])

namespace Iv

/-- The three families of integer scale types of src/ops/scaling.rs: included in i64 (lines 7-29),
signed and possibly wider (31-61), unsigned and possibly wider (63-91). -/
inductive ScaleTy where | small | big | ubig
  deriving DecidableEq, Repr

end Iv

/-- `TimeValue * n` for the given family (src/ops/scaling.rs:11, 37, 69) -/
def tvMul : Iv.ScaleTy → Int → Int → Int
  | .small, t, n => mulSmall t n
  | .big, t, n => mulBig t n
  | .ubig, t, n => mulUBig t n.toNat

/-- `TimeValue / n` for the given family (src/ops/scaling.rs:17, 49, 79) -/
def tvDiv : Iv.ScaleTy → Int → Int → Res Int
  | .small, t, n => divSmall t n
  | .big, t, n => divBig t n
  | .ubig, t, n => divUBig t n.toNat

namespace Iv

/-- src/ops/scaling.rs:154-169 `TimeSpan * n` (126-129 `*=`) -/
def mul (ty : ScaleTy) (i : Iv) (n : Int) : Res Iv :=
  let (lower, upper) :=
    if n < 0 then (tvMul ty i.upper n, tvMul ty i.lower n)
    else (tvMul ty i.lower n, tvMul ty i.upper n)
  if isFutureInfinite lower then .error .assertFail
  else if isPastInfinite upper then .error .assertFail
  else .ok ⟨lower, upper⟩

/-- src/ops/scaling.rs:170-183 `TimeSpan / n` (130-132 `/=`) -/
def div (ty : ScaleTy) (i : Iv) (n : Int) : Res Iv := do
  if n < 0 then
    let lower ← tvDiv ty i.upper n
    let upper ← tvDiv ty i.lower n
    return ⟨lower, upper⟩
  else
    let lower ← tvDiv ty i.lower n
    let upper ← tvDiv ty i.upper n
    return ⟨lower, upper⟩

end Iv

end Chrono
