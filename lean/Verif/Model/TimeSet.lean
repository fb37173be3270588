import Verif.Model.Iter

/-!
# Time sets (src/wins/timeset.rs, set parts of src/ops/*.rs, src/relns/*.rs, src/iter/{transl,scaling,excl}.rs)

`TimeSet<T>(Vec<TimeInterval<T>>)` (src/wins/timeset.rs:20) is a `List Iv`.
-/

namespace Chrono

/-- src/wins/timeset.rs:20 -/
abbrev TSet := List Iv

namespace TSet

/-! ## Constructors and bounds -/

/-- src/wins/timeset.rs:29 `all` -/
def all : TSet := [Iv.all]
/-- src/wins/timeset.rs:35-39 `convex` -/
def convex (l u : Int) : TSet := if (Iv.new l u).isEmpty then [] else [Iv.new l u]
/-- src/wins/timeset.rs:45-47 `singleton` -/
def singleton (t : Int) : TSet := [Iv.singleton t]
/-- src/wins/timeset.rs:51 `empty` -/
def empty : TSet := []
/-- src/wins/timeset.rs:161-168 `From<TW: TimeConvex>` -/
def ofConvex (w : Convex) : TSet := if w.isEmpty then [] else [⟨w.lower, w.upper⟩]

/-- src/wins/timeset.rs:64 `is_empty` -/
def isEmpty (s : TSet) : Bool := List.isEmpty s
/-- src/wins/timeset.rs:67-69 `is_singleton` -/
def isSingleton (s : TSet) : Bool := match s with | [i] => i.isSingleton | _ => false
/-- src/wins/timeset.rs:77-79 `is_low_bounded` -/
def isLowBounded (s : TSet) : Bool := match s.head? with | some i => i.isLowBounded | none => false
/-- src/wins/timeset.rs:82-84 `is_up_bounded` -/
def isUpBounded (s : TSet) : Bool := match s.getLast? with | some i => i.isUpBounded | none => false
/-- src/wins/timeset.rs:72-74 `is_bounded` -/
def isBounded (s : TSet) : Bool := isLowBounded s && isUpBounded s
/-- src/wins/timeset.rs:87-91 `lower_bound` -/
def lowerBound (s : TSet) : Int := match s.head? with | some i => i.lower | none => INF
/-- src/wins/timeset.rs:94-98 `upper_bound` -/
def upperBound (s : TSet) : Int := match s.getLast? with | some i => i.upper | none => -INF
/-- src/wins/timeset.rs:105 `convex_count` -/
def convexCount (s : TSet) : Nat := s.length
/-- src/wins/mod.rs:83 `is_convex` (default) -/
def isConvex (s : TSet) : Bool := decide (convexCount s ≤ 1)
/-- src/wins/mod.rs:76-78 `is_all` (default) -/
def isAll (s : TSet) : Bool := isConvex s && !isLowBounded s && !isUpBounded s
/-- src/wins/mod.rs:99-101 `convex_envelope` (default) -/
def convexEnvelope (s : TSet) : Iv := ⟨lowerBound s, upperBound s⟩

/-- src/wins/timeset.rs:114-121 `Neg` -/
def neg (s : TSet) : TSet := s.reverse.map Iv.neg

/-! ## Collecting, union, intersection -/

/-- src/wins/timeset.rs:125-141 `FromIterator<TimeInterval>`. The accumulator is updated either by
`push` or by `r |= i`, i.e. `r.union(i.into_iter()).collect()` (src/ops/union.rs:67-70, 138-140),
which calls `from_iter` again on the items of the union iterator. That recursion has no syntactic
bound, so the model carries a recursion budget, and running out of it is the error `stackOverflow`:
a theorem whose conclusion is `= .ok r` shows that the budget was sufficient. -/
def fromIterFuel : Nat → List Iv → Res TSet
  | 0, _ => .error .stackOverflow
  | _ + 1, [] => .ok []
  | k + 1, first :: rest =>
    rest.foldlM (fun r i =>
      if i.lower > justAfter (upperBound r) then .ok (r ++ [i])
      else fromIterFuel k (UnionIter.new r (Convex.iv i).iter).drain) (ofConvex (.iv first))

/-- `iter.collect::<TimeSet>()` -/
def fromIter (l : List Iv) : Res TSet := fromIterFuel (l.length + 2) l

/-- src/ops/union.rs:90-128 `TimeSet | TimeSet` (74-88: `|=`) -/
def union (a b : TSet) : Res TSet := fromIter (UnionIter.new a b).drain

/-- src/ops/union.rs:102-107, 132-141 `TimeSet | TW` for a convex window (64-71: `|=`):
`union(tw.into())` iterates the interval `tw.into()` -/
def unionConvex (a : TSet) (w : Convex) : Res TSet :=
  fromIter (UnionIter.new a (Convex.iv w.into).iter).drain

/-- src/wins/timeset.rs:147-152 `FromIterator<TimeSet>` -/
def fromSets : List TSet → Res TSet
  | [] => .ok []
  | s :: ss => ss.foldlM union s

/-- src/ops/intersect.rs:88-98, 108-126 `TimeSet & TimeSet` (69-83: `&=`) -/
def inter (a b : TSet) : Res TSet := fromIter (InterIter.new a b).drain

/-- src/ops/intersect.rs:100-105, 129-138 `TimeSet & TW` for a convex window -/
def interConvex (a : TSet) (w : Convex) : Res TSet :=
  fromIter (InterIter.new a (Convex.iv w.into).iter).drain

/-- src/wins/timeset.rs:175-192 `truncate_before` -/
def truncateBefore (s : TSet) (l : Int) : TSet × Bool :=
  match s.findIdx? (fun i => decide (i.upper ≥ l)) with
  | some 0 =>
    match s with
    | [] => (s, false)            -- unreachable: `position` found an element
    | x :: xs => let (x', c) := x.truncateBefore l; (x' :: xs, c)
  | some pos =>
    match s.drop pos with
    | [] => (s, false)            -- unreachable: `position` found an element
    | x :: xs => ((x.truncateBefore l).1 :: xs, true)
  | none => if s.isEmpty then (s, false) else ([], true)

/-- `Iterator::rposition`: index of the last element satisfying the predicate. -/
def rposition (p : Iv → Bool) (s : List Iv) : Option Nat :=
  (s.reverse.findIdx? p).map (fun k => s.length - 1 - k)

/-- Apply `f` to the last element (`get_unchecked_mut(pos)` with `pos` the last index). -/
def mapLast (f : Iv → Iv) : List Iv → List Iv
  | [] => []
  | [x] => [f x]
  | x :: y :: xs => x :: mapLast f (y :: xs)

/-- src/wins/timeset.rs:195-212 `truncate_after` -/
def truncateAfter (s : TSet) (u : Int) : TSet × Bool :=
  match rposition (fun i => decide (i.lower ≤ u)) s with
  | some pos =>
    if pos + 1 = s.length then
      match s.getLast? with
      | none => (s, false)        -- unreachable: `rposition` found an element
      | some x => (mapLast (fun i => (i.truncateAfter u).1) s, (x.truncateAfter u).2)
    else
      (mapLast (fun i => (i.truncateAfter u).1) (s.take (pos + 1)), true)
  | none => if s.isEmpty then (s, false) else ([], true)

/-- src/ops/intersect.rs:60-67 `TimeSet &= TW` for a convex window -/
def interAssignConvex (s : TSet) (w : Convex) : TSet :=
  (truncateBefore (truncateAfter s w.upper).1 w.lower).1

/-! ## Complement -/

/-- src/ops/compl.rs:16-25: the loop over the following intervals and the final push. -/
def complTail (previous : Int) : List Iv → List Iv
  | [] => if isFutureInfinite previous then [] else [(Convex.rangeFrom previous).into]
  | tw :: rest => ⟨previous, justBefore tw.lower⟩ :: complTail (justAfter tw.upper) rest

/-- src/ops/compl.rs:9-29 `!TimeSet` -/
def compl (s : TSet) : TSet :=
  match s with
  | [] => all
  | first :: rest =>
    let tail := complTail (justAfter first.upper) rest
    if !isPastInfinite (justBefore first.lower) then (Convex.rangeTo first.lower).into :: tail
    else tail

/-- src/iter/excl.rs:20-22 `i.exclusion(j)`: intersection with the complementary iterator -/
def exclusion (a b : List Iv) : InterIter := InterIter.new a (ComplIter.new b).drain

/-! ## Relations -/

end TSet

namespace Convex

/-- src/relns/contain.rs:13-15 `TimeConvex::contains(TimeBounds)` on the bounds of the argument -/
def containsBounds (w : Convex) (l u : Int) : Bool := decide (w.lower ≤ l) && decide (u ≤ w.upper)
/-- src/relns/contain.rs:13-15, convex argument -/
def contains (w v : Convex) : Bool := w.containsBounds v.lower v.upper
/-- src/relns/contain.rs:13-15, set argument -/
def containsSet (w : Convex) (s : TSet) : Bool := w.containsBounds (TSet.lowerBound s) (TSet.upperBound s)
/-- src/relns/overlap.rs:16-18 -/
def overlaps (w v : Convex) : Bool := decide (w.lower ≤ v.upper) && decide (v.lower ≤ w.upper)

end Convex

namespace TSet

/-- src/relns/contain.rs:23-29 `TimeSet::contains(convex)` -/
def contains (s : TSet) (w : Convex) : Bool :=
  match s.find? (fun ts => decide (ts.upper ≥ w.lower)) with
  | some ts => (Convex.iv ts).contains w
  | none => false

/-- src/relns/contain.rs:34-37 `TimeSet::contains(TimeSet)` -/
def containsSet (s r : TSet) : Bool := List.all r (fun tw => contains s (.iv tw))

/-- src/relns/overlap.rs:34-40 `TimeSet::overlaps(convex)` -/
def overlaps (s : TSet) (w : Convex) : Bool :=
  match s.find? (fun ts => decide (ts.upper ≥ w.lower)) with
  | some ts => decide (ts.lower ≤ w.upper)
  | none => false

/-- src/relns/overlap.rs:45-48 `TimeSet::overlaps(TimeSet)` -/
def overlapsSet (s r : TSet) : Bool := List.any r (fun tw => overlaps s (.iv tw))

end TSet

namespace Convex
/-- src/relns/overlap.rs:25-27 `convex.overlaps(TimeSet)` -/
def overlapsSet (w : Convex) (s : TSet) : Bool := TSet.overlaps s w
end Convex

/-! ## Equality and ordering (src/relns/ordering.rs) -/

/-- The right-hand side of `==`, `<`, ..: any `TimeWindow`. -/
inductive Window where
  | conv (w : Convex)
  | set (s : TSet)
  deriving DecidableEq

namespace Window

/-- `TimeBounds::lower_bound` -/
def lower : Window → Int
  | conv w => w.lower
  | set s => TSet.lowerBound s
/-- `TimeBounds::upper_bound` -/
def upper : Window → Int
  | conv w => w.upper
  | set s => TSet.upperBound s
/-- `TimeWindow::is_convex` (wins/mod.rs:123 and 83) -/
def isConvex : Window → Bool
  | conv _ => true
  | set s => TSet.isConvex s
/-- `TimeWindow::iter` (wins/mod.rs:135-145, timeset.rs:109-111) -/
def iter : Window → List Iv
  | conv w => w.iter
  | set s => s

end Window

/-- src/relns/ordering.rs:10-14 `TimeInterval == TimeWindow` -/
def Iv.eqWin (i : Iv) (o : Window) : Bool := o.isConvex && i.lower == o.lower && i.upper == o.upper

/-- src/relns/ordering.rs:22-24 `TimeSet == TimeWindow`: `Iterator::eq`, element equality being
`Iv.eqWin` on intervals. -/
def TSet.eqWin (s : TSet) (o : Window) : Bool :=
  go s o.iter
where
  go : List Iv → List Iv → Bool
    | [], [] => true
    | a :: as, b :: bs => a.eqWin (.conv (.iv b)) && go as bs
    | _, _ => false

/-- src/wins/timeinterval.rs:17 `derive(Hash)` on `TimeInterval`, src/wins/timevalue.rs:10 and src/wins/timestamp.rs:8 on the
bounds: the words given to the hasher, in order (one `i64` for each bound). -/
def Iv.hashInput (i : Iv) : List Int := [i.lower, i.upper]

/-- src/wins/timeset.rs:18 `derive(Hash)` on `TimeSet(Vec<TimeInterval>)`: the standard library hashes a `Vec` as its length
followed by its elements. -/
def TSet.hashInput (s : TSet) : List Int := (s.length : Int) :: s.flatMap Iv.hashInput

/-- The left-hand side of a comparison: `timepartialcmp!(TimeInterval)`, `timepartialcmp!(TimeSet)`
(src/relns/ordering.rs:70-71). -/
inductive LWin where
  | iv (i : Iv)
  | set (s : TSet)

namespace LWin
/-- the same value seen as a `TimeWindow` -/
def win : LWin → Window
  | iv i => .conv (.iv i)
  | set s => .set s
/-- `eq`: ordering.rs:10-14 or 22-24 -/
def eq : LWin → Window → Bool
  | iv i, o => i.eqWin o
  | set s, o => TSet.eqWin s o
/-- src/relns/ordering.rs:48-50 `lt` -/
def lt (a : LWin) (o : Window) : Bool := decide (a.win.upper < o.lower)
/-- src/relns/ordering.rs:53-55 `le` -/
def le (a : LWin) (o : Window) : Bool := a.lt o || a.eq o
/-- src/relns/ordering.rs:58-60 `gt` -/
def gt (a : LWin) (o : Window) : Bool := decide (a.win.lower > o.upper)
/-- src/relns/ordering.rs:63-65 `ge` -/
def ge (a : LWin) (o : Window) : Bool := a.gt o || a.eq o
/-- src/relns/ordering.rs:34-45 `partial_cmp` -/
def partialCmp (a : LWin) (o : Window) : Option Ordering :=
  if a.lt o then some .lt else if a.gt o then some .gt else if a.eq o then some .eq else none
end LWin

namespace TSet

/-! ## Translation (src/ops/transl.rs:173-363) -/

/-- src/ops/transl.rs:178-182 `TimeSet + TimeValue` -/
def addTv (dbg : Bool) (s : TSet) (d : Int) : Res TSet := s.mapM (fun tw => tw.addTv dbg d)
/-- src/ops/transl.rs:190-194 `TimeSet - TimeValue` -/
def subTv (dbg : Bool) (s : TSet) (d : Int) : Res TSet := s.mapM (fun tw => tw.subTv dbg d)
/-- src/ops/transl.rs:201-205 `TimeSet += TimeValue` -/
def addAssignTv (s : TSet) (d : Int) : Res TSet := s.mapM (fun tw => tw.addAssignTv d)
/-- src/ops/transl.rs:212-216 `TimeSet -= TimeValue` -/
def subAssignTv (s : TSet) (d : Int) : Res TSet := s.mapM (fun tw => tw.subAssignTv d)
/-- src/ops/transl.rs:223-227 `TimeSpans + Timestamp` (245: `Timestamp + TimeSpans`) -/
def addTs (dbg : Bool) (s : TSet) (t : Int) : Res TSet := s.mapM (fun tw => Iv.tsAddSpan dbg t tw)
/-- src/ops/transl.rs:234-238 `TimeSpans - Timestamp` (each element: 138, `(-other) + self`) -/
def subTs (dbg : Bool) (s : TSet) (t : Int) : Res TSet :=
  s.mapM (fun tw => Iv.tsAddSpan dbg (tvNeg t) tw)
/-- src/ops/transl.rs:252-257 `Timestamp - TimeSpans` -/
def tsSub (dbg : Bool) (t : Int) (s : TSet) : Res TSet :=
  s.reverse.mapM (fun i => Iv.tsSubSpan dbg t i)

/-- src/ops/transl.rs:267-270 `TimeSet + TimeSpan` (293-295 `+=`); src/iter/transl.rs:57-60
`translation(&TimeSpan)` is the same fold. -/
def addSpan (dbg : Bool) (s : TSet) (sp : Iv) : Res TSet :=
  s.foldlM (fun r i => do unionConvex r (.iv (← i.addSpan dbg sp))) []
/-- src/ops/transl.rs:280-284 `TimeSet - TimeSpan` (304-306 `-=`) -/
def subSpan (dbg : Bool) (s : TSet) (sp : Iv) : Res TSet :=
  s.foldlM (fun r i => do unionConvex r (.iv (← i.subSpan dbg sp))) []

/-- The pairs visited by the `flat_map` of src/ops/transl.rs:319-320 and 336-337. -/
def pairs (a b : TSet) : List (Iv × Iv) := a.flatMap (fun i => b.map (fun j => (i, j)))
/-- src/ops/transl.rs:317-323 `TimeSet + TimeSpans` (349-351 `+=`) -/
def addSpans (dbg : Bool) (s sp : TSet) : Res TSet := do
  fromIter (← (pairs s sp).mapM (fun p => p.1.addSpan dbg p.2))
/-- src/ops/transl.rs:334-340 `TimeSet - TimeSpans` (360-362 `-=`) -/
def subSpans (dbg : Bool) (s sp : TSet) : Res TSet := do
  fromIter (← (pairs s sp).mapM (fun p => p.1.subSpan dbg p.2))

/-- src/iter/transl.rs:36-39: the items of `TimeValueTranslIter` up to its first `None`. -/
def translIter (dbg : Bool) (d : Int) : List Iv → Res (List Iv)
  | [] => .ok []
  | tw :: rest => do
    let x ← tw.addTv dbg d
    if x.isEmpty then return [] else return x :: (← translIter dbg d rest)

/-! ## Scaling (src/ops/scaling.rs:255-375, src/iter/scaling.rs) -/

/-- src/ops/scaling.rs:260-277 `TimeSpans * n` -/
def mul (ty : Iv.ScaleTy) (s : TSet) (n : Int) : Res TSet := do
  if n = 0 then
    return if s.isEmpty then [] else [Iv.empty]
  else
    let inners := (← s.mapM (fun tw => tw.mul ty n)).filter (fun tw => !tw.isEmpty)
    return if n < 0 then inners.reverse else inners

/-- src/ops/scaling.rs:287-300 `TimeSpans *= n` -/
def mulAssign (ty : Iv.ScaleTy) (s : TSet) (n : Int) : Res TSet := do
  if n = 0 then
    return if s.isEmpty then s else [Iv.empty]
  else
    let l ← s.mapM (fun tw => tw.mul ty n)
    return if n < 0 then l.reverse else l

/-- src/ops/scaling.rs:362-375 `check_joined_inners`; the `while i < inners.len()` loop keeps
`inners[..i]` done, `previous` is `inners[i-1]`. -/
def checkJoined : List Iv → List Iv
  | [] => []
  | x :: xs => go x xs
where
  go (previous : Iv) : List Iv → List Iv
    | [] => [previous]
    | current :: rest =>
      if previous.upper ≥ justBefore current.lower then go ⟨previous.lower, current.upper⟩ rest
      else previous :: go current rest

/-- src/ops/scaling.rs:302-309 `TimeSpans /= n` (279-286 `/`) -/
def div (ty : Iv.ScaleTy) (s : TSet) (n : Int) : Res TSet := do
  if n = 0 then .error .assertFail
  else
    let l ← s.mapM (fun tw => tw.div ty n)
    return checkJoined (if n < 0 then l.reverse else l)

/-- src/iter/scaling.rs:36-39: the items of `TimeValueScaleIter` up to its first `None`. -/
def scaleIter (ty : Iv.ScaleTy) (n : Int) : List Iv → Res (List Iv)
  | [] => .ok []
  | tw :: rest => do
    let x ← tw.mul ty n
    if x.isEmpty then return [] else return x :: (← scaleIter ty n rest)

end TSet
end Chrono
