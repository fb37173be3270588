import Verif.Model.TimeSet

/-!
# Chains of lazy window iterators (src/iter/*.rs)

`TimeSet::into_iter` gives a window iterator; `union`, `intersection`, `complementary`, `exclusion`, `translation`,
`scaling` make a new one from others, and the adaptors of the standard library which src/iter/mod.rs:80-138 declares to
be window iterators too. A `Chain` is such a pipeline, of any depth.
-/

namespace Chrono

/-- A pipeline of window iterators. -/
inductive Chain where
  /-- src/iter/mod.rs:61-79 `IntoIterator for TimeSet` (and `&TimeSet`), src/wins/timeset.rs:109-111 `iter` -/
  | set (s : TSet)
  /-- src/wins/mod.rs:132-145 `iter` of an interval, a date or a range -/
  | win (w : Convex)
  /-- src/iter/mod.rs:36-52 `IntoIterator for TimeInterval`; as an operand, src/iter/union.rs:27-45, intersect.rs:25-43 (an
  interval), src/ops/range.rs:70-83 (a range, converted to an interval by range.rs:84-89) -/
  | into (w : Convex)
  /-- src/iter/union.rs:15-25 `union` of two window iterators -/
  | union (a b : Chain)
  /-- src/iter/intersect.rs:13-23 `intersection` of two window iterators -/
  | inter (a b : Chain)
  /-- src/iter/compl.rs:10-22 `complementary` -/
  | compl (a : Chain)
  /-- src/iter/excl.rs:12-23 `exclusion` -/
  | excl (a b : Chain)
  /-- src/iter/transl.rs:14-24 `translation(d)` -/
  | transl (d : Int) (a : Chain)
  /-- src/iter/scaling.rs:14-23 `scaling(n)` -/
  | scale (ty : Iv.ScaleTy) (n : Int) (a : Chain)
  /-- src/iter/mod.rs:88-94 `Filter`; the predicate is a function, without state -/
  | filter (p : Iv → Bool) (a : Chain)
  /-- src/iter/mod.rs:103-109 `SkipWhile` -/
  | skipWhile (p : Iv → Bool) (a : Chain)
  /-- src/iter/mod.rs:111-117 `TakeWhile` -/
  | takeWhile (p : Iv → Bool) (a : Chain)
  /-- src/iter/mod.rs:119-123 `Skip` -/
  | skip (n : Nat) (a : Chain)
  /-- src/iter/mod.rs:125-129 `Take` -/
  | take (n : Nat) (a : Chain)
  /-- src/iter/mod.rs:81-86 `StepBy` -/
  | stepBy (n : Nat) (a : Chain)
  /-- src/iter/mod.rs:96-101 `Peekable`, 131-138 `Inspect`: the same items -/
  | same (a : Chain)

/-- The items of `Iterator::step_by(n + 1)`: the first, then each `n + 1`-th one. -/
def stepList (n : Nat) : List Iv → List Iv
  | [] => []
  | x :: xs => x :: stepList n (xs.drop n)
termination_by l => l.length
decreasing_by simp only [List.length_cons, List.length_drop]; omega

namespace Chain

/-- The items a chain yields, in order. The inner iterators are evaluated up to their first `None` (the combinators
wrap them in `Fuse`, src/iter/union.rs:95-97, intersect.rs:94-96), so a panic of an item which `take` or `intersection`
would never ask for is reported as well: the only simplification, see C117 and `Pipe.step` (Model/Lazy.lean), where the
inner iterators are advanced one call at a time. `step_by(0)` panics. -/
def items (dbg : Bool) : Chain → Res (List Iv)
  | .set s => .ok s
  | .win w => .ok w.iter
  | .into w => .ok (Convex.iv ⟨w.lower, w.upper⟩).iter
  | .union a b => do return (UnionIter.new (← a.items dbg) (← b.items dbg)).drain
  | .inter a b => do return (InterIter.new (← a.items dbg) (← b.items dbg)).drain
  | .compl a => do return (ComplIter.new (← a.items dbg)).drain
  | .excl a b => do return (TSet.exclusion (← a.items dbg) (← b.items dbg)).drain
  | .transl d a => do TSet.translIter dbg d (← a.items dbg)
  | .scale ty n a => do TSet.scaleIter ty n (← a.items dbg)
  | .filter p a => do return (← a.items dbg).filter p
  | .skipWhile p a => do return (← a.items dbg).dropWhile p
  | .takeWhile p a => do return (← a.items dbg).takeWhile p
  | .skip n a => do return (← a.items dbg).drop n
  | .take n a => do return (← a.items dbg).take n
  | .stepBy n a => do
    match n with
    | 0 => .error .assertFail
    | n + 1 => return stepList n (← a.items dbg)
  | .same a => a.items dbg

/-- `chain.collect::<TimeSet>()`: src/wins/timeset.rs:125-141 -/
def collect (dbg : Bool) (c : Chain) : Res TSet := do TSet.fromIter (← c.items dbg)

/-- The same computation with a set collected at each step: `|` (src/ops/union.rs:90-128), `&`
(src/ops/intersect.rs:88-126), `!` (src/ops/compl.rs:5-29), `+ d` (src/ops/transl.rs:173-182), `* n`
(src/ops/scaling.rs:260-277); `TimeSet::from` (src/wins/timeset.rs:161-168) for a window; for an adaptor of the standard library `s.into_iter().adaptor(..).collect()`. -/
def operators (dbg : Bool) : Chain → Res TSet
  | .set s => .ok s
  | .win w => .ok (TSet.ofConvex w)
  | .into w => .ok (TSet.ofConvex w)
  | .union a b => do TSet.union (← a.operators dbg) (← b.operators dbg)
  | .inter a b => do TSet.inter (← a.operators dbg) (← b.operators dbg)
  | .compl a => do return TSet.compl (← a.operators dbg)
  | .excl a b => do TSet.inter (← a.operators dbg) (TSet.compl (← b.operators dbg))
  | .transl d a => do TSet.addTv dbg (← a.operators dbg) d
  | .scale ty n a => do TSet.mul ty (← a.operators dbg) n
  | .filter p a => do TSet.fromIter ((← a.operators dbg).filter p)
  | .skipWhile p a => do TSet.fromIter ((← a.operators dbg).dropWhile p)
  | .takeWhile p a => do TSet.fromIter ((← a.operators dbg).takeWhile p)
  | .skip n a => do TSet.fromIter ((← a.operators dbg).drop n)
  | .take n a => do TSet.fromIter ((← a.operators dbg).take n)
  | .stepBy n a => do
    match n with
    | 0 => .error .assertFail
    | n + 1 => TSet.fromIter (stepList n (← a.operators dbg))
  | .same a => a.operators dbg

/-- src/iter/transl.rs:51-62 `translation(&span)`: the call itself exhausts the chain, folding `r | (item + span)` from the empty set,
and gives back an iterator over that set, on which the next stages are put. (A panic of an item the chain would never ask for is
reported as well, as in `items`.) -/
def translSpan (dbg : Bool) (sp : Iv) (c : Chain) : Res Chain := do return .set (← TSet.addSpan dbg (← c.items dbg) sp)

end Chain
end Chrono
