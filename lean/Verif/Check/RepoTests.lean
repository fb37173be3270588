import Verif.Model.Format
import Verif.Model.DateTime
import Verif.Model.Scheduler

/-! The unit tests of /repo, transcribed to the model and evaluated by the kernel. They prove no property: they are evidence that the
definitions under `Model/` do what the Rust code does. The empty tests and the parts which only print are left out. -/

namespace Chrono.Check
open Chrono

/-- `to_string()` of sets of durations -/
def showSet (s : TSet) : String := match displaySet displayTv s with
  | .ok x => String.ofList x
  | .error _ => "panic"

/-- `to_string()` of durations -/
def showTv (t : Res Int) : String := match t >>= displayTv with
  | .ok x => String.ofList x
  | .error _ => "panic"

/-- chrono's `%M:%S` -/
def minSec (d : DateTime) : List Char :=
  let two (n : Int) := intStr (n / 10) ++ intStr (n % 10)
  two (d.secs / 60 % 60) ++ ":".toList ++ two (d.secs % 60)

/-! src/wins/timevalue.rs:364-372 `ceil` -/
example : ceilTo 13 5 = .ok 15 := by decide
example : ceilTo 13 13 = .ok 13 := by decide
example : ceilTo 0 13 = .ok 0 := by decide
example : ceilTo (-13) 5 = .ok (-10) := by decide
example : ceilTo (-15) 5 = .ok (-15) := by decide

/-! src/wins/timevalue.rs:374-382 `floor` -/
example : floorTo 13 5 = .ok 10 := by decide
example : floorTo 13 13 = .ok 13 := by decide
example : floorTo 13 14 = .ok 0 := by decide
example : floorTo 0 13 = .ok 0 := by decide
example : floorTo (-13) 5 = .ok (-15) := by decide
example : floorTo (-13) 13 = .ok (-13) := by decide

/-! src/wins/convert.rs:93-112 `convert` (integer literals are `i32`) -/
example : intHours .i32 1 = intSecs .i32 3600 := by decide
example : intHours .i32 24 = intDays .i32 1 := by decide
example : intNanos .i32 1000000 = intMicros .i32 1000 := by decide
example : intNanos .i32 1000000 = intMillis .i32 1 := by decide
example : showTv (intMillis .i32 10) = "10ms" := by decide +kernel
example : showTv (intMicros .i32 10) = "10us" := by decide +kernel

/-- `1.weeks() + 5.hours() + 7.mins() + 4.secs() + 42.millis()` -/
def aTime : Res Int := do
  let t ← tvAdd (intWeeks .i32 1) (intHours .i32 5)
  let t ← tvAdd t (intMins .i32 7)
  let t ← tvAdd t (intSecs .i32 4)
  tvAdd t (← intMillis .i32 42)

example : showTv (aTime >>= tvDays) = "7d" := by decide +kernel
example : showTv (aTime >>= tvHours) = "7d 5h" := by decide +kernel
example : showTv (aTime >>= tvMins) = "7d 5h 7min" := by decide +kernel
example : showTv (do return tvSecs (← aTime)) = "7d 5h 7min 4s" := by decide +kernel

/-! The two lines of the test which are commented out there: the text is not the expected one, see C81. -/
example : showTv (intMicros .i32 1) = "999ns" ∧ showTv (intMillis .i32 1) ≠ "1ms" := by decide +kernel

/-! src/ops/mod.rs:25-34 `union` -/
example : showSet (Iv.union (Iv.new (fromSecs 1) (fromSecs 4)) (.rangeIncl (fromSecs 3) (fromSecs 5))) = "[1s,5s]" := by
  decide +kernel
example : showSet (Iv.union (Convex.into (.point (fromSecs 7))) (.rangeIncl (fromSecs 1) (fromSecs 3))) = "[1s,3s]U{7s}" := by
  decide +kernel
example : (match formatTimeset (formatTs fun d => .ok (minSec d))
      (Iv.union (Convex.into (.point (fromSecs 70))) (.rangeIncl (fromSecs 1) (fromSecs 3))) with
    | .ok x => String.ofList x | .error _ => "panic") = "[00:01,00:03]U{01:10}" := by
  decide +kernel

/-! src/ops/mod.rs:37-48 `union2` -/
example : (do return TSet.eqWin (← TSet.union (TSet.convex 82 178) (TSet.convex 179 279)) (.conv (.iv (Iv.new 82 279)))) =
    (.ok true : Res Bool) := by decide +kernel

/-! src/ops/mod.rs:51-64 `union3` (which prints) -/
example : (do TSet.unionConvex (← TSet.unionConvex TSet.empty (.iv (Iv.new 1 5))) (.iv (Iv.new 10 20))) =
    .ok [⟨1, 5⟩, ⟨10, 20⟩] := by decide +kernel

/-! src/ops/mod.rs:66-71 `union4` -/
example : TSet.union TSet.empty TSet.all = .ok TSet.all := by decide +kernel

/-! src/relns/mod.rs:22-36 `contains` -/
example : Iv.centered 10 5 = .ok (some ⟨5, 15⟩) := by decide
/-- `!t1 & !t5 & !tw10` -/
def tw : Res TSet := do TSet.inter (← TSet.inter (pointCompl 1) (pointCompl 5)) (Iv.compl ⟨5, 15⟩)
example : (do return String.ofList (debugSet debugTv (← tw))) = (.ok "]-oo,0]U[2,4]U[16,+oo[" : Res String) := by decide +kernel
example : (do return TSet.contains (← tw) (.point 3)) = (.ok true : Res Bool) := by decide +kernel
example : (do return TSet.contains (← tw) (.point 100)) = (.ok true : Res Bool) := by decide +kernel
example : (do return TSet.contains (← tw) (.point (-15))) = (.ok true : Res Bool) := by decide +kernel
example : (do return TSet.contains (← tw) (.point 10)) = (.ok false : Res Bool) := by decide +kernel

/-! src/graph/storage.rs:179-198 `init`, in three parts: the first graph, its iterator, the second graph -/
def init1 : Graph := ⟨6, [0, -INF, 0, 5, -INF, -INF, 0, -INF, -INF, -INF, -INF, -INF, 0, -INF, 7, 12, -INF, -INF, -INF, -INF, 0, -INF, 4,
  -INF, -INF, -INF, -INF, -INF, -INF, -INF, 0, -INF, -INF, -INF, -INF, -INF]⟩
def initConstraints : List Constr :=
  [⟨0, 1, false, 5, INF⟩, ⟨0, 3, false, 12, INF⟩, ⟨1, 3, false, 7, INF⟩, ⟨2, 4, false, 4, INF⟩]
example : (do
    let g ← Graph.withSize 3
    let g ← g.resize 6
    let (g, o1) ← g.propagate (Constr.ofConvex 0 1 (.rangeFrom 5))
    let (g, o2) ← g.propagate (Constr.ofConvex 1 3 (.rangeFrom 7))
    let (g, o3) ← g.propagate (Constr.ofConvex 2 4 (.rangeFrom 4))
    return (g, [o1, o2, o3])) = (.ok (init1, [.propagated, .propagated, .propagated]) : Res (Graph × List Outcome)) := by
  decide +kernel
example : init1.iterAll = .ok initConstraints := by
  have s1 : ∀ i j, i < 6 → j + 1 < 6 → init1.related i (j + 1) = .ok false →
      init1.iterLoop i j = init1.iterLoop i (j + 1) := by
    intro i j hi hj hr
    have e : init1.size = 6 := rfl
    rw [Graph.iterLoop, dif_neg (by omega), if_neg (by omega), hr]
  have s2 : ∀ i, i + 1 < 6 → init1.iterLoop i 5 = init1.iterLoop (i + 1) (i + 1) := by
    intro i hi
    have e : init1.size = 6 := rfl
    rw [Graph.iterLoop, dif_neg (by omega), if_pos (by omega), if_neg (by omega)]
  have h1 : init1.iterLoop 0 0 = .ok (some ⟨0, 1, false, 5, INF⟩, (0, 1)) := by rw [Graph.iterLoop]; decide +kernel
  have h2 : init1.iterLoop 0 1 = .ok (some ⟨0, 3, false, 12, INF⟩, (0, 3)) := by
    rw [s1 0 1 (by decide) (by decide) (by decide +kernel), Graph.iterLoop]; decide +kernel
  have h3 : init1.iterLoop 0 3 = .ok (some ⟨1, 3, false, 7, INF⟩, (1, 3)) := by
    rw [s1 0 3 (by decide) (by decide) (by decide +kernel), s1 0 4 (by decide) (by decide) (by decide +kernel), s2 0 (by decide),
      s1 1 1 (by decide) (by decide) (by decide +kernel), Graph.iterLoop]
    decide +kernel
  have h4 : init1.iterLoop 1 3 = .ok (some ⟨2, 4, false, 4, INF⟩, (2, 4)) := by
    rw [s1 1 3 (by decide) (by decide) (by decide +kernel), s1 1 4 (by decide) (by decide) (by decide +kernel), s2 1 (by decide),
      s1 2 2 (by decide) (by decide) (by decide +kernel), Graph.iterLoop]
    decide +kernel
  have h5 : init1.iterLoop 2 4 = .ok (none, (6, 6)) := by
    rw [s1 2 4 (by decide) (by decide) (by decide +kernel), s2 2 (by decide), s1 3 3 (by decide) (by decide) (by decide +kernel),
      s1 3 4 (by decide) (by decide) (by decide +kernel), s2 3 (by decide), s1 4 4 (by decide) (by decide) (by decide +kernel),
      s2 4 (by decide), Graph.iterLoop]
    rfl
  have n : ∀ i j, i < 6 → init1.iterNext (i, j) = init1.iterLoop i j := by
    intro i j h
    unfold Graph.iterNext
    rw [if_neg (by show ¬ i = 6; omega)]
  unfold Graph.iterAll Graph.iterInit
  show Graph.runIter init1.iterNext 37 (0, 0) = _
  simp only [Graph.runIter, n _ _ (show 0 < 6 by omega), n _ _ (show 1 < 6 by omega), n _ _ (show 2 < 6 by omega), h1, h2, h3, h4, h5,
    bind, Except.bind]
  rfl
example : (do
    let h ← Graph.withSize 7
    let hint ← init1.graphSizeHint Graph.iterInit
    let (h, o) ← h.extend (some hint) initConstraints
    let h ← h.shrinkToFit
    return (h.size, o)) = (.ok (5, .propagated) : Res (Nat × Outcome)) := by decide +kernel

/-! src/graph/scheduler.rs:173-190 `propagation` -/
example : (do
    let g ← Graph.withSize 3
    let (g, o1) ← g.propagate (Constr.ofConvex 0 1 (.rangeIncl (fromHours 0) (fromHours 5)))
    let (g, o2) ← g.propagate (Constr.ofConvex 1 2 (.rangeIncl (fromHours 7) (fromHours 10)))
    let (g, o3) ← g.propagate (Constr.ofConvex 0 2 (.rangeIncl (fromHours 10) (fromHours 25)))
    let (g, o4) ← g.propagate (Constr.ofConvex 0 2 (.rangeIncl (fromHours 0) (fromHours 15)))
    let (s, o5) ← (Sched.new g).setStartline true 0
    let (_, o6) ← s.setDeadline true (fromDays 2)
    return [o1, o2, o3, o4, o5, o6]) =
    (.ok [.propagated, .propagated, .propagated, .unchanged, .propagated, .propagated] : Res (List Outcome)) := by
  decide +kernel

/-! README.md, ((I | J) & K).is_empty() -/
example : (do return TSet.isEmpty (← TSet.inter (← TSet.union [⟨1, 5⟩] [⟨10, 20⟩]) [⟨7, 8⟩, ⟨30, 40⟩])) =
    (.ok true : Res Bool) := by decide +kernel

end Chrono.Check
