import Verif.Model.Scheduler
import Verif.Model.ReleaseGraph

/-!
# The scheduler in a release build (src/graph/scheduler.rs)

The same functions as in `Model/Scheduler.lean`, with the constraints of the graph computed as a release build does
(`Model/ReleaseGraph.lean`: unsigned arithmetic wraps) and without the debug assertions of the translations. The
`debug_assert!` of src/graph/scheduler.rs:128 is about an index which is checked before (line 98).
-/

namespace Chrono
namespace Sched

/-- src/graph/scheduler.rs:126-142 `propagate_scheduling`, release build -/
def propagateSchedulingR (s : Sched) (i : Nat) : Res Sched := do
  let ks ← s.graph.constraintsFromR i
  return { s with schedule := ← ks.foldlM (propagateOne false i) s.schedule }

/-- src/graph/scheduler.rs:97-115 `retain`, release build -/
def retainR (s : Sched) (i : Nat) (tw : Window) : Res (Sched × Outcome) := do
  if i < s.schedule.length then
    let si ← sget s.schedule i
    if tw.containsSet si then return (s, .unchanged)
    else if !tw.overlapsSet si then return (s, .recovered)
    else
      let r ← tw.restrict si
      let s := { s with schedule := ← sset s.schedule i r }
      let s ← propagateSchedulingR s i
      return (s, .propagated)
  else .error .assertFail

/-- src/graph/scheduler.rs:117-124 `remove`, release build -/
def removeR (s : Sched) (i : Nat) (tw : Negatable) : Res (Sched × Outcome) := retainR s i (.set tw.not)

/-- src/graph/scheduler.rs:63-69, 82-88: the fold of `set_deadline` / `set_startline`, release build -/
def retainAllR (s : Sched) (tw : Window) : Res (Sched × Outcome) :=
  (List.range s.schedule.length).foldlM (fun (p : Sched × Outcome) i => do
    match ← retainR p.1 i tw with
    | (s, .unchanged) => return (s, p.2)
    | (s, .propagated) => return (s, .propagated)
    | _ => .error .unwrapNone) (s, .unchanged)

/-- src/graph/scheduler.rs:56-71 `set_deadline`, release build -/
def setDeadlineR (s : Sched) (deadline : Int) : Res (Sched × Outcome) :=
  if s.schedule.any (fun tw => decide (TSet.lowerBound tw > deadline)) then .ok (s, .recovered)
  else retainAllR s (.conv (.rangeToIncl deadline))

/-- src/graph/scheduler.rs:75-90 `set_startline`, release build -/
def setStartlineR (s : Sched) (startline : Int) : Res (Sched × Outcome) :=
  if s.schedule.any (fun tw => decide (TSet.upperBound tw < startline)) then .ok (s, .recovered)
  else retainAllR s (.conv (.rangeFrom startline))

end Sched
end Chrono
