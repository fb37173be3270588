import Verif.Model.Graph

/-!
# The scheduler (src/graph/scheduler.rs)
-/

namespace Chrono

/-- src/graph/scheduler.rs:20-23 `TimeScheduler`: the borrowed graph and one time set per instant -/
structure Sched where
  graph : Graph
  schedule : List TSet
  deriving DecidableEq, Repr

/-- `get_unchecked` on the schedule -/
def sget (d : List TSet) (k : Nat) : Res TSet :=
  match d[k]? with
  | some x => .ok x
  | none => .error .outOfBounds

/-- write through `get_unchecked_mut` on the schedule -/
def sset (d : List TSet) (k : Nat) (v : TSet) : Res (List TSet) :=
  if k < d.length then .ok (d.set k v) else .error .outOfBounds

/-- The types whose complement `!tw` is a window (src/ops/compl.rs): sets, intervals, time points. -/
inductive Negatable where
  | iv (i : Iv)
  | point (t : Int)
  | set (s : TSet)
  deriving DecidableEq

/-- `!tw` (src/ops/compl.rs:5-30, 33-55, 59-85) -/
def Negatable.not : Negatable → TSet
  | iv i => i.compl
  | point t => pointCompl t
  | set s => TSet.compl s

namespace Window

/-- `tw.contains(&set)`: src/relns/contain.rs:13-15 or 34-37 -/
def containsSet : Window → TSet → Bool
  | conv w, s => w.containsSet s
  | set r, s => TSet.containsSet r s

/-- `tw.overlaps(&set)`: src/relns/overlap.rs:25-27 or 45-48 -/
def overlapsSet : Window → TSet → Bool
  | conv w, s => w.overlapsSet s
  | set r, s => TSet.overlapsSet r s

/-- `set &= tw`: src/ops/intersect.rs:60-67 or 69-83 -/
def restrict : Window → TSet → Res TSet
  | conv w, s => .ok (TSet.interAssignConvex s w)
  | set r, s => TSet.inter s r

end Window

namespace Sched

/-- src/graph/scheduler.rs:27-33 `new` -/
def new (g : Graph) : Sched := ⟨g, List.replicate g.size TSet.all⟩

/-- src/graph/scheduler.rs:39 `scheduling` -/
def scheduling (s : Sched) (i : Nat) : Option TSet := s.schedule[i]?

/-- src/graph/scheduler.rs:45-47 `latest_beginning` (`unwrap` of the minimum of an empty iterator) -/
def latestBeginning (s : Sched) : Res Int :=
  match s.schedule.map TSet.upperBound with
  | [] => .error .unwrapNone
  | x :: xs => .ok (xs.foldl min x)

/-- src/graph/scheduler.rs:50-52 `earliest_ending` -/
def earliestEnding (s : Sched) : Res Int :=
  match s.schedule.map TSet.lowerBound with
  | [] => .error .unwrapNone
  | x :: xs => .ok (xs.foldl max x)

/-- src/graph/scheduler.rs:133-139: the body of the loop of `propagate_scheduling` for the
constraint `k` starting from `i`; `iter().translation(&span)` is src/iter/transl.rs:57-60. -/
def propagateOne (dbg : Bool) (i : Nat) (sch : List TSet) (k : Constr) : Res (List TSet) := do
  let sj ← sget sch k.dst
  let si ← sget sch i
  let t ← TSet.addSpan dbg si k.span
  let r ← TSet.inter sj t
  sset sch k.dst r

/-- src/graph/scheduler.rs:126-142 `propagate_scheduling`. The graph is not modified by the loop, so
the constraints it iterates can be listed first. -/
def propagateScheduling (dbg : Bool) (s : Sched) (i : Nat) : Res Sched := do
  let ks ← s.graph.constraintsFrom i
  return { s with schedule := ← ks.foldlM (propagateOne dbg i) s.schedule }

/-- src/graph/scheduler.rs:97-115 `retain` -/
def retain (dbg : Bool) (s : Sched) (i : Nat) (tw : Window) : Res (Sched × Outcome) := do
  if i < s.schedule.length then
    let si ← sget s.schedule i
    if tw.containsSet si then return (s, .unchanged)
    else if !tw.overlapsSet si then return (s, .recovered)
    else
      let r ← tw.restrict si
      let s := { s with schedule := ← sset s.schedule i r }
      let s ← propagateScheduling dbg s i
      return (s, .propagated)
  else .error .assertFail

/-- src/graph/scheduler.rs:117-124 `remove` -/
def remove (dbg : Bool) (s : Sched) (i : Nat) (tw : Negatable) : Res (Sched × Outcome) :=
  retain dbg s i (.set tw.not)

/-- src/graph/scheduler.rs:63-69, 82-88: the fold of `set_deadline` / `set_startline` over all
instants, `unwrap`ping each `retain` -/
def retainAll (dbg : Bool) (s : Sched) (tw : Window) : Res (Sched × Outcome) :=
  (List.range s.schedule.length).foldlM (fun (p : Sched × Outcome) i => do
    match ← retain dbg p.1 i tw with
    | (s, .unchanged) => return (s, p.2)
    | (s, .propagated) => return (s, .propagated)
    | _ => .error .unwrapNone) (s, .unchanged)

/-- src/graph/scheduler.rs:56-71 `set_deadline` -/
def setDeadline (dbg : Bool) (s : Sched) (deadline : Int) : Res (Sched × Outcome) :=
  if s.schedule.any (fun tw => decide (TSet.lowerBound tw > deadline)) then .ok (s, .recovered)
  else retainAll dbg s (.conv (.rangeToIncl deadline))

/-- src/graph/scheduler.rs:75-90 `set_startline` -/
def setStartline (dbg : Bool) (s : Sched) (startline : Int) : Res (Sched × Outcome) :=
  if s.schedule.any (fun tw => decide (TSet.upperBound tw < startline)) then .ok (s, .recovered)
  else retainAll dbg s (.conv (.rangeFrom startline))

end Sched
end Chrono
