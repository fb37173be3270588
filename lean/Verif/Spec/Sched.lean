import Verif.Spec.Graph
import Verif.Spec.Set
import Verif.Model.Scheduler

/-!
# Specification vocabulary: schedules

Dates are on the unbounded time line, as for the solutions of a graph: an infinite bound is no bound.
-/

namespace Chrono.Spec
open Chrono

/-- The point `t` of the unbounded time line is in the convex window. -/
def InExtConvex (t : Int) : Convex → Prop
  | .iv i => InExt t i
  | .point p => t = p
  | .range a b => (a = -INF ∨ a ≤ t) ∧ (b = INF ∨ t < b)
  | .rangeFrom a => a = -INF ∨ a ≤ t
  | .rangeIncl a b => (a = -INF ∨ a ≤ t) ∧ (b = INF ∨ t ≤ b)
  | .rangeTo b => b = INF ∨ t < b
  | .rangeToIncl b => b = INF ∨ t ≤ b

/-- The same for a window of any kind. -/
def InExtWindow (t : Int) : Window → Prop
  | .conv w => InExtConvex t w
  | .set s => InExtSet t s

/-- A proper window of any kind: an interval, a range, .. whose bounds are used sensibly, or a canonical set. -/
def ProperWindow : Window → Prop
  | .conv w => Proper w
  | .set s => Canon s

/-- The point `t` is in the slots which `scheduling(i)` announces. -/
def Slot (s : Sched) (i : Nat) (t : Int) : Prop := ∃ w, s.scheduling i = some w ∧ InExtSet t w

/-- The assignment satisfies the constraints and is within the slots of each instant. -/
def Feasible (τ : Nat → Int) (s : Sched) : Prop := Sat τ s.graph ∧ ∀ i, i < s.graph.size → Slot s i (τ i)

/-- A canonical schedule: one canonical set for each instant of the graph. -/
def CanonSched (s : Sched) : Prop := s.schedule.length = s.graph.size ∧ ∀ w ∈ s.schedule, Canon w

/-- No pair of instants has an empty time span. -/
def Spanned (g : Graph) : Prop := ∀ i j, i < g.size → j < g.size → ∀ s, g.timespan i j = .ok s → WF s

/-- All the finite bounds of the intervals are at most `W` ticks, in absolute value. -/
def WithinSet (W : Int) (s : List Iv) : Prop :=
  ∀ i ∈ s, (i.lower = -INF ∨ (-W ≤ i.lower ∧ i.lower ≤ W)) ∧ (i.upper = INF ∨ (-W ≤ i.upper ∧ i.upper ≤ W))

/-- The same for a schedule. -/
def WithinSched (W : Int) (s : Sched) : Prop := ∀ w ∈ s.schedule, WithinSet W w

/-- The same for a convex window, whose bounds are also allowed to be infinite (an excluded upper bound must be above
`-W`, so that the date before it is not below). -/
def WithinConvex (W : Int) : Convex → Prop
  | .iv i => i = ⟨INF, -INF⟩ ∨ WithinSet W [i]
  | .point p => -W ≤ p ∧ p ≤ W
  | .range a b => (a = -INF ∨ (-W ≤ a ∧ a ≤ W)) ∧ (b = INF ∨ (-W < b ∧ b ≤ W))
  | .rangeFrom a => a = -INF ∨ (-W ≤ a ∧ a ≤ W)
  | .rangeIncl a b => (a = -INF ∨ (-W ≤ a ∧ a ≤ W)) ∧ (b = INF ∨ (-W ≤ b ∧ b ≤ W))
  | .rangeTo b => b = INF ∨ (-W < b ∧ b ≤ W)
  | .rangeToIncl b => b = INF ∨ (-W ≤ b ∧ b ≤ W)

/-- The same for a window of any kind. -/
def WithinWindow (W : Int) : Window → Prop
  | .conv w => WithinConvex W w
  | .set s => WithinSet W s

/-- The window, if it is a set, has no interval starting or ending just beside an interval of the current slots of `i`.
No condition for an interval, a range, .. -/
def Apart (s : Sched) (i : Nat) : Window → Prop
  | .conv _ => True
  | .set r => ∀ w, s.scheduling i = some w → NoTouch w r

/-- An interval of the one set ends just before the point `c`, where an interval of the other starts. -/
def SideBySide (c : Int) (a b : List Iv) : Prop :=
  ∃ x ∈ a, ∃ z ∈ b, (x.upper + 1 = c ∧ z.lower = c) ∨ (z.upper + 1 = c ∧ x.lower = c)

/-- `c` is such a point between the current slots of `i` and the set `r`. -/
def Border (s : Sched) (i : Nat) (r : List Iv) (c : Int) : Prop := ∃ w, s.scheduling i = some w ∧ SideBySide c w r

/-- `v` is the last point of the set (possibly an infinity), -oo for the empty set. -/
def IsLast (v : Int) (w : List Iv) : Prop := (w = [] ∧ v = -INF) ∨ (InSet v w ∧ ∀ t, InSet t w → t ≤ v)

/-- `v` is the first point of the set (possibly an infinity), +oo for the empty set. -/
def IsFirst (v : Int) (w : List Iv) : Prop := (w = [] ∧ v = INF) ∨ (InSet v w ∧ ∀ t, InSet t w → v ≤ t)

/-- The point `t` is in what `remove` is asked to remove. -/
def InExtNeg (t : Int) : Negatable → Prop
  | .iv i => InExt t i
  | .point p => t = p
  | .set s => InExtSet t s

/-- Something `remove` can be asked to remove: a well-formed or empty interval, a date, a canonical set. -/
def ProperNeg : Negatable → Prop
  | .iv i => WF i ∨ i = ⟨INF, -INF⟩
  | .point p => Date p
  | .set s => Canon s

/-- Its intervals. -/
def partsOf : Negatable → List Iv
  | .iv i => if i = ⟨INF, -INF⟩ then [] else [i]
  | .point p => [⟨p, p⟩]
  | .set s => s

/-- An interval of the slots of `i` and an interval of what is removed end together, just before the date `c`, or start
together, at `c`. -/
def Flush (s : Sched) (i : Nat) (w : Negatable) (c : Int) : Prop :=
  Date c ∧ ∃ v, s.scheduling i = some v ∧ ∃ x ∈ v, ∃ y ∈ partsOf w,
    (x.upper + 1 = c ∧ y.upper + 1 = c) ∨ (x.lower = c ∧ y.lower = c)

/-- Its finite bounds are at most `W` ticks, in absolute value. -/
def WithinNeg (W : Int) : Negatable → Prop
  | .iv i => i = ⟨INF, -INF⟩ ∨ WithinSet W [i]
  | .point p => -W ≤ p ∧ p ≤ W
  | .set s => WithinSet W s

/-- The calls which add a constraint to one instant of a schedule. -/
inductive Call where
  | retain (i : Nat) (w : Window)
  | remove (i : Nat) (w : Negatable)
deriving DecidableEq

/-- Make the call. -/
def Call.run (dbg : Bool) (s : Sched) : Call → Res (Sched × Outcome)
  | .retain i w => s.retain dbg i w
  | .remove i w => s.remove dbg i w

/-- The instant it is about. -/
def Call.instant : Call → Nat
  | .retain i _ => i
  | .remove i _ => i

/-- The call allows this date for its instant. -/
def Call.Allows (t : Int) : Call → Prop
  | .retain _ w => InExtWindow t w
  | .remove _ w => ¬ InExtNeg t w

/-- A call with a proper window, on one of the instants `0..n-1`, with finite bounds of at most `W` ticks in absolute
value (strictly less for `remove`, so that the date after or before it is at most `W`). -/
def Call.Ok (n : Nat) (W : Int) : Call → Prop
  | .retain i w => i < n ∧ ProperWindow w ∧ WithinWindow W w
  | .remove i w => i < n ∧ ProperNeg w ∧ WithinNeg (W - 1) w

/-- Successive calls, and those which have been accepted (`Ok(_)`). -/
def callAll (dbg : Bool) : Sched → List Call → Res (Sched × List Call)
  | s, [] => .ok (s, [])
  | s, c :: l => do
    let (s', o) ← c.run dbg s
    let (s'', acc) ← callAll dbg s' l
    return (s'', if o = .recovered ∨ o = .fatal then acc else c :: acc)

/-- The calls which add convex constraints: an interval, a range, .. for one instant, or a last or first date for all. -/
inductive PlanCall where
  | retain (i : Nat) (w : Convex)
  | deadline (d : Int)
  | startline (d : Int)
deriving DecidableEq, Repr

/-- Make the call. -/
def PlanCall.run (dbg : Bool) (s : Sched) : PlanCall → Res (Sched × Outcome)
  | .retain i w => s.retain dbg i (.conv w)
  | .deadline d => s.setDeadline dbg d
  | .startline d => s.setStartline dbg d

/-- The call allows this assignment of the instants `0..n-1`. -/
def PlanCall.Allows (n : Nat) (τ : Nat → Int) : PlanCall → Prop
  | .retain i w => InExtConvex (τ i) w
  | .deadline d => ∀ j, j < n → d = INF ∨ τ j ≤ d
  | .startline d => ∀ j, j < n → d = -INF ∨ d ≤ τ j

/-- A call with a non-empty window on one of the instants `0..n-1`, or a deadline or startline, with finite bounds of at
most `W` ticks in absolute value. -/
def PlanCall.Ok (n : Nat) (W : Int) : PlanCall → Prop
  | .retain i w => i < n ∧ Proper w ∧ (∃ t, InExtConvex t w) ∧ WithinConvex W w
  | .deadline d => d = INF ∨ (-W ≤ d ∧ d ≤ W)
  | .startline d => d = -INF ∨ (-W ≤ d ∧ d ≤ W)

/-- Successive calls, and those which have been accepted (`Ok(_)`). -/
def planAll (dbg : Bool) : Sched → List PlanCall → Res (Sched × List PlanCall)
  | s, [] => .ok (s, [])
  | s, c :: l => do
    let (s', o) ← c.run dbg s
    let (s'', acc) ← planAll dbg s' l
    return (s'', if o = .recovered ∨ o = .fatal then acc else c :: acc)

/-- Dates chosen one after the other for some instants, each in the slots which are left for its instant when the former ones have been
requested; at most `W` ticks in absolute value. -/
def Choices (dbg : Bool) (W : Int) : Sched → List (Nat × Int) → Prop
  | _, [] => True
  | s, (i, t) :: l => Slot s i t ∧ -W ≤ t ∧ t ≤ W ∧ ∀ s' o, s.retain dbg i (.conv (.point t)) = .ok (s', o) → Choices dbg W s' l

/-- The instants `0..n-1` have finite dates. -/
def FiniteDates (n : Nat) (τ : Nat → Int) : Prop := ∀ i, i < n → Date (τ i)

instance (t : Int) (w : Convex) : Decidable (InExtConvex t w) := by
  cases w <;> unfold InExtConvex <;> infer_instance
instance (s : Sched) : Decidable (CanonSched s) := inferInstanceAs (Decidable (_ ∧ _))
instance (W : Int) (s : List Iv) : Decidable (WithinSet W s) := inferInstanceAs (Decidable (∀ i ∈ s, _))
instance (W : Int) (s : Sched) : Decidable (WithinSched W s) := inferInstanceAs (Decidable (∀ w ∈ s.schedule, _))
instance (W : Int) (w : Convex) : Decidable (WithinConvex W w) := by
  cases w <;> unfold WithinConvex <;> infer_instance
instance (t : Int) (w : Window) : Decidable (InExtWindow t w) := by
  cases w <;> unfold InExtWindow <;> infer_instance
instance (w : Window) : Decidable (ProperWindow w) := by
  cases w <;> unfold ProperWindow <;> infer_instance
instance (W : Int) (w : Window) : Decidable (WithinWindow W w) := by
  cases w <;> unfold WithinWindow <;> infer_instance
instance (t : Int) (w : Negatable) : Decidable (InExtNeg t w) := by
  cases w <;> unfold InExtNeg <;> infer_instance
instance (w : Negatable) : Decidable (ProperNeg w) := by
  cases w <;> unfold ProperNeg <;> infer_instance
instance (W : Int) (w : Negatable) : Decidable (WithinNeg W w) := by
  cases w <;> unfold WithinNeg <;> infer_instance
instance (t : Int) (c : Call) : Decidable (c.Allows t) := by
  cases c <;> unfold Call.Allows <;> infer_instance
instance (n : Nat) (W : Int) (c : Call) : Decidable (c.Ok n W) := by
  cases c <;> unfold Call.Ok <;> infer_instance

end Chrono.Spec
