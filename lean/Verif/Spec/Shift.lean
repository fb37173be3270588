import Verif.Spec.ReleaseSched
import Verif.Spec.Chain

/-!
# Specification vocabulary: moving the origin of time
-/

namespace Chrono.Spec
open Chrono

/-- The date `d` ticks later; the infinities stay where they are. -/
def later (d x : Int) : Int := if x = INF ∨ x = -INF then x else x + d

/-- Everything in the interval `d` ticks later. -/
def laterIv (d : Int) (i : Iv) : Iv := ⟨later d i.lower, later d i.upper⟩

/-- Everything in the set `d` ticks later. -/
def laterSet (d : Int) (s : List Iv) : List Iv := s.map (laterIv d)

/-- The same for the windows of other types. -/
def laterConvex (d : Int) : Convex → Convex
  | .iv i => .iv (laterIv d i)
  | .point t => .point (later d t)
  | .range a b => .range (later d a) (later d b)
  | .rangeFrom a => .rangeFrom (later d a)
  | .rangeIncl a b => .rangeIncl (later d a) (later d b)
  | .rangeTo b => .rangeTo (later d b)
  | .rangeToIncl b => .rangeToIncl (later d b)

/-- The same for a window of any kind. -/
def laterWindow (d : Int) : Window → Window
  | .conv w => .conv (laterConvex d w)
  | .set s => .set (laterSet d s)

/-- The same for what is removed from a schedule. -/
def laterNeg (d : Int) : Negatable → Negatable
  | .iv i => .iv (laterIv d i)
  | .point t => .point (later d t)
  | .set s => .set (laterSet d s)

/-- The same request, `d` ticks later. -/
def laterReq (d : Int) : Req → Req
  | .retain i w => .retain i (laterWindow d w)
  | .remove i w => .remove i (laterNeg d w)
  | .deadline t => .deadline (later d t)
  | .startline t => .startline (later d t)

/-- The same schedule, `d` ticks later: the graph, which holds delays only, is the same. -/
def laterSched (d : Int) (s : Sched) : Sched := { s with schedule := s.schedule.map (laterSet d) }

/-- How many times the request may propagate the slots of one of the `n` instants to the others. -/
def Req.turns (n : Nat) : Req → Nat
  | .retain .. => 1
  | .remove .. => 1
  | .deadline _ => n
  | .startline _ => n

/-- The time point is infinite, or at most `W` ticks away from 0. -/
def Near (W x : Int) : Prop := x = INF ∨ x = -INF ∨ (-W ≤ x ∧ x ≤ W)

/-- The bounds of the intervals are. -/
def NearSet (W : Int) (s : List Iv) : Prop := ∀ i ∈ s, Near W i.lower ∧ Near W i.upper

/-- The bounds written in a window of another type are. -/
def NearConvex (W : Int) : Convex → Prop
  | .iv i => Near W i.lower ∧ Near W i.upper
  | .point t => Near W t
  | .range a b => Near W a ∧ Near W b
  | .rangeFrom a => Near W a
  | .rangeIncl a b => Near W a ∧ Near W b
  | .rangeTo b => Near W b
  | .rangeToIncl b => Near W b

/-- The same for a window of any kind. -/
def NearWindow (W : Int) : Window → Prop
  | .conv w => NearConvex W w
  | .set s => NearSet W s

/-- The same for what is removed from a schedule. -/
def NearNeg (W : Int) : Negatable → Prop
  | .iv i => Near W i.lower ∧ Near W i.upper
  | .point t => Near W t
  | .set s => NearSet W s

/-- The same for a request. -/
def NearReq (W : Int) : Req → Prop
  | .retain _ w => NearWindow W w
  | .remove _ w => NearNeg W w
  | .deadline t => Near W t
  | .startline t => Near W t

/-- The same for all the slots of a schedule. -/
def NearSched (W : Int) (s : Sched) : Prop := ∀ w ∈ s.schedule, NearSet W w

end Chrono.Spec
