import Verif.Spec.Sched

/-!
# Specification vocabulary: the delay along a route from instant to instant
-/

namespace Chrono.Spec
open Chrono

/-- A user adds up the time spans announced on the way from `i` through the instants of the list, with the operator `+` of time spans. -/
def routeSpan (dbg : Bool) (g : Graph) : Iv → Nat → List Nat → Res Iv
  | acc, _, [] => .ok acc
  | acc, i, j :: l => do
    let s ← g.timespan i j
    let r ← acc.addSpan dbg s
    routeSpan dbg g r j l

/-- The last instant of the route. -/
def routeEnd (i : Nat) (l : List Nat) : Nat := (i :: l).getLast (by simp)

end Chrono.Spec
