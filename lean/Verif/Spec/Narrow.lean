import Verif.Spec.Set
import Verif.Spec.Arith
import Verif.Model.TimeSet

/-!
# Specification vocabulary: expressions which narrow sets
-/

namespace Chrono.Spec
open Chrono

/-- An expression which narrows sets, to any depth: `a & b` (src/ops/intersect.rs:88-98, 108-126), `a & w` with an interval, a
date or a range (100-105, 129-138), `a &= w` (60-67), `a.truncate_before(l)` and `a.truncate_after(u)` (src/wins/timeset.rs:175-212),
`-a` (114-121). -/
inductive Narrow where
  | set (s : TSet)
  | inter (a b : Narrow)
  | interWith (a : Narrow) (w : Convex)
  | assign (a : Narrow) (w : Convex)
  | before (a : Narrow) (l : Int)
  | after (a : Narrow) (u : Int)
  | neg (a : Narrow)

namespace Narrow

/-- The value of the expression: every operation is applied to the values of its operands, as the program does. -/
def eval : Narrow → Res TSet
  | .set s => .ok s
  | .inter a b => do TSet.inter (← a.eval) (← b.eval)
  | .interWith a w => do TSet.interConvex (← a.eval) w
  | .assign a w => do return TSet.interAssignConvex (← a.eval) w
  | .before a l => do return (TSet.truncateBefore (← a.eval) l).1
  | .after a u => do return (TSet.truncateAfter (← a.eval) u).1
  | .neg a => do return TSet.neg (← a.eval)

/-- The dates which the expression is meant to have. -/
def Has (t : Int) : Narrow → Prop
  | .set s => InSet t s
  | .inter a b => a.Has t ∧ b.Has t
  | .interWith a w => a.Has t ∧ InConvex t w
  | .assign a w => a.Has t ∧ InConvex t w
  | .before a l => a.Has t ∧ l ≤ t
  | .after a u => a.Has t ∧ t ≤ u
  | .neg a => a.Has (-t)

/-- It starts from sets in canonical form, the windows are proper, and it is cut at dates (or at the infinity which cuts nothing). -/
def Proper : Narrow → Prop
  | .set s => Canon s
  | .inter a b => a.Proper ∧ b.Proper
  | .interWith a w => a.Proper ∧ Spec.Proper w
  | .assign a w => a.Proper ∧ Spec.Proper w
  | .before a l => a.Proper ∧ -INF ≤ l ∧ l < INF
  | .after a u => a.Proper ∧ -INF < u ∧ u ≤ INF
  | .neg a => a.Proper

end Narrow

/-- Sets under any nest of intersections. -/
inductive Nest where
  | set (s : TSet)
  | inter (a b : Nest)

namespace Nest

/-- The value of the nest (src/ops/intersect.rs:88-98, 108-126). -/
def eval : Nest → Res TSet
  | .set s => .ok s
  | .inter a b => do TSet.inter (← a.eval) (← b.eval)

/-- The sets it is made of. -/
def sets : Nest → List TSet
  | .set s => [s]
  | .inter a b => a.sets ++ b.sets

end Nest

end Chrono.Spec
