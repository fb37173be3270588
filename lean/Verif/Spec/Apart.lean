import Verif.Spec.Rename
import Verif.Spec.Sched

/-!
# Specification vocabulary: independent parts of a graph

A part of the instants is given by the function which answers `true` for them.
-/

namespace Chrono.Spec
open Chrono

/-- Nothing is known about the delay between an instant of the part and one of the rest. -/
def Unrelated (P : Nat → Bool) (g : Graph) : Prop :=
  ∀ i j, i < g.size → j < g.size → P i ≠ P j → g.timespan i j = .ok ⟨-INF, INF⟩

/-- Both instants of the constraint are in the part. -/
def Constr.within (P : Nat → Bool) (k : Constr) : Bool := P k.src && P k.dst

/-- The answers to those of the questions which satisfy `p`. -/
def answersTo {α : Type} (p : α → Bool) (questions : List α) (answers : List Outcome) : List Outcome :=
  ((questions.zip answers).filter fun x => p x.1).map fun x => x.2

/-- Successive calls on a scheduler, with all the answers. -/
def replies (dbg : Bool) : Sched → List Call → Res (Sched × List Outcome)
  | s, [] => .ok (s, [])
  | s, c :: l => do
    let (s', o) ← c.run dbg s
    let (s'', os) ← replies dbg s' l
    return (s'', o :: os)

/-- A call on one of the instants `0..n-1`, with a proper window. -/
def Call.Proper (n : Nat) : Call → Prop
  | .retain i w => i < n ∧ ProperWindow w
  | .remove i w => i < n ∧ ProperNeg w

/-- The call does not retain an interval or a range which is empty. -/
def Call.NonEmpty : Call → Prop
  | .retain _ (.conv w) => ∃ t, InExtConvex t w
  | _ => True

end Chrono.Spec
