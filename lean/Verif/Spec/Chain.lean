import Verif.Spec.Set
import Verif.Spec.Arith
import Verif.Model.Chain

/-!
# Specification vocabulary: chains of window iterators
-/

namespace Chrono.Spec
open Chrono

/-- The way a chain has to be used for its items to keep the contract of window iterators: it starts from canonical
sets and proper windows; the two sides of an intersection (or exclusion) do not touch; a translation or a scaling does not overflow, and
the factor is positive; `step_by` is not given 0. The conditions on operands are about the items they yield. -/
def Used (dbg : Bool) : Chain → Prop
  | .set s => Canon s
  | .win w => Proper w
  | .into w => Proper w
  | .union a b => Used dbg a ∧ Used dbg b
  | .inter a b => Used dbg a ∧ Used dbg b ∧
      ∀ x y, a.items dbg = .ok x → b.items dbg = .ok y → NoTouch x y
  | .compl a => Used dbg a
  | .excl a b => Used dbg a ∧ Used dbg b ∧
      ∀ x y, a.items dbg = .ok x → b.items dbg = .ok y → NoTouch x (TSet.compl y)
  | .transl d a => Used dbg a ∧ Date d ∧ ∀ x, a.items dbg = .ok x → ∀ i ∈ x, FitsSum i ⟨d, d⟩
  | .scale ty n a => Used dbg a ∧ 0 < n ∧ ScaleOk ty n ∧ ∀ x, a.items dbg = .ok x → ∀ i ∈ x, FitsMul i n
  | .filter _ a => Used dbg a
  | .skipWhile _ a => Used dbg a
  | .takeWhile _ a => Used dbg a
  | .skip _ a => Used dbg a
  | .take _ a => Used dbg a
  | .stepBy n a => 0 < n ∧ Used dbg a
  | .same a => Used dbg a

/-- The dates a chain of set operations is meant to have. -/
def Meant (t : Int) : Chain → Prop
  | .set s => InSet t s
  | .win w => InConvex t w
  | .into w => InConvex t w
  | .union a b => Meant t a ∨ Meant t b
  | .inter a b => Meant t a ∧ Meant t b
  | .compl a => ¬ Meant t a
  | .excl a b => Meant t a ∧ ¬ Meant t b
  | .same a => Meant t a
  | _ => False

/-- Chains made of set operations only, to any depth; in each union the last interval of the second operand, if there is
one, ends after the last but one of the first operand (otherwise a union loses dates, see C30). -/
def SetOps (dbg : Bool) : Chain → Prop
  | .set _ => True
  | .win _ => True
  | .into _ => True
  | .union a b => SetOps dbg a ∧ SetOps dbg b ∧ ∀ x y, a.items dbg = .ok x → b.items dbg = .ok y →
      y = [] ∨ ∀ i ∈ x.dropLast, ∃ j ∈ y, i.upper < j.upper
  | .inter a b => SetOps dbg a ∧ SetOps dbg b
  | .compl a => SetOps dbg a
  | .excl a b => SetOps dbg a ∧ SetOps dbg b
  | .same a => SetOps dbg a
  | _ => False

end Chrono.Spec
