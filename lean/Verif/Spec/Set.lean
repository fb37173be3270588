import Verif.Spec.Time
import Verif.Model.TimeSet

/-!
# Specification vocabulary: windows of any kind, sets away from the extreme ticks
-/

namespace Chrono.Spec
open Chrono

/-- No finite bound is one of the two extreme representable ticks. (A bound `-oo + 1 tick` and the
bound `-oo` describe the same dates; this excludes the former.) -/
def NoExtreme (s : List Iv) : Prop := ∀ i ∈ s, i.lower ≠ -INF + 1 ∧ i.upper ≠ INF - 1

instance (s : List Iv) : Decidable (NoExtreme s) := inferInstanceAs (Decidable (∀ i ∈ s, _))

/-- The dates denoted by a window of any kind. -/
def InWindow (t : Int) : Window → Prop
  | .conv w => InConvex t w
  | .set s => InSet t s

/-- A window with at least one date, sensibly built: a non-empty proper convex window or a non-empty
canonical set. -/
def NonEmptyWindow : Window → Prop
  | .conv w => Proper w ∧ ∃ t, Date t ∧ InConvex t w
  | .set s => Canon s ∧ s ≠ []

/-- No interval of the one starts right after the end of an interval of the other. -/
def NoTouch (a b : List Iv) : Prop :=
  ∀ i ∈ a, ∀ j ∈ b, i.upper + 1 ≠ j.lower ∧ j.upper + 1 ≠ i.lower

instance (a b : List Iv) : Decidable (NoTouch a b) :=
  inferInstanceAs (Decidable (∀ i ∈ a, ∀ j ∈ b, _))

/-- `a | b` loses no date (C30 for these two sets). -/
def Lossless (a b : TSet) : Prop := ∃ r, TSet.union a b = .ok r ∧ ∀ t, InSet t a ∨ InSet t b → InSet t r

/-- Which of two increasing lists of ends is ahead after a walk in increasing order (`true` for the second): an end of one list only
puts it ahead, a common end puts the other one ahead. -/
def ahead : Bool → List Int → List Int → Bool
  | s, [], [] => s
  | _, _ :: _, [] => false
  | _, [], _ :: _ => true
  | s, x :: a, y :: b => if x < y then ahead false a (y :: b) else if y < x then ahead true (x :: a) b else ahead (!s) a b
termination_by _ a b => a.length + b.length

end Chrono.Spec
