import Verif.Spec.Sched

/-!
# Specification: plans joined at one instant (C153)
-/

namespace Chrono.Spec

/-- The instants `0..n-1` of the graph are covered by two parts which share the instant `c` only, and each delay from an instant of the first
part to an instant of the second one is the sum of a delay to `c` and a delay from `c`. -/
structure Coupled (P Q : Nat → Bool) (c : Nat) (g : Graph) : Prop where
  shared : c < g.size ∧ P c = true ∧ Q c = true
  only : ∀ i, P i = true → Q i = true → i = c
  all : ∀ i, i < g.size → P i = true ∨ Q i = true
  through : ∀ i j, i < g.size → j < g.size → P i = true → Q j = true → ∀ s s1 s2, g.timespan i j = .ok s → g.timespan i c = .ok s1 →
    g.timespan c j = .ok s2 → ∀ d, InExt d s ↔ ∃ d1 d2, InExt d1 s1 ∧ InExt d2 s2 ∧ d = d1 + d2

/-- The request is about an instant of the part; a deadline or a startline is about every part. -/
def PlanCall.about (P : Nat → Bool) : PlanCall → Bool
  | .retain i _ => P i
  | .deadline _ => true
  | .startline _ => true

end Chrono.Spec
