import Verif.Spec.Sched

/-!
# Specification: schedules without intervals which have no date (C152)
-/

namespace Chrono.Spec

/-- Going through the slots of the instant `i` shows at least one interval, and none without a date. -/
def Pure (s : Sched) (i : Nat) : Prop := ∃ w, s.scheduling i = some w ∧ w ≠ [] ∧ ∀ x ∈ w, x.lower ≤ x.upper

/-- Calls made one after the other, in a debug or a release build; each call which answers `Ok(Propagated)` leaves the slots of its instant without
an interval which has no date. -/
def callsPure (dbg : Bool) : Sched → List Call → Prop
  | _, [] => True
  | s, c :: l => ∀ s' o, c.run dbg s = .ok (s', o) → (o = .propagated → Pure s' c.instant) ∧ callsPure dbg s' l

end Chrono.Spec
