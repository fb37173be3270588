import Verif.Spec.Lazy

/-!
# Specification vocabulary: the work of a pipeline
-/

namespace Chrono.Spec
open Chrono

/-- The iteration of a pipeline comes to its first `None`, or to a panic, in `n` turns. A turn is one round of the loop of one of the
iterators of the pipeline, together with the calls which hand on its result. -/
inductive Ends (dbg : Bool) : Pipe → Nat → Prop where
  | over {p p' : Pipe} : p.step dbg = .ok (.ret none, p') → Ends dbg p 1
  | panic {p : Pipe} {e : Panic} : p.step dbg = .error e → Ends dbg p 1
  | turn {p p' : Pipe} {t : Turn} {n : Nat} : p.step dbg = .ok (t, p') → t ≠ .ret none → Ends dbg p' n → Ends dbg p (n + 1)

/-- the number of intervals which a pipeline reads -/
def sources : Chain → Nat
  | .set s => s.length
  | .win w => w.iter.length
  | .into w => (Convex.iv ⟨w.lower, w.upper⟩).iter.length
  | .union a b | .inter a b | .excl a b => sources a + sources b
  | .compl a | .transl _ a | .scale _ _ a | .filter _ a | .skipWhile _ a | .takeWhile _ a | .skip _ a | .take _ a | .stepBy _ a
  | .same a => sources a

/-- the number of unions, intersections, exclusions and complements in a pipeline -/
def operators : Chain → Nat
  | .set _ | .win _ | .into _ => 0
  | .union a b | .inter a b | .excl a b => operators a + operators b + 1
  | .compl a => operators a + 1
  | .transl _ a | .scale _ _ a | .filter _ a | .skipWhile _ a | .takeWhile _ a | .skip _ a | .take _ a | .stepBy _ a | .same a =>
    operators a

/-- the greatest number of unions, intersections and exclusions which an interval goes through -/
def depth : Chain → Nat
  | .set _ | .win _ | .into _ => 0
  | .union a b | .inter a b | .excl a b => max (depth a) (depth b) + 1
  | .compl a | .transl _ a | .scale _ _ a | .filter _ a | .skipWhile _ a | .takeWhile _ a | .skip _ a | .take _ a | .stepBy _ a
  | .same a => depth a

end Chrono.Spec
