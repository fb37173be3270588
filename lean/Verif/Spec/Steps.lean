import Verif.Spec.Graph

/-!
# Plans made of steps
What follows is independent of the computations: a plan in which each instant is at most placed with respect to one other
instant, and the delays which the sums of the steps allow.
-/

namespace Chrono.Spec

/-- The constraints `ks` place each instant with respect to at most one other instant, its origin, and no chain of origins
comes back: the origin of an instant has a smaller `rank`. A constraint may be repeated. -/
structure Forest (origin : Nat → Nat) (step : Nat → Iv) (rank : Nat → Nat) (ks : List Constr) : Prop where
  /-- the constraint is not empty -/
  some : ∀ k ∈ ks, k.isEmpty = false
  /-- it starts from the origin of the instant it places -/
  from_origin : ∀ k ∈ ks, k.src = origin k.dst
  /-- it gives the step of this instant -/
  delay : ∀ k ∈ ks, (⟨k.lower, k.upper⟩ : Iv) = step k.dst
  /-- origins never come back -/
  rises : ∀ k ∈ ks, rank k.src < rank k.dst

/-- Steps of the plan go from the instant `i` to the instant `j`, and delays which they allow add up to `d`. -/
inductive StepsTo (origin : Nat → Nat) (step : Nat → Iv) (ks : List Constr) (i : Nat) : Nat → Int → Prop where
  | here : StepsTo origin step ks i i 0
  | next {j : Nat} {d e : Int} : StepsTo origin step ks i (origin j) d → (∃ k ∈ ks, k.dst = j) → InExt e (step j) →
      StepsTo origin step ks i j (d + e)

end Chrono.Spec
