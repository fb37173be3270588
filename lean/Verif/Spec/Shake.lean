import Verif.Spec.Explain

/-!
# Specification vocabulary: small changes
-/

namespace Chrono.Spec
open Chrono

/-- Two bounds are both absent (`none` is the infinity which stands for the absence), or they are both present and at most `d` ticks apart. -/
def NearBound (none d a b : Int) : Prop := (a = none ∧ b = none) ∨ (a ≠ none ∧ b ≠ none ∧ a - b ≤ d ∧ b - a ≤ d)

/-- The bounds of two spans are the same, except for at most `d` ticks. -/
def NearSpan (d : Int) (s t : Iv) : Prop := NearBound (-INF) d s.lower t.lower ∧ NearBound INF d s.upper t.upper

/-- The constraints of the second list are those of the first one, with the same instants, and with bounds moved by at most as many ticks as
the list of numbers says. -/
inductive Shaken : List Int → List Constr → List Constr → Prop where
  | nil : Shaken [] [] []
  | cons {d : Int} {k k' : Constr} {ds : List Int} {ks ks' : List Constr} : k'.src = k.src → k'.dst = k.dst → NearSpan d k.span k'.span →
      Shaken ds ks ks' → Shaken (d :: ds) (k :: ks) (k' :: ks')

/-- Each assignment allowed by one of the two requests is at most `d` ticks away from an assignment allowed by the other one. -/
def NearCalls (n : Nat) (d : Int) (c c' : PlanCall) : Prop :=
  (∀ τ, c.Allows n τ → ∃ τ', c'.Allows n τ' ∧ ∀ j, τ j - τ' j ≤ d ∧ τ' j - τ j ≤ d) ∧
  (∀ τ', c'.Allows n τ' → ∃ τ, c.Allows n τ ∧ ∀ j, τ j - τ' j ≤ d ∧ τ' j - τ j ≤ d)

/-- `t` is the earliest date left for the instant `i`. -/
def Earliest (s : Sched) (i : Nat) (t : Int) : Prop := Slot s i t ∧ ∀ t', Slot s i t' → t ≤ t'

/-- `t` is the latest date left for the instant `i`. -/
def Latest (s : Sched) (i : Nat) (t : Int) : Prop := Slot s i t ∧ ∀ t', Slot s i t' → t' ≤ t

end Chrono.Spec
