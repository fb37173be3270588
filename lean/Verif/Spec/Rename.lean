import Verif.Spec.Graph

/-!
# Specification vocabulary: the same constraints with other names, in the other direction, or in mirrored time
-/

namespace Chrono.Spec
open Chrono

/-- The same constraint, with other names for the instants. -/
def renamed (σ : Nat → Nat) (k : Constr) : Constr := { k with src := σ k.src, dst := σ k.dst }

/-- The constraint seen in a mirror: later is earlier. -/
def mirrored (k : Constr) : Constr := { k with lower := -k.upper, upper := -k.lower }

/-- The same constraint, given from its target to its source. -/
def flipped (k : Constr) : Constr := ⟨k.dst, k.src, k.isEmpty, -k.upper, -k.lower⟩

/-- `m * x + c`, infinities staying where they are. -/
def affine (m c x : Int) : Int := if x = -INF ∨ x = INF then x else m * x + c

/-- The same constraint, when the date `t` of each instant `i` is written `m * t + p i`: other units (`m` ticks for one tick), and another
origin of time for each instant. -/
def rescaled (m : Int) (p : Nat → Int) (k : Constr) : Constr :=
  { k with lower := affine m (p k.dst - p k.src) k.lower, upper := affine m (p k.dst - p k.src) k.upper }

/-- `σ` only gives other names to the instants `0..n-1`, and `ρ` gives the first names back. -/
def Renaming (n : Nat) (σ ρ : Nat → Nat) : Prop := ∀ i, i < n → σ i < n ∧ ρ i < n ∧ ρ (σ i) = i ∧ σ (ρ i) = i

/-- Successive calls of `propagate`, with all the answers. -/
def answers : Graph → List Constr → Res (Graph × List Outcome)
  | g, [] => .ok (g, [])
  | g, k :: ks => do
    let (g', o) ← g.propagate k
    let (g'', os) ← answers g' ks
    return (g'', o :: os)

end Chrono.Spec
