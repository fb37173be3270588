import Verif.Spec.Sched

/-!
# Specification vocabulary: explanations
-/

namespace Chrono.Spec
open Chrono

/-- A chain of the constraints `ks`, taken in one direction or in the other one, requires that the instant `j` is at least `w` ticks after
the instant `i`: the least delay of each constraint followed from its source to its target, minus the greatest delay of each constraint
followed backwards. -/
inductive Leads (ks : List Constr) (i : Nat) : Nat → Int → Prop where
  | here : Leads ks i i 0
  | least {k : Constr} {w : Int} : Leads ks i k.src w → k ∈ ks → k.lower ≠ -INF → Leads ks i k.dst (w + k.lower)
  | most {k : Constr} {w : Int} : Leads ks i k.dst w → k ∈ ks → k.upper ≠ INF → Leads ks i k.src (w - k.upper)

/-- A chain of the constraints `ks` comes back to the instant it comes from and requires that this instant is after itself. -/
def Loop (ks : List Constr) : Prop := ∃ i w, Leads ks i i w ∧ 0 < w

/-- The time span `s` from `i` to `j` is what the chains of the constraints require, and nothing more: each bound is the total of a chain,
there is no chain with a stronger total, and a side without a bound is one without a chain. -/
def Explained (ks : List Constr) (i j : Nat) (s : Iv) : Prop :=
  (s.lower ≠ -INF → Leads ks i j s.lower ∧ ∀ w, Leads ks i j w → w ≤ s.lower) ∧
  (s.lower = -INF → ∀ w, ¬ Leads ks i j w) ∧
  (s.upper ≠ INF → Leads ks j i (-s.upper) ∧ ∀ w, Leads ks j i w → s.upper ≤ -w) ∧
  (s.upper = INF → ∀ w, ¬ Leads ks j i w)

/-- The request `c` alone explains why the instant `i` is not before `t`: it asks that some instant `j` is not before some date, and `t` is this
date plus the least delay from `j` to `i`. -/
def Pushes (g : Graph) (c : PlanCall) (i : Nat) (t : Int) : Prop :=
  ∃ j d s, j < g.size ∧ (∀ τ, c.Allows g.size τ → d ≤ τ j) ∧ g.timespan j i = .ok s ∧ s.lower ≠ -INF ∧ t = d + s.lower

/-- The request `c` alone explains why the instant `i` is not after `t`: it asks that some instant `j` is not after some date, and `t` is this
date plus the greatest delay from `j` to `i`. -/
def Pulls (g : Graph) (c : PlanCall) (i : Nat) (t : Int) : Prop :=
  ∃ j d s, j < g.size ∧ (∀ τ, c.Allows g.size τ → τ j ≤ d) ∧ g.timespan j i = .ok s ∧ s.upper ≠ INF ∧ t = d + s.upper

end Chrono.Spec
