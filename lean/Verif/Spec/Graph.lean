import Verif.Spec.Time
import Verif.Model.Graph

/-!
# Specification vocabulary: assignments of dates, constraints, solutions

Everything is stated with what the user gives (constraints) and what the user reads (`size`,
`timespan`). An assignment `τ` gives a date `τ i` to each instant `i`, on the unbounded time line.
-/

namespace Chrono.Spec
open Chrono

/-- The assignment `τ` satisfies the constraint `k`: it is not empty and the delay from its source to its
target is between its bounds. -/
def Holds (τ : Nat → Int) (k : Constr) : Prop :=
  k.isEmpty = false ∧ InExt (τ k.dst - τ k.src) ⟨k.lower, k.upper⟩

/-- The assignment `τ` is a solution of the graph: each delay is in the announced time span. -/
def Sat (τ : Nat → Int) (g : Graph) : Prop :=
  ∀ i j, i < g.size → j < g.size → ∃ s, g.timespan i j = .ok s ∧ InExt (τ j - τ i) s

/-- The graph is minimal: it has a solution, and each delay announced by `timespan` is the one of some solution. -/
def Minimal (g : Graph) : Prop :=
  (∃ τ, Sat τ g) ∧
  ∀ i j, i < g.size → j < g.size → ∀ s, g.timespan i j = .ok s → ∀ d, InExt d s →
    ∃ τ, Sat τ g ∧ τ j - τ i = d

/-- The graph is allocated: at most 65535 instants (so that all the cells can be numbered with an `u32`) and
at least one cell for each pair. -/
def Valid (g : Graph) : Prop := g.size ≤ 65535 ∧ g.size * g.size ≤ g.data.length

/-- No constraint is hidden beyond the instants of the graph: growing it (up to the 65535 instants which can be
represented) gives unconstrained instants. Every operation keeps this, except a fatal failure of `extend` or
`merge`. -/
def Clean (g : Graph) : Prop :=
  ∀ n, g.size ≤ n → n ≤ 65535 → ∃ g', g.resize n = .ok g' ∧
    ∀ i j, i < n → j < n → i ≠ j → (g.size ≤ i ∨ g.size ≤ j) → g'.timespan i j = .ok ⟨-INF, INF⟩

/-- The delay of each instant of the graph with itself is 0. Every minimal graph has this property; so has a graph just
grown by a constraint, which may not be minimal. -/
def ZeroDiag (g : Graph) : Prop := ∀ i, i < g.size → g.timespan i i = .ok ⟨0, 0⟩

/-- The memory beyond the instants of the graph holds no bound: a cell which is still allocated there has the
value -oo, or 0 on the diagonal. Every operation keeps this, except a fatal failure of `extend` or `merge`. -/
def Tidy (g : Graph) : Prop :=
  ∀ c v, g.size * g.size ≤ c → g.data[c]? = some v → v = -INF ∨ (v = 0 ∧ ∃ i, c = i * i + i)

/-- All the finite bounds of the graph are at most `B` ticks, in absolute value. -/
def Within (B : Int) (g : Graph) : Prop :=
  ∀ i j, i < g.size → j < g.size → ∀ s, g.timespan i j = .ok s →
    (s.lower = -INF ∨ (-B ≤ s.lower ∧ s.lower ≤ B)) ∧ (s.upper = INF ∨ (-B ≤ s.upper ∧ s.upper ≤ B))

/-- The finite bounds of the constraint are at most `B` ticks, in absolute value. -/
def WithinK (B : Int) (k : Constr) : Prop :=
  (k.lower = -INF ∨ (-B ≤ k.lower ∧ k.lower ≤ B)) ∧ (k.upper = INF ∨ (-B ≤ k.upper ∧ k.upper ≤ B))

/-- A constraint a user may reasonably give on the instants `0..n-1`: if not empty, its bounds are well formed and, if
finite, at most `W` ticks in absolute value. -/
def Usable (n : Nat) (W : Int) (k : Constr) : Prop :=
  k.src < n ∧ k.dst < n ∧ (k.isEmpty = false → WF ⟨k.lower, k.upper⟩ ∧ WithinK W k)

/-- A constraint a user may give in a batch: its finite bounds are at most `W` ticks in absolute value and, if it is
empty, its bounds show it. -/
def Batchable (n : Nat) (W : Int) (k : Constr) : Prop :=
  k.src < n ∧ k.dst < n ∧ WithinK W k ∧ (k.isEmpty = true → k.upper < k.lower)

/-- Successive calls of `propagate`, with the list of the constraints which have been accepted (`Ok(_)`). -/
def propagateAll : Graph → List Constr → Res (Graph × List Constr)
  | g, [] => .ok (g, [])
  | g, k :: ks => do
    let (g', o) ← g.propagate k
    let (g'', acc) ← propagateAll g' ks
    return (g'', if o = .recovered ∨ o = .fatal then acc else k :: acc)

/-- The delays between the `n` first instants are durations which can be represented (the largest finite one is
`INF - 1` ticks). -/
def Representable (n : Nat) (τ : Nat → Int) : Prop := ∀ i j, i < n → j < n → -INF < τ j - τ i ∧ τ j - τ i < INF

/-- Two graphs say the same: same instants and same time spans. -/
def SameGraph (g h : Graph) : Prop := g.size = h.size ∧ ∀ i j, g.timespan i j = h.timespan i j

/-- The state of an iterator after `m` calls of `next`. -/
def advance {S α : Type} (next : S → Res (Option α × S)) : Nat → S → Res S
  | 0, s => .ok s
  | m + 1, s => do
    let (_, s') ← next s
    advance next m s'

/-- The operations which change a graph. -/
inductive Op where
  | propagate (k : Constr) | extend (hint : Option Nat) (ks : List Constr) | merge (h : Graph)
  | resize (n : Nat) | reset | shrinkToFit

/-- Call the operation; `Ok(Unchanged)` stands for the result of the operations which return nothing. -/
def Op.run (g : Graph) : Op → Res (Graph × Outcome)
  | .propagate k => g.propagate k
  | .extend hint ks => g.extend hint ks
  | .merge h => g.merge h
  | .resize n => do return (← g.resize n, .unchanged)
  | .reset => do return (← g.reset, .unchanged)
  | .shrinkToFit => do return (← g.shrinkToFit, .unchanged)

/-- The operation mentions only instants below 65535. -/
def Op.InRange : Op → Prop
  | .propagate k => k.src < 65535 ∧ k.dst < 65535
  | .extend _ ks => ∀ k ∈ ks, k.src < 65535 ∧ k.dst < 65535
  | .merge h => Valid h
  | .resize n => n ≤ 65535
  | .reset => True
  | .shrinkToFit => True

/-- A history of operations, whatever they return. -/
def runOps (g : Graph) (ops : List Op) : Res Graph := ops.foldlM (fun g op => do return (← op.run g).1) g

instance (g : Graph) : Decidable (Valid g) := inferInstanceAs (Decidable (_ ∧ _))
instance (B : Int) (k : Constr) : Decidable (WithinK B k) := inferInstanceAs (Decidable (_ ∧ _))
instance (n : Nat) (W : Int) (k : Constr) : Decidable (Usable n W k) := inferInstanceAs (Decidable (_ ∧ _))
instance (n : Nat) (W : Int) (k : Constr) : Decidable (Batchable n W k) := inferInstanceAs (Decidable (_ ∧ _))
instance (τ : Nat → Int) (k : Constr) : Decidable (Holds τ k) := inferInstanceAs (Decidable (_ ∧ _))

end Chrono.Spec
