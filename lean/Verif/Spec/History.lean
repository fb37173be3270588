import Verif.Spec.Graph
import Verif.Spec.Sched

/-!
# Specification vocabulary: the history of a graph and of a schedule

`Built N g P`: the graph `g` can be obtained by a sequence of calls of the API on instants below `N`, and `P` is the meaning of that
sequence: the assignments which satisfy everything which has been accepted since the last time the graph was emptied.
`Planned dbg g s P`: the same for a scheduler on the graph `g`.
-/

namespace Chrono.Spec
open Chrono

/-- A constraint between two distinct instants below `N`, with legal bounds; if it is empty, its bounds show it. -/
def Ordinary (N : Nat) (k : Constr) : Prop := k.src ≠ k.dst ∧ Batchable N INF k

inductive Built (N : Nat) : Graph → ((Nat → Int) → Prop) → Prop where
  /-- a new graph -/
  | new {n g} : n ≤ N → Graph.withSize n = .ok g → Built N g (fun _ => True)
  /-- a constraint has been accepted -/
  | accepted {g P k g' o} : Built N g P → Ordinary N k → g.propagate k = .ok (g', o) → o = .unchanged ∨ o = .propagated →
      Built N g' (fun τ => P τ ∧ Holds τ k)
  /-- a constraint has been rejected -/
  | rejected {g P k g' o} : Built N g P → Ordinary N k → g.propagate k = .ok (g', o) → o = .recovered ∨ o = .fatal →
      Built N g' P
  /-- a batch of constraints has been accepted -/
  | extended {g P hint ks g' o} : Built N g P → (∀ k ∈ ks, Ordinary N k) → hint ≠ some 0 → hint ≠ some 1 →
      g.extend hint ks = .ok (g', o) → o ≠ .fatal → Built N g' (fun τ => P τ ∧ ∀ k ∈ ks, Holds τ k)
  /-- another graph, with its own history, has been merged into it -/
  | merged {g P h Q g' o} : Built N g P → Built N h Q → g.merge h = .ok (g', o) → o ≠ .fatal → Built N g' (fun τ => P τ ∧ Q τ)
  /-- the graph has been emptied, possibly after a fatal failure of `extend` or `merge` -/
  | reset {g P g'} : Built N g P → g.reset = .ok g' → Built N g' (fun _ => True)
  | resetExtend {g P hint ks g1 g'} : Built N g P → (∀ k ∈ ks, Ordinary N k) → g.extend hint ks = .ok (g1, .fatal) →
      g1.reset = .ok g' → Built N g' (fun _ => True)
  | resetMerge {g P h Q g1 g'} : Built N g P → Built N h Q → g.merge h = .ok (g1, .fatal) → g1.reset = .ok g' →
      Built N g' (fun _ => True)
  /-- instants have been added -/
  | grown {g P n g'} : Built N g P → g.size ≤ n → n ≤ N → g.resize n = .ok g' → Built N g' P
  /-- the last unconstrained instants have been removed, while the graph had a solution -/
  | shrunk {g P g'} : Built N g P → (∃ τ, Representable N τ ∧ P τ) → g.shrinkToFit = .ok g' → Built N g' P

/-- The same for histories on instants below `N` in which each constraint has finite bounds of at most `W` ticks, and each constraint given to
`propagate` is between two instants of the graph or between two new ones (a batch or a merge may mention any instants). -/
inductive Steady (N : Nat) (W : Int) : Graph → ((Nat → Int) → Prop) → Prop where
  | new {n g} : n ≤ N → Graph.withSize n = .ok g → Steady N W g (fun _ => True)
  | accepted {g P k g' o} : Steady N W g P → Usable g.size W k → g.propagate k = .ok (g', o) → o = .unchanged ∨ o = .propagated →
      Steady N W g' (fun τ => P τ ∧ Holds τ k)
  | discovered {g P k g' o} : Steady N W g P → Usable N W k → k.src ≠ k.dst → g.size ≤ k.src → g.size ≤ k.dst →
      g.propagate k = .ok (g', o) → o = .unchanged ∨ o = .propagated → Steady N W g' (fun τ => P τ ∧ Holds τ k)
  | rejected {g P k g' o} : Steady N W g P → Usable g.size W k → g.propagate k = .ok (g', o) → o = .recovered ∨ o = .fatal →
      Steady N W g' P
  | extended {g P hint ks g' o} : Steady N W g P → (∀ k ∈ ks, Batchable N W k) → hint ≠ some 0 → hint ≠ some 1 →
      g.extend hint ks = .ok (g', o) → o ≠ .fatal → Steady N W g' (fun τ => P τ ∧ ∀ k ∈ ks, Holds τ k)
  | merged {g P h Q g' o} : Steady N W g P → Steady N W h Q → g.merge h = .ok (g', o) → o ≠ .fatal →
      Steady N W g' (fun τ => P τ ∧ Q τ)
  | reset {g P g'} : Steady N W g P → g.reset = .ok g' → Steady N W g' (fun _ => True)
  | resetExtend {g P hint ks g1 g'} : Steady N W g P → (∀ k ∈ ks, Batchable N W k) → g.extend hint ks = .ok (g1, .fatal) →
      g1.reset = .ok g' → Steady N W g' (fun _ => True)
  | resetMerge {g P h Q g1 g'} : Steady N W g P → Steady N W h Q → g.merge h = .ok (g1, .fatal) → g1.reset = .ok g' →
      Steady N W g' (fun _ => True)
  | grown {g P n g'} : Steady N W g P → g.size ≤ n → n ≤ N → g.resize n = .ok g' → Steady N W g' P
  | shrunk {g P g'} : Steady N W g P → g.shrinkToFit = .ok g' → Steady N W g' P

/-- Delays chosen one after the other between instants of the graph (`(i, j, t)`: instant `j` is `t` after instant `i`), each in the time span
announced when the former ones have been given to `propagate`; at most `W` ticks in absolute value. -/
def Pins (W : Int) : Graph → List (Nat × Nat × Int) → Prop
  | _, [] => True
  | g, (i, j, t) :: l => i ≠ j ∧ i < g.size ∧ j < g.size ∧ (∃ s, g.timespan i j = .ok s ∧ InExt t s) ∧ -W ≤ t ∧ t ≤ W ∧
      ∀ g' o, g.propagate ⟨i, j, false, t, t⟩ = .ok (g', o) → Pins W g' l

/-- The requests made to a scheduler. -/
inductive Req where
  | retain (i : Nat) (w : Window)
  | remove (i : Nat) (w : Negatable)
  | deadline (d : Int)
  | startline (d : Int)

/-- Make the request. -/
def Req.run (dbg : Bool) (s : Sched) : Req → Res (Sched × Outcome)
  | .retain i w => s.retain dbg i w
  | .remove i w => s.remove dbg i w
  | .deadline d => s.setDeadline dbg d
  | .startline d => s.setStartline dbg d

/-- The assignment of dates to the instants `0..n-1` is what the request asks for. -/
def Req.Allows (n : Nat) (τ : Nat → Int) : Req → Prop
  | .retain i w => InExtWindow (τ i) w
  | .remove i w => ¬ InExtNeg (τ i) w
  | .deadline d => ∀ j, j < n → τ j ≤ d
  | .startline d => ∀ j, j < n → d ≤ τ j

/-- A request on one of the instants `0..n-1` with a proper window, or a deadline or a startline which is a date (or the infinity which asks
nothing). -/
def Req.Proper (n : Nat) : Req → Prop
  | .retain i w => i < n ∧ ProperWindow w
  | .remove i w => i < n ∧ ProperNeg w
  | .deadline d => -INF < d ∧ d ≤ INF
  | .startline d => -INF ≤ d ∧ d < INF

inductive Planned (dbg : Bool) (g : Graph) : Sched → ((Nat → Int) → Prop) → Prop where
  /-- a new scheduler -/
  | new : Planned dbg g (Sched.new g) (fun _ => True)
  /-- a request has been accepted -/
  | accepted {s P r s' o} : Planned dbg g s P → Req.Proper g.size r → r.run dbg s = .ok (s', o) → o = .unchanged ∨ o = .propagated →
      Planned dbg g s' (fun τ => P τ ∧ r.Allows g.size τ)
  /-- a request has been refused -/
  | refused {s P r s' o} : Planned dbg g s P → Req.Proper g.size r → r.run dbg s = .ok (s', o) → o = .recovered ∨ o = .fatal →
      Planned dbg g s' P

/-- `Later dbg n s s'`: `s'` is the state of the scheduler `s` of `n` instants after some more requests, accepted or refused. -/
inductive Later (dbg : Bool) (n : Nat) (s : Sched) : Sched → Prop where
  | now : Later dbg n s s
  | request {s' r s'' o} : Later dbg n s s' → Req.Proper n r → r.run dbg s' = .ok (s'', o) → Later dbg n s s''

/-- Make the same requests to a scheduler, `retain(i, w)`, and to a graph which has an instant `o` for the origin of dates: the delay from `o` to
`i` is in `w`. The result has the two answers to each request. -/
def twinRun (dbg : Bool) (o : Nat) : Sched → Graph → List (Nat × Convex) → Res (Sched × Graph × List (Outcome × Outcome))
  | s, x, [] => .ok (s, x, [])
  | s, x, (i, w) :: l => do
    let (s, a) ← s.retain dbg i (.conv w)
    let (x, b) ← x.propagate (.ofConvex o i w)
    let (s, x, r) ← twinRun dbg o s x l
    return (s, x, (a, b) :: r)

end Chrono.Spec
