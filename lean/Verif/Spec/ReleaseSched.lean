import Verif.Model.ReleaseSched
import Verif.Spec.Release
import Verif.Spec.History
import Verif.Spec.Lazy

/-!
# Specification vocabulary: windows and schedules in a debug and in a release build
-/

namespace Chrono.Spec
open Chrono

/-- The release build does as the debug build (result or panic), unless the debug build stops on a debug assertion. -/
def Silent {α : Type} (debug release : Res α) : Prop := debug = .error .debugAssert ∨ release = debug

/-- Make the request in a release build. -/
def Req.runR (s : Sched) : Req → Res (Sched × Outcome)
  | .retain i w => s.retainR i w
  | .remove i w => s.removeR i w
  | .deadline d => s.setDeadlineR d
  | .startline d => s.setStartlineR d

/-- Successive requests in a debug build: the schedule left and all the answers. -/
def plan : Sched → List Req → Res (Sched × List Outcome)
  | s, [] => .ok (s, [])
  | s, q :: l => do
    let (s', o) ← q.run true s
    let (s'', os) ← plan s' l
    return (s'', o :: os)

/-- The same in a release build. -/
def planR : Sched → List Req → Res (Sched × List Outcome)
  | s, [] => .ok (s, [])
  | s, q :: l => do
    let (s', o) ← q.runR s
    let (s'', os) ← planR s' l
    return (s'', o :: os)

/-- A whole program in a debug build: a graph is built by successive operations, whatever they answer, then requests are made to a
scheduler of this graph. -/
def program (ops : List Op) (reqs : List Req) : Res (Sched × List Outcome) := do
  plan (Sched.new (← runOps Graph.default ops)) reqs

/-- The same in a release build. -/
def programR (ops : List Op) (reqs : List Req) : Res (Sched × List Outcome) := do
  planR (Sched.new (← runOpsR Graph.default ops)) reqs

end Chrono.Spec
