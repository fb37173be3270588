import Verif.Model.ReleaseGraph
import Verif.Spec.Graph

/-!
# Specification vocabulary: the same calls in a debug and in a release build
-/

namespace Chrono.Spec
open Chrono

/-- The release build does as the debug build (result or panic), unless the debug build panics on an overflow. -/
def Agree {α : Type} (debug release : Res α) : Prop := debug = .error .overflow ∨ release = debug

/-- Call the operation in a release build. -/
def Op.runR (g : Graph) : Op → Res (Graph × Outcome)
  | .propagate k => g.propagateR k
  | .extend hint ks => g.extendR hint ks
  | .merge h => g.mergeR h
  | .resize n => do return (← g.resizeR n, .unchanged)
  | .reset => do return (← g.resetR, .unchanged)
  | .shrinkToFit => do return (← g.shrinkToFitR, .unchanged)

/-- A history of operations in a release build, whatever they return. -/
def runOpsR (g : Graph) (ops : List Op) : Res Graph := ops.foldlM (fun g op => do return (← op.runR g).1) g

end Chrono.Spec
