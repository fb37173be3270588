import Verif.Model.CrashSet
import Verif.Spec.Arith

/-!
# Specification vocabulary: what a call leaves behind
-/

namespace Chrono.Spec
open Chrono

/-- What a call on `s` leaves behind when it returns, or when it panics: the last content written, or `s` if nothing has been written. -/
def left {S α : Type} (s : S) (t : Run S α) : S := t.steps.getLastD s

/-- The interval `d` later; what is not representable becomes infinite. -/
def shiftIv (d : Int) (i : Iv) : Iv :=
  ⟨if i.lower = -INF then -INF else round (i.lower + d), if i.upper = INF then INF else round (i.upper + d)⟩

end Chrono.Spec
