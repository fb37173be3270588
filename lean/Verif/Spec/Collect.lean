import Verif.Spec.Time

/-!
# Specification vocabulary: what is left of intervals added one by one

Dates are added interval by interval. Each time, whatever comes after the first gap behind the new interval is lost. This describes which
dates are left, without any reference to intervals already merged.
-/

namespace Chrono.Spec
open Chrono

/-- No gap between `b` and `t`: from the first date of `R` after `b`, all dates until `t` are in `R`. -/
def NoGap (R : Int → Prop) (b t : Int) : Prop := ∀ x g, b < x → x < g → g < t → R x → R g

/-- The dates left when the interval `w` is added to the dates `R`. -/
def Joined (R : Int → Prop) (w : Iv) (t : Int) : Prop := InIv t w ∨ (R t ∧ NoGap R w.upper t)

/-- The dates left of the intervals of a list, added from the left to the right. -/
def Left (l : List Iv) : Int → Prop := l.foldl Joined (fun _ => False)

/-- The sums of a date of `i` and a duration of `s` -/
def sumOf (i s : Iv) : Iv :=
  ⟨if i.lower = -INF ∨ s.lower = -INF then -INF else i.lower + s.lower,
   if i.upper = INF ∨ s.upper = INF then INF else i.upper + s.upper⟩

/-- The differences of a date of `i` and a duration of `s` -/
def diffOf (i s : Iv) : Iv :=
  ⟨if i.lower = -INF ∨ s.upper = INF then -INF else i.lower - s.upper,
   if i.upper = INF ∨ s.lower = -INF then INF else i.upper - s.lower⟩

end Chrono.Spec
