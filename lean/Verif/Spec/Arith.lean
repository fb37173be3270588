import Verif.Spec.Time

/-!
# Specification vocabulary: arithmetic on windows without overflow
-/

namespace Chrono.Spec
open Chrono

/-- The finite bounds of the sum of the two intervals are representable. -/
def FitsSum (i s : Iv) : Prop :=
  (Date i.lower → Date s.lower → Date (i.lower + s.lower)) ∧
  (Date i.upper → Date s.upper → Date (i.upper + s.upper))

/-- The finite bounds of the difference of the two intervals are representable. -/
def FitsDiff (i s : Iv) : Prop :=
  (Date i.lower → Date s.upper → Date (i.lower - s.upper)) ∧
  (Date i.upper → Date s.lower → Date (i.upper - s.lower))

/-- Some representable date is the sum of a point of the one and a point of the other: their sum does not overflow as a whole. -/
def HasSum (i s : Iv) : Prop := ∃ t, Date t ∧ ∃ a b, InExt a i ∧ InExt b s ∧ t = a + b

/-- Some representable date is the difference of a point of the one and a point of the other. -/
def HasDiff (i s : Iv) : Prop := ∃ t, Date t ∧ ∃ a b, InExt a i ∧ InExt b s ∧ t = a - b

/-- The finite bounds of the interval, multiplied by `n`, are representable. -/
def FitsMul (i : Iv) (n : Int) : Prop :=
  (Date i.lower → Date (i.lower * n)) ∧ (Date i.upper → Date (i.upper * n))

/-- The factor belongs to the scale type (the third family is unsigned). -/
def IsScale (ty : Iv.ScaleTy) (n : Int) : Prop := ty = .ubig → 0 ≤ n

/-- The factor belongs to the scale type and is not beyond the greatest time value. -/
def ScaleOk (ty : Iv.ScaleTy) (n : Int) : Prop := -INF ≤ n ∧ n ≤ INF ∧ IsScale ty n

/-- The interval has finite bounds. -/
def Bounded (i : Iv) : Prop := Date i.lower ∧ Date i.upper

instance (i s : Iv) : Decidable (FitsSum i s) := inferInstanceAs (Decidable (_ ∧ _))
instance (i s : Iv) : Decidable (FitsDiff i s) := inferInstanceAs (Decidable (_ ∧ _))
instance (i : Iv) (n : Int) : Decidable (FitsMul i n) := inferInstanceAs (Decidable (_ ∧ _))
instance (i : Iv) : Decidable (Bounded i) := inferInstanceAs (Decidable (_ ∧ _))
instance (ty : Iv.ScaleTy) (n : Int) : Decidable (IsScale ty n) := by unfold IsScale; infer_instance
instance (ty : Iv.ScaleTy) (n : Int) : Decidable (ScaleOk ty n) := by unfold ScaleOk; infer_instance

end Chrono.Spec
