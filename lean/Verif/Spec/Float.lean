import Verif.Model.Float
import Verif.Spec.Time

/-! # Vocabulary on floats

A finite float `fin neg k` of the format `F` has the value `± k / 2^F.bias`; `2^F.bias` is `1.0`. -/

namespace Chrono.Spec

/-- The floats which exist in the format: `prec` significant bits, below `2^128` or `2^1024`. -/
def IsFloat (F : FTy) : Fl → Prop
  | .fin _ k => (∃ m j, m < 2 ^ F.prec ∧ k = m * 2 ^ j) ∧ k < 2 ^ F.top
  | _ => True

/-- The float equal to the integer `z`. -/
def wholeF (F : FTy) (z : Int) : Fl := .fin (decide (z < 0)) (z.natAbs * 2 ^ F.bias)

/-- `n > 0` -/
def PosF : Fl → Prop
  | .nan => False
  | .inf neg => neg = false
  | .fin neg k => neg = false ∧ 0 < k
/-- `n < 0` -/
def NegF : Fl → Prop
  | .nan => False
  | .inf neg => neg = true
  | .fin neg k => neg = true ∧ 0 < k
/-- `|n| < 1` -/
def SmallF (F : FTy) : Fl → Prop
  | .fin _ k => k < 2 ^ F.bias
  | _ => False
/-- `|n| > 1` -/
def BigF (F : FTy) : Fl → Prop
  | .nan => False
  | .inf _ => True
  | .fin _ k => 2 ^ F.bias < k

end Chrono.Spec
