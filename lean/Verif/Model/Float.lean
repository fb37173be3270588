import Verif.Model.TimeSet

/-!
# Scaling by floating point factors (src/ops/scaling.rs:95-125, 201-236, 324-360)

The operations of `f32` and `f64` are those of IEEE 754 (the Rust reference: `*` and `/` round to
nearest, ties to even; `as` from an integer rounds the same way; `as` to an integer truncates, saturates
and sends NaN to 0). Every finite number of a format is a multiple of its smallest positive number, so a
finite float is modelled by its sign and the count of this unit. The payload of NaN is not modelled.
-/

namespace Chrono

/-- The two types of float factors. -/
inductive FTy where
  | f32 | f64
  deriving DecidableEq, Repr

namespace FTy
/-- Significant bits (`MANTISSA_DIGITS`). -/
def prec : FTy → Nat
  | f32 => 24
  | f64 => 53
/-- The smallest positive number, the unit, is `2^-bias`. -/
def bias : FTy → Nat
  | f32 => 149
  | f64 => 1074
/-- Finite numbers are less than `2^top` units (`2^128` and `2^1024`). -/
def top : FTy → Nat
  | f32 => 277
  | f64 => 2098
end FTy

/-- A float: `fin neg k` is `±k` units, `fin true 0` being `-0.0`. -/
inductive Fl where
  | nan
  | inf (neg : Bool)
  | fin (neg : Bool) (k : Nat)
  deriving DecidableEq, Repr

namespace Fl

/-- The integer nearest to `num/den`, the even one of two. -/
def halfEven (num den : Nat) : Nat :=
  let q := num / den
  let r := num % den
  if 2 * r < den then q else if den < 2 * r then q + 1 else q + q % 2

/-- `num/den` units rounded to `prec` significant bits, or to a whole number of units if this is coarser. -/
def round (F : FTy) (num den : Nat) : Nat :=
  let s := Nat.log2 (num / den) + 1 - F.prec
  halfEven num (den * 2 ^ s) * 2 ^ s

/-- Beyond the greatest finite number: infinity. -/
def pack (F : FTy) (neg : Bool) (k : Nat) : Fl := if k < 2 ^ F.top then fin neg k else inf neg

/-- `t as f32`, `t as f64` of an `i64` -/
def ofInt (F : FTy) (t : Int) : Fl := pack F (decide (t < 0)) (round F (t.natAbs * 2 ^ F.bias) 1)

/-- `1.0` -/
def one (F : FTy) : Fl := fin false (2 ^ F.bias)
/-- `0.0` -/
def zero : Fl := fin false 0

/-- `x * y` -/
def mul (F : FTy) : Fl → Fl → Fl
  | nan, _ => nan
  | _, nan => nan
  | inf s, inf s' => inf (s != s')
  | inf s, fin s' k => if k = 0 then nan else inf (s != s')
  | fin s k, inf s' => if k = 0 then nan else inf (s != s')
  | fin s k, fin s' k' => pack F (s != s') (round F (k * k') (2 ^ F.bias))

/-- `1. / x` -/
def recip (F : FTy) : Fl → Fl
  | nan => nan
  | inf s => fin s 0
  | fin s k => if k = 0 then inf s else pack F s (round F (2 ^ F.bias * 2 ^ F.bias) k)

/-- `x < y` (and `y > x`): false if one is NaN; the zeros are equal -/
def lt : Fl → Fl → Bool
  | nan, _ => false
  | _, nan => false
  | inf s, inf s' => s && !s'
  | inf s, fin _ _ => s
  | fin _ _, inf s' => !s'
  | fin s k, fin s' k' =>
    decide ((if s then -(k : Int) else k) < (if s' then -(k' : Int) else k'))

/-- `-x` -/
def neg : Fl → Fl
  | nan => nan
  | inf s => inf !s
  | fin s k => fin (!s) k

/-- `x.abs()` -/
def abs : Fl → Fl
  | nan => nan
  | inf _ => inf false
  | fin _ k => fin false k

/-- `x as i64` -/
def toI64 (F : FTy) : Fl → Int
  | nan => 0
  | inf s => if s then I64_MIN else I64_MAX
  | fin s k => sat64 (if s then -((k / 2 ^ F.bias : Nat) : Int) else (k / 2 ^ F.bias : Nat))

end Fl

/-- src/ops/scaling.rs:101-110 `TimeValue * n`, n : f32 or f64 (126-129: `*=`, 379-384: `n * t`) -/
def tvMulF (F : FTy) (t : Int) (n : Fl) : Int :=
  let t := Fl.mul F (Fl.ofInt F t) n
  if Fl.lt (Fl.ofInt F INF) t then INF
  else if Fl.lt t (Fl.ofInt F (-INF)) then -INF
  else fromTicks (Fl.toI64 F t)

/-- src/ops/scaling.rs:115-117 `TimeValue / n`, n : f32 or f64 (130-132: `/=`) -/
def tvDivF (F : FTy) (t : Int) (n : Fl) : Int := tvMulF F t (Fl.recip F n)

namespace Iv

/-- src/ops/scaling.rs:206-216 `TimeSpan * f` (126-129: `*=`, 379-384: `f * i`) -/
def mulF (F : FTy) (i : Iv) (f : Fl) : Res Iv :=
  let (lower, upper) :=
    if Fl.lt f Fl.zero then (tvMulF F i.upper f, tvMulF F i.lower f)
    else (tvMulF F i.lower f, tvMulF F i.upper f)
  if isFutureInfinite lower then .error .assertFail
  else if isPastInfinite upper then .error .assertFail
  else .ok ⟨lower, upper⟩

/-- src/ops/scaling.rs:221-231 `TimeSpan / f` (130-132: `/=`) -/
def divF (F : FTy) (i : Iv) (f : Fl) : Res Iv :=
  let (lower, upper) :=
    if Fl.lt f Fl.zero then (tvDivF F i.upper f, tvDivF F i.lower f)
    else (tvDivF F i.lower f, tvDivF F i.upper f)
  if isFutureInfinite lower then .error .assertFail
  else if isPastInfinite upper then .error .assertFail
  else .ok ⟨lower, upper⟩

end Iv

namespace TSet

/-- src/ops/scaling.rs:329-336 `TimeSpans * f` -/
def mulF (F : FTy) (s : TSet) (f : Fl) : Res TSet := do
  let inners ← s.mapM (fun tw => tw.mulF F f)
  let inners := if Fl.lt f Fl.zero then inners.reverse else inners
  return if Fl.lt (Fl.one F) f.abs then checkJoined inners else inners

/-- src/ops/scaling.rs:340 `TimeSpans / f` -/
def divF (F : FTy) (s : TSet) (f : Fl) : Res TSet := mulF F s (Fl.recip F f)

/-- src/ops/scaling.rs:344-348 `TimeSpans *= f` -/
def mulAssignF (F : FTy) (s : TSet) (f : Fl) : Res TSet := do
  let inners ← s.mapM (fun tw => tw.mulF F f)
  let inners := if Fl.lt f Fl.zero then inners.reverse else inners
  return if Fl.lt f.abs (Fl.one F) then checkJoined inners else inners

/-- src/ops/scaling.rs:351 `TimeSpans /= f` -/
def divAssignF (F : FTy) (s : TSet) (f : Fl) : Res TSet := mulAssignF F s (Fl.recip F f)

/-- src/iter/scaling.rs:36-39 with a float: the items of `TimeValueScaleIter` up to its first `None`. -/
def scaleIterF (F : FTy) (f : Fl) : List Iv → Res (List Iv)
  | [] => .ok []
  | tw :: rest => do
    let x ← tw.mulF F f
    if x.isEmpty then return [] else return x :: (← scaleIterF F f rest)

end TSet
end Chrono
