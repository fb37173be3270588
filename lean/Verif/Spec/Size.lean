import Verif.Model.TimeSet

/-!
# Specification vocabulary: the size of a calculation with sets
-/

namespace Chrono.Spec
open Chrono

/-- A calculation with sets. -/
inductive Calc where
  | set (s : TSet)
  | or (a b : Calc)
  | and (a b : Calc)
  | not (a : Calc)
  | neg (a : Calc)
  | shift (a : Calc) (d : Int)
  | sum (a b : Calc)
  | diff (a b : Calc)
  | times (a : Calc) (ty : Iv.ScaleTy) (n : Int)
  | over (a : Calc) (ty : Iv.ScaleTy) (n : Int)
  | before (a : Calc) (t : Int)
  | after (a : Calc) (t : Int)

/-- The result of the calculation. -/
def Calc.run (dbg : Bool) : Calc → Res TSet
  | .set s => .ok s
  | .or a b => do TSet.union (← a.run dbg) (← b.run dbg)
  | .and a b => do TSet.inter (← a.run dbg) (← b.run dbg)
  | .not a => do return TSet.compl (← a.run dbg)
  | .neg a => do return TSet.neg (← a.run dbg)
  | .shift a d => do TSet.addTv dbg (← a.run dbg) d
  | .sum a b => do TSet.addSpans dbg (← a.run dbg) (← b.run dbg)
  | .diff a b => do TSet.subSpans dbg (← a.run dbg) (← b.run dbg)
  | .times a ty n => do TSet.mul ty (← a.run dbg) n
  | .over a ty n => do TSet.div ty (← a.run dbg) n
  | .before a t => do return (TSet.truncateAfter (← a.run dbg) t).1
  | .after a t => do return (TSet.truncateBefore (← a.run dbg) t).1

/-- The number of pieces which the result may have. -/
def Calc.pieces : Calc → Nat
  | .set s => s.length
  | .or a b | .and a b => a.pieces + b.pieces
  | .not a => a.pieces + 1
  | .neg a | .shift a _ | .times a _ _ | .over a _ _ | .before a _ | .after a _ => a.pieces
  | .sum a b | .diff a b => a.pieces * b.pieces

/-- A loop of steps from `s` ends with `None` after `n` turns. -/
inductive Takes {σ : Type} (step : σ → Turn × σ) : σ → Nat → Prop where
  | last {s s'} : step s = (.ret none, s') → Takes step s 1
  | item {s s' x n} : step s = (.ret (some x), s') → Takes step s' n → Takes step s (n + 1)
  | loop {s s' n} : step s = (.loop, s') → Takes step s' n → Takes step s (n + 1)

end Chrono.Spec
