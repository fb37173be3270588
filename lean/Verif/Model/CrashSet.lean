import Verif.Model.Crash
import Verif.Model.Float

/-!
# What an interrupted compound assignment leaves behind

The compound assignments of intervals and sets which write more than once, with the contents of `*self` after each write (see
`Model.Crash`). The results are proved equal to those of `Model.Interval`, `Model.TimeSet` and `Model.Float` (`Props.CrashSet`).
-/

namespace Chrono
open Run

namespace Run

/-- a computation on a part of `*self`: `c` puts the part back in its place -/
def under {S T α : Type} (c : S → T) (t : Run S α) : Run T α := ⟨t.steps.map c, t.res⟩

end Run

namespace Iv

/-- `assert!(…)` of src/ops/transl.rs:36, 47, 94 and 105 -/
def notPoint (i : Iv) : Res Iv := if i.lower != i.upper || !isFinite i.lower then .ok i else .error .assertFail

/-- src/ops/transl.rs:33-37 `TimeInterval += TimeValue`, see `Iv.addAssignTv` -/
def addAssignTvT (i : Iv) (d : Int) : Run Iv Iv := do
  let i ← put (do return ⟨← tvAdd i.lower d, i.upper⟩)
  let i ← put (do return ⟨i.lower, ← tvAdd i.upper d⟩)
  lift i.notPoint

/-- src/ops/transl.rs:44-48 `TimeInterval -= TimeValue`, see `Iv.subAssignTv` -/
def subAssignTvT (i : Iv) (d : Int) : Run Iv Iv := do
  let i ← put (do return ⟨← tvAdd i.lower (tvNeg d), i.upper⟩)
  let i ← put (do return ⟨i.lower, ← tvAdd i.upper (tvNeg d)⟩)
  lift i.notPoint

/-- src/ops/transl.rs:91-95 `TimeInterval += TimeSpan`, see `Iv.addAssignSpan` -/
def addAssignSpanT (i s : Iv) : Run Iv Iv := do
  let i ← put (do return ⟨← tvAdd i.lower s.lower, i.upper⟩)
  let i ← put (do return ⟨i.lower, ← tvAdd i.upper s.upper⟩)
  lift i.notPoint

/-- src/ops/transl.rs:102-106 `TimeInterval -= TimeSpan`, see `Iv.subAssignSpan` -/
def subAssignSpanT (i s : Iv) : Run Iv Iv := do
  let i ← put (do return ⟨← tvAdd i.lower (tvNeg s.upper), i.upper⟩)
  let i ← put (do return ⟨i.lower, ← tvAdd i.upper (tvNeg s.lower)⟩)
  lift i.notPoint

end Iv

namespace TSet

/-- `self.0.iter_mut().for_each(|tw| …)` (src/ops/transl.rs:204, 215, src/ops/scaling.rs:295, 305, 345): `before` has been visited -/
def forEachT (f : Iv → Run Iv Iv) (before : List Iv) : List Iv → Run TSet TSet
  | [] => return before
  | tw :: rest => do
    let x ← (f tw).under (fun x => before ++ x :: rest)
    forEachT f (before ++ [x]) rest

/-- `*self = self.clone() …`: src/ops/union.rs:66-69, 75-78, 83-86 (`|=`), src/ops/intersect.rs:71-74, 79-82 (`&=` of a set),
src/ops/transl.rs:293-295, 304-306, 349-351, 360-362 (`+=` and `-=` of a span and of spans): the whole set is computed, then written -/
def replaceT (r : Res TSet) : Run TSet TSet := put r

/-- src/ops/transl.rs:201-205 `TimeSet += TimeValue`, see `TSet.addAssignTv` -/
def addAssignTvT (s : TSet) (d : Int) : Run TSet TSet := forEachT (fun tw => tw.addAssignTvT d) [] s

/-- src/ops/transl.rs:212-216 `TimeSet -= TimeValue`, see `TSet.subAssignTv` -/
def subAssignTvT (s : TSet) (d : Int) : Run TSet TSet := forEachT (fun tw => tw.subAssignTvT d) [] s

/-- src/ops/scaling.rs:287-300 `TimeSpans *= n`, see `TSet.mulAssign`; `tw *= n` is one write (126-129), so is `reverse` -/
def mulAssignT (ty : Iv.ScaleTy) (s : TSet) (n : Int) : Run TSet TSet := do
  if n = 0 then
    if s.isEmpty then return s
    else
      let _ ← put (.ok [])
      put (.ok [Iv.empty])
  else
    let l ← forEachT (fun tw => put (tw.mul ty n)) [] s
    if n < 0 then put (.ok l.reverse) else return l

/-- src/ops/scaling.rs:302-309 `TimeSpans /= n`, see `TSet.div`; `check_joined_inners` is one write -/
def divAssignT (ty : Iv.ScaleTy) (s : TSet) (n : Int) : Run TSet TSet := do
  if n = 0 then lift (.error .assertFail)
  else
    let l ← forEachT (fun tw => put (tw.div ty n)) [] s
    let l ← if n < 0 then put (.ok l.reverse) else pure l
    put (.ok (checkJoined l))

/-- src/ops/scaling.rs:344-348 `TimeSpans *= f`, see `TSet.mulAssignF` -/
def mulAssignFT (F : FTy) (s : TSet) (f : Fl) : Run TSet TSet := do
  let l ← forEachT (fun tw => put (tw.mulF F f)) [] s
  let l ← if Fl.lt f Fl.zero then put (.ok l.reverse) else pure l
  if Fl.lt f.abs (Fl.one F) then put (.ok (checkJoined l)) else return l

end TSet
end Chrono
