import Verif.Spec.Seq
import Verif.Model.Interval

/-!
# Specification vocabulary: recurring slots

The programs `seq.take(n).map(|t| t + span)`, which turn the dates of a sequence into slots.
-/

namespace Chrono

/-- The items of `seq.take(n).map(|t| t + span)`: the calls of `next` stop at the first `None`. -/
def FSeq.slots (dbg : Bool) (span : Iv) : Nat → FSeq → Res (List Iv)
  | 0, _ => .ok []
  | n + 1, q => do
    let r ← q.next
    match r.1 with
    | none => return []
    | some t => do
      let i ← Iv.tsAddSpan dbg t span
      let l ← FSeq.slots dbg span n r.2
      return i :: l

/-- The items of `seq.take(n).map(|t| t + span)`: the calls of `next` stop at the first `None`. -/
def BSeq.slots (dbg : Bool) (span : Iv) : Nat → BSeq → Res (List Iv)
  | 0, _ => .ok []
  | n + 1, q => do
    let r ← q.next
    match r.1 with
    | none => return []
    | some t => do
      let i ← Iv.tsAddSpan dbg t span
      let l ← BSeq.slots dbg span n r.2
      return i :: l

end Chrono
