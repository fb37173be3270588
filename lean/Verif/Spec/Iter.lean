import Verif.Model.TimeSet

/-!
# Specification vocabulary: calling `next` again and again
-/

namespace Chrono

/-- The iterator after `n` calls of `next`, whatever they returned. -/
def UnionIter.after : Nat → UnionIter → UnionIter
  | 0, s => s
  | n + 1, s => after n s.next.2

/-- The iterator after `n` calls of `next`, whatever they returned. -/
def InterIter.after : Nat → InterIter → InterIter
  | 0, s => s
  | n + 1, s => after n s.next.2

/-- The iterator after `n` calls of `next`, whatever they returned. -/
def ComplIter.after : Nat → ComplIter → ComplIter
  | 0, s => s
  | n + 1, s => after n s.next.2

end Chrono
