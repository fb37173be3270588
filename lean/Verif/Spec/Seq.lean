import Verif.Model.Seq

/-!
# Specification vocabulary: sequences
-/

namespace Chrono

/-- The sequence after `n` calls to `next`, ignoring the results. -/
def FSeq.after : Nat → FSeq → Res FSeq
  | 0, s => .ok s
  | n + 1, s => do let r ← s.next; FSeq.after n r.2

/-- The result of the `n`-th call to `next` (counting from 0). -/
def FSeq.item (s : FSeq) (n : Nat) : Res (Option Int) := do
  let s ← s.after n; let r ← s.next; return r.1

/-- The sequence after `n` calls to `next`, ignoring the results. -/
def BSeq.after : Nat → BSeq → Res BSeq
  | 0, s => .ok s
  | n + 1, s => do let r ← s.next; BSeq.after n r.2

/-- The result of the `n`-th call to `next` (counting from 0). -/
def BSeq.item (s : BSeq) (n : Nat) : Res (Option Int) := do
  let s ← s.after n; let r ← s.next; return r.1

/-- The result of the `n`-th call of `next` (counting from 0) on an iterator in state `a`. -/
def itemOf {α : Type} (next : α → Res (Option Int × α)) : Nat → α → Res (Option Int)
  | 0, a => do let r ← next a; return r.1
  | n + 1, a => do let r ← next a; itemOf next n r.2

/-- The results of `s.skip(n)`. -/
def FSeq.skipItem (s : FSeq) (n i : Nat) : Res (Option Int) := itemOf FSkip.next i ⟨s, n⟩
/-- The results of `s.step_by(k + 1)`. -/
def FSeq.stepItem (old : Bool) (s : FSeq) (k i : Nat) : Res (Option Int) := itemOf (FStepBy.next old) i ⟨s, k, true⟩
/-- The results of `s.skip(n)`. -/
def BSeq.skipItem (s : BSeq) (n i : Nat) : Res (Option Int) := itemOf BSkip.next i ⟨s, n⟩
/-- The results of `s.step_by(k + 1)`. -/
def BSeq.stepItem (old : Bool) (s : BSeq) (k i : Nat) : Res (Option Int) := itemOf (BStepBy.next old) i ⟨s, k, true⟩

namespace Spec

/-- Exactly `k` results remain: the calls before the `k`-th return an element, the others return `None`. -/
def FRemaining (s : FSeq) (k : Int) : Prop :=
  0 ≤ k ∧ ∀ n : Nat, ∃ r, s.item n = .ok r ∧ (r.isSome ↔ (n : Int) < k)

/-- Exactly `k` results remain: the calls before the `k`-th return an element, the others return `None`. -/
def BRemaining (s : BSeq) (k : Int) : Prop :=
  0 ≤ k ∧ ∀ n : Nat, ∃ r, s.item n = .ok r ∧ (r.isSome ↔ (n : Int) < k)

/-- The states of a forward sequence: the position is finite, or the end of time once exhausted, and the
step is positive. -/
def FState (s : FSeq) : Prop := -INF < s.t ∧ s.t ≤ INF ∧ 0 < s.step ∧ s.step < INF

/-- The states of a backward sequence. -/
def BState (s : BSeq) : Prop := -INF ≤ s.t ∧ s.t < INF ∧ 0 < s.step ∧ s.step < INF

instance (s : FSeq) : Decidable (FState s) := inferInstanceAs (Decidable (_ ∧ _))
instance (s : BSeq) : Decidable (BState s) := inferInstanceAs (Decidable (_ ∧ _))

end Spec
end Chrono
