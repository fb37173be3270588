import Verif.Model.Crash
import Verif.Spec.History

/-!
# Specification vocabulary: histories with interrupted calls

The histories of `Spec.History` in which calls may also have been interrupted by a panic which the caller caught. An interrupted call leaves
the graph, or the schedule, as it was after one of its writes (`Model.Crash`), or as it was before the call.

`Survived N g P Q`: the graph `g` can be obtained by such a sequence of calls on instants below `N`; `P` holds of the assignments which
satisfy everything accepted, `Q` of those which also satisfy what the interrupted calls asked for.
`Endured dbg g s P Q`: the same for a scheduler on the graph `g`.
-/

namespace Chrono.Spec
open Chrono

inductive Survived (N : Nat) : Graph → ((Nat → Int) → Prop) → ((Nat → Int) → Prop) → Prop where
  /-- a new graph -/
  | new {n g} : n ≤ N → Graph.withSize n = .ok g → Survived N g (fun _ => True) (fun _ => True)
  /-- a constraint has been accepted -/
  | accepted {g P Q k g' o} : Survived N g P Q → Ordinary N k → g.propagate k = .ok (g', o) → o = .unchanged ∨ o = .propagated →
      Survived N g' (fun τ => P τ ∧ Holds τ k) (fun τ => Q τ ∧ Holds τ k)
  /-- a constraint has been rejected -/
  | rejected {g P Q k g' o} : Survived N g P Q → Ordinary N k → g.propagate k = .ok (g', o) → o = .recovered ∨ o = .fatal →
      Survived N g' P Q
  /-- a batch of constraints has been accepted -/
  | extended {g P Q hint ks g' o} : Survived N g P Q → (∀ k ∈ ks, Ordinary N k) → hint ≠ some 0 → hint ≠ some 1 →
      g.extend hint ks = .ok (g', o) → o ≠ .fatal →
      Survived N g' (fun τ => P τ ∧ ∀ k ∈ ks, Holds τ k) (fun τ => Q τ ∧ ∀ k ∈ ks, Holds τ k)
  /-- another graph, with its own history, has been merged into it -/
  | merged {g P Q h P' Q' g' o} : Survived N g P Q → Survived N h P' Q' → g.merge h = .ok (g', o) → o ≠ .fatal →
      Survived N g' (fun τ => P τ ∧ P' τ) (fun τ => Q τ ∧ Q' τ)
  /-- the graph has been emptied -/
  | reset {g P Q g'} : Survived N g P Q → g.reset = .ok g' → Survived N g' (fun _ => True) (fun _ => True)
  /-- instants have been added -/
  | grown {g P Q n g'} : Survived N g P Q → g.size ≤ n → n ≤ N → g.resize n = .ok g' → Survived N g' P Q
  /-- the last unconstrained instants have been removed, while the graph had a solution -/
  | shrunk {g P Q g'} : Survived N g P Q → (∃ τ, Representable N τ ∧ Q τ) → g.shrinkToFit = .ok g' → Survived N g' P Q
  /-- `propagate` has been interrupted -/
  | cutPropagate {g P Q k x} : Survived N g P Q → Ordinary N k → x ∈ (g.propagateT k).steps →
      Survived N x P (fun τ => Q τ ∧ Holds τ k)
  /-- `extend` has been interrupted -/
  | cutExtend {g P Q hint ks x} : Survived N g P Q → (∀ k ∈ ks, Ordinary N k) → x ∈ (g.extendT hint ks).steps →
      Survived N x P (fun τ => Q τ ∧ ∀ k ∈ ks, Holds τ k)
  /-- the iterator given to `extend` has panicked after the constraints `ks` -/
  | cutIterator {g P Q ks x} : Survived N g P Q → (∀ k ∈ ks, Ordinary N k) → g.extendCut ks = .ok x →
      Survived N x (fun τ => P τ ∧ ∀ k ∈ ks, Holds τ k) (fun τ => Q τ ∧ ∀ k ∈ ks, Holds τ k)
  /-- `merge` has been interrupted -/
  | cutMerge {g P Q h P' Q' x} : Survived N g P Q → Survived N h P' Q' → x ∈ (g.mergeT h).steps →
      Survived N x (fun τ => P τ ∧ P' τ) (fun τ => Q τ ∧ Q' τ)

/-- Make the request, with the contents of the scheduler after each write. -/
def Req.runT (dbg : Bool) (s : Sched) : Req → Run Sched (Sched × Outcome)
  | .retain i w => s.retainT dbg i w
  | .remove i w => s.removeT dbg i w
  | .deadline d => s.setDeadlineT dbg d
  | .startline d => s.setStartlineT dbg d

inductive Endured (dbg : Bool) (g : Graph) : Sched → ((Nat → Int) → Prop) → ((Nat → Int) → Prop) → Prop where
  /-- a new scheduler -/
  | new : Endured dbg g (Sched.new g) (fun _ => True) (fun _ => True)
  /-- a request has been accepted -/
  | accepted {s P Q r s' o} : Endured dbg g s P Q → Req.Proper g.size r → r.run dbg s = .ok (s', o) → o = .unchanged ∨ o = .propagated →
      Endured dbg g s' (fun τ => P τ ∧ r.Allows g.size τ) (fun τ => Q τ ∧ r.Allows g.size τ)
  /-- a request has been refused -/
  | refused {s P Q r s' o} : Endured dbg g s P Q → Req.Proper g.size r → r.run dbg s = .ok (s', o) → o = .recovered ∨ o = .fatal →
      Endured dbg g s' P Q
  /-- a request has been interrupted -/
  | cut {s P Q r x} : Endured dbg g s P Q → Req.Proper g.size r → x ∈ (r.runT dbg s).steps →
      Endured dbg g x P (fun τ => Q τ ∧ r.Allows g.size τ)

/-- Each content of the list is related to the former one, the first one to `s`. -/
def Linked {S : Type} (Rel : S → S → Prop) : S → List S → Prop
  | _, [] => True
  | s, x :: l => Rel s x ∧ Linked Rel x l

/-- One write of a graph: a cell, or a change of the size. -/
def GraphWrite (g g' : Graph) : Prop := (∃ i j v, g.setLower i j v = .ok g') ∨ ∃ n, g.resize n = .ok g'

/-- One write of a scheduler: the slot of an instant. -/
def SchedWrite (s s' : Sched) : Prop := ∃ i w, s' = { s with schedule := s.schedule.set i w }

end Chrono.Spec
