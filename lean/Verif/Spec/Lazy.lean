import Verif.Model.Lazy

/-!
# What a caller sees of a pipeline: the results of successive calls of `next`
-/

namespace Chrono
namespace Spec

/-- successive calls of `next` return the items of the list, then `None` -/
inductive Yields (dbg : Bool) : Pipe → List Iv → Prop where
  | done {p p' : Pipe} (h : p.Next dbg (.ok (none, p'))) : Yields dbg p []
  | item {p p' : Pipe} {x : Iv} {l : List Iv} (h : p.Next dbg (.ok (some x, p'))) (ht : Yields dbg p' l) :
      Yields dbg p (x :: l)

/-- the first calls of `next` return the items of the list, and leave the pipeline in the last state -/
inductive Gives (dbg : Bool) : Pipe → List Iv → Pipe → Prop where
  | nil {p : Pipe} : Gives dbg p [] p
  | item {p p' q : Pipe} {x : Iv} {l : List Iv} (h : p.Next dbg (.ok (some x, p'))) (ht : Gives dbg p' l q) :
      Gives dbg p (x :: l) q

/-- successive calls of `next` return the items of the list, then one panics -/
def Breaks (dbg : Bool) (p : Pipe) (l : List Iv) (e : Panic) : Prop :=
  ∃ q, Gives dbg p l q ∧ q.Next dbg (.error e)

/-- How many unions and complements there are in a pipeline (an exclusion computes one complement): each of them may hold back one item. -/
def holders : Chain → Nat
  | .set _ | .win _ | .into _ => 0
  | .union a b => holders a + holders b + 1
  | .inter a b => holders a + holders b
  | .excl a b => holders a + holders b + 1
  | .compl a => holders a + 1
  | .transl _ _ | .scale _ _ _ => 0
  | .filter _ a | .skipWhile _ a | .takeWhile _ a | .skip _ a | .take _ a | .stepBy _ a | .same a => holders a

/-- `n` calls of `next` all return `None` -/
def Quiet (dbg : Bool) : Nat → Pipe → Prop
  | 0, _ => True
  | n + 1, p => ∃ p', p.Next dbg (.ok (none, p')) ∧ Quiet dbg n p'

/-- The pipelines in which, in a release build, no translation may be heard of: each translation is inside a union, an intersection, an
exclusion or a complement, which stop at its first `None`. -/
def Muted (dbg : Bool) : Chain → Prop
  | .transl _ a => dbg = true ∧ Muted dbg a
  | .scale _ _ a | .filter _ a | .skipWhile _ a | .takeWhile _ a | .skip _ a | .take _ a | .stepBy _ a | .same a => Muted dbg a
  | .set _ | .win _ | .into _ | .union _ _ | .inter _ _ | .excl _ _ | .compl _ => True

end Spec
end Chrono
