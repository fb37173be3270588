import Verif.Spec.ReleaseSched

/-!
# Specification vocabulary: schedules seen in a mirror
-/

namespace Chrono.Spec
open Chrono

/-- The graph with the opposite delays: what was asked from `i` to `j` is asked from `j` to `i`. -/
def MirrorGraph (g g' : Graph) : Prop := g'.size = g.size ∧ ∀ i j, i < g.size → j < g.size → g'.timespan i j = g.timespan j i

/-- The schedule with the opposite dates, over the graph `g'`. -/
def mirrorSched (g' : Graph) (s : Sched) : Sched := ⟨g', s.schedule.map TSet.neg⟩

/-- The windows have opposite bounds (`a..` and `..=-a`, `a..=b` and `-b..=-a`, ..), or opposite intervals if they are sets. -/
def Opposite : Window → Window → Prop
  | .conv w, .conv w' => w'.lower = -w.upper ∧ w'.upper = -w.lower
  | .set s, .set s' => s' = TSet.neg s
  | _, _ => False

/-- What is removed, in the mirror. -/
def oppositeNeg : Negatable → Negatable
  | .iv i => .iv i.neg
  | .point t => .point (-t)
  | .set s => .set (TSet.neg s)

/-- The requests are mirror images: in the mirror a deadline is a startline. -/
def MirrorReq : Req → Req → Prop
  | .retain i w, .retain j w' => j = i ∧ Opposite w w'
  | .remove i w, .remove j w' => j = i ∧ w' = oppositeNeg w
  | .deadline t, .startline u => u = -t
  | .startline t, .deadline u => u = -t
  | _, _ => False

/-- The request is about intervals or ranges, not about sets. -/
def ConvexReq : Req → Prop
  | .retain _ (.conv _) => True
  | .deadline _ => True
  | .startline _ => True
  | _ => False

/-- The lists of requests are mirror images. -/
inductive MirrorReqs : List Req → List Req → Prop where
  | nil : MirrorReqs [] []
  | cons {q q' l l'} : MirrorReq q q' → MirrorReqs l l' → MirrorReqs (q :: l) (q' :: l')

/-- The request is about a set (`retain` in a set, or `remove`) and the slots of the instant are not a canonical set: they hold
an interval with no date, which an intersection of touching intervals has left (C33). -/
def Unclean (s : Sched) : Req → Prop
  | .retain i (.set _) => ∃ w, s.scheduling i = some w ∧ ¬ Canon w
  | .remove i _ => ∃ w, s.scheduling i = some w ∧ ¬ Canon w
  | _ => False

/-- None of the requests, made one after the other, is in that case. -/
def CleanRun (dbg : Bool) : Sched → List Req → Prop
  | _, [] => True
  | s, q :: l => ¬ Unclean s q ∧ ∀ s' o, q.run dbg s = .ok (s', o) → CleanRun dbg s' l

end Chrono.Spec
