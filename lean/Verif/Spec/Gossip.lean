import Verif.Spec.Graph

/-!
# Specification vocabulary: replicas which exchange their graphs

Several graphs (replicas) evolve apart. In an exchange `(a, b)` a copy of the graph of `b` is merged into the graph of `a`.
-/

namespace Chrono.Spec
open Chrono

/-- Successive exchanges: the graphs of the replicas in the end, and the answers. -/
def gossip : List Graph → List (Nat × Nat) → Res (List Graph × List Outcome)
  | rs, [] => .ok (rs, [])
  | rs, (a, b) :: l =>
    match rs[a]?, rs[b]? with
    | some g, some h => do
      let (x, o) ← g.merge h
      let (rs', os) ← gossip (rs.set a x) l
      return (rs', o :: os)
    | _, _ => .error .outOfBounds

/-- `heard l K r q`: if before the exchanges replica `r` has heard of replica `q` when `K r q`, it has heard of it afterwards. In an exchange
`(a, b)` replica `a` hears of all those of which `b` has heard. -/
def heard : List (Nat × Nat) → (Nat → Nat → Prop) → Nat → Nat → Prop
  | [], K => K
  | (a, b) :: l, K => heard l (fun r q => K r q ∨ (r = a ∧ K b q))

/-- In the beginning each replica has heard of itself only. -/
def Heard (l : List (Nat × Nat)) : Nat → Nat → Prop := heard l (fun r q => r = q)

end Chrono.Spec
