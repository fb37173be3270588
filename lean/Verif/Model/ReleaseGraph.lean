import Verif.Model.Release

/-!
# Release builds: the operations of a graph

The same functions as in `Model/Graph.lean`, compiled in release mode: every access goes through the wrapping cell computation of
`Model/Release.lean`, and the sizes are computed modulo `2^32`. An access out of the vector is still the error `outOfBounds` (undefined
behaviour of `get_unchecked`). `tvAdd` panics on opposite infinities in both builds and does not overflow otherwise.
-/

namespace Chrono
namespace Graph

/-- src/graph/storage.rs:8-15 `reset`, release build -/
def resetR (g : Graph) : Res Graph :=
  (List.range g.size).foldlM (fun g i => g.setLowerR i i 0)
    { g with data := g.data.map (fun _ => -INF) }

/-- src/graph/storage.rs:58-59, release build; the range is empty if its end wraps below its start. -/
def constrainedWithSmallerR (g : Graph) (i : Nat) : Res Bool :=
  let a := wrapU32 ((i : Int) * i)
  let b := wrapU32 (a + wrapU32 (2 * (i : Int)))
  ((List.range' a (b + 1 - a)).filter (fun x => x != wrapU32 (a + i))).anyM
    (fun x => do return !isPastInfinite (← vget g.data x))

/-- src/graph/storage.rs:56-61, release build -/
def shrunkSizeR (g : Graph) : Nat → Res Nat
  | 0 => .ok 0
  | i + 1 => do
    if ← g.constrainedWithSmallerR i then return i + 1 else g.shrunkSizeR i

/-- src/graph/storage.rs:54-63 `shrink_to_fit`, release build -/
def shrinkToFitR (g : Graph) : Res Graph := do
  return { g with size := ← g.shrunkSizeR g.size }

/-- src/graph/storage.rs:112-131 `instant_cmp`, release build -/
def instantCmpR (g : Graph) (i j : Nat) : Res (Option Ordering) := do
  if i ≥ g.size || j ≥ g.size then return none
  else
    let ij ← g.lowerR i j
    if isStrictlyPositive ij then return some .lt
    else
      let ji ← g.lowerR j i
      if isStrictlyPositive ji then return some .gt
      else if ij == 0 && ji == 0 then return some .eq
      else return none

/-- src/graph/constraints.rs:52-82, release build -/
def viewR (g : Graph) (i j : Nat) : Res Constr := do
  let l ← g.lowerR i j
  let u ← g.lowerR j i
  return ⟨i, j, false, l, tvNeg u⟩

/-- src/graph/constraints.rs:17-25 `constraint`, release build -/
def constraintR (g : Graph) (i j : Nat) : Res (Option Constr) := do
  if i ≥ g.size || j ≥ g.size then return none
  else
    let k ← g.viewR i j
    if isPastInfinite k.lower && isFutureInfinite k.upper then return none else return some k

/-- src/graph/storage.rs:135-142 `are_distinct_instants`, release build -/
def areDistinctR (g : Graph) (i j : Nat) : Res Bool := do
  match ← g.constraintR i j with
  | some k => return isStrictlyPositive k.lower || isStrictlyNegative k.upper
  | none => return false

/-- src/graph/constraints.rs:161-162, 219-220, release build -/
def relatedR (g : Graph) (i j : Nat) : Res Bool := do
  let l ← g.lowerR i j
  if !isPastInfinite l then return true
  else
    let u ← g.lowerR j i
    return !isPastInfinite u

/-- src/graph/constraints.rs:154-172, release build (first test as in `iterLoop`) -/
def iterLoopR (g : Graph) (i j : Nat) : Res (Option Constr × (Nat × Nat)) :=
  if _h : g.size ≤ i ∨ g.size ≤ j then .error .outOfBounds
  else
    if j + 1 = g.size then
      if i + 1 = g.size then .ok (none, (i + 1, j + 1))
      else iterLoopR g (i + 1) (i + 1)
    else
      match g.relatedR i (j + 1) with
      | .error e => .error e
      | .ok true =>
        match g.viewR i (j + 1) with
        | .error e => .error e
        | .ok k => .ok (some k, (i, j + 1))
      | .ok false => iterLoopR g i (j + 1)
termination_by (g.size - i, g.size - j)

/-- src/graph/constraints.rs:147-174 `TimeConstraintIter::next`, release build -/
def iterNextR (g : Graph) (s : Nat × Nat) : Res (Option Constr × (Nat × Nat)) :=
  if s.1 = g.size then .ok (none, s) else iterLoopR g s.1 s.2

/-- src/graph/constraints.rs:213-226, release build (first test as in `fromLoop`) -/
def fromLoopR (g : Graph) (i j : Nat) : Res (Nat × Nat) :=
  if h : g.size ≤ j then .error .outOfBounds
  else
    if j + 1 = g.size then .ok (g.size, j + 1)
    else if i ≠ j + 1 then
      match g.relatedR i (j + 1) with
      | .error e => .error e
      | .ok true => .ok (i, j + 1)
      | .ok false => fromLoopR g i (j + 1)
    else fromLoopR g i (j + 1)
termination_by g.size - j

/-- src/graph/constraints.rs:203-230 `TimeConstraintFromIter::next`, release build -/
def fromNextR (g : Graph) (s : Nat × Nat) : Res (Option Constr × (Nat × Nat)) := do
  if s.1 ≥ g.size then return (none, s)
  else
    let k ← g.viewR s.1 s.2
    let s' ← fromLoopR g s.1 s.2
    return (some k, s')

/-- src/graph/constraints.rs:177-183, 233-239 `size_hint`, release build: the announced upper bound, modulo `2^32` -/
def graphSizeHintR (g : Graph) (s : Nat × Nat) : Nat :=
  let all := wrapU32 ((wrapU32 ((g.size : Int) * g.size) : Int) - g.size) / 2
  let previous := wrapU32 ((wrapU32 ((s.1 : Int) * s.1) : Int) - s.1) / 2
  wrapU32 ((wrapU32 ((wrapU32 ((all : Int) - (previous : Int)) : Int) + 1) : Int) - s.2)

/-- `graph.iter().collect()`, src/graph/constraints.rs:45-47, release build -/
def iterAllR (g : Graph) : Res (List Constr) := runIter g.iterNextR (g.size * g.size + 1) iterInit

/-- `graph.constraints_from(i).collect()`, src/graph/constraints.rs:29-31, release build -/
def constraintsFromR (g : Graph) (i : Nat) : Res (List Constr) :=
  runIter g.fromNextR (g.size + 1) (i, 0)

/-- src/graph/constraints.rs:35-39 `constraints_to`, release build -/
def constraintsToR (g : Graph) (i : Nat) : Res (List Constr) := do
  (← g.constraintsFromR i).mapM (fun k => g.viewR k.dst k.src)

/-- src/graph/propagation.rs:138-142, 149-151, 163-165, release build -/
def relaxR (g : Graph) (i j : Nat) (val : Int) : Res Graph := do
  let k ← g.lowerR i j
  if val > k then g.setLowerR i j val else return g

/-- src/graph/propagation.rs:119-153 `propagate_lower_bound`, release build -/
def propagateLowerBoundR (g : Graph) (io jo : Nat) : Res Graph := do
  let ioJo ← g.lowerR io jo
  let g ← (List.range g.size).foldlM (fun g i => do
    let a ← g.lowerR i io
    let val ← tvAdd a ioJo
    g.relaxR i jo val) g
  (List.range g.size).foldlM (fun g j => do
    let jJo ← g.lowerR j jo
    (List.range g.size).foldlM (fun g i => do
      let b ← g.lowerR jo i
      let val ← tvAdd jJo b
      g.relaxR j i val) g) g

/-- src/graph/propagation.rs:47-99 `propagate`, release build -/
def propagateR (g : Graph) (k : Constr) : Res (Graph × Outcome) := do
  if k.isEmpty then return (g, .recovered)
  else
    let mx := max k.src k.dst
    if g.size ≤ mx then
      let g ← g.resizeR (wrapU32 ((mx : Int) + 1))
      let g ← g.setLowerR k.src k.dst k.lower
      let g ← g.setLowerR k.dst k.src (tvNeg k.upper)
      return (g, .propagated)
    else
      let ij ← g.lowerR k.src k.dst
      let ji ← g.lowerR k.dst k.src
      if k.lower ≤ ij then
        if tvNeg k.upper ≤ ji then return (g, .unchanged)
        else if ij > k.upper then return (g, .recovered)
        else
          let g ← g.setLowerR k.dst k.src (tvNeg k.upper)
          let g ← g.propagateLowerBoundR k.dst k.src
          return (g, .propagated)
      else
        if ji > tvNeg k.lower then return (g, .recovered)
        else
          let g ← g.setLowerR k.src k.dst k.lower
          let g ← g.propagateLowerBoundR k.src k.dst
          let ji ← g.lowerR k.dst k.src
          if ji < tvNeg k.upper then
            let g ← g.setLowerR k.dst k.src (tvNeg k.upper)
            let g ← g.propagateLowerBoundR k.dst k.src
            return (g, .propagated)
          else return (g, .propagated)

/-- src/graph/propagation.rs:162-166, release build -/
def gpRowR (g : Graph) (k i : Nat) : Res Graph :=
  (List.range g.size).foldlM (fun g j => do
    let a ← g.lowerR i k
    let b ← g.lowerR k j
    let val ← tvAdd a b
    g.relaxR i j val) g

/-- src/graph/propagation.rs:158-174 `global_propagation`, release build -/
def globalPropagationR (g : Graph) : Res (Graph × Outcome) := do
  let n := g.size
  let (g, failed) ← (List.range n).foldlM (fun (p : Graph × Bool) k =>
    (List.range n).foldlM (fun (p : Graph × Bool) i => do
      if p.2 then return p
      else
        let g ← p.1.gpRowR k i
        let d ← g.lowerR i i
        if isStrictlyPositive d then return ({ g with size := 0 }, true)
        else return (g, false)) p) (g, false)
  return (g, if failed then .fatal else .propagated)

/-- src/graph/propagation.rs:102-117 `merge`, release build -/
def mergeR (g h : Graph) : Res (Graph × Outcome) := do
  let (g, h, swapped) := if g.size < h.size then (h, g, true) else (g, h, false)
  let (d, change) := zipMax g.data h.data
  let g := { g with data := d }
  if change then g.globalPropagationR
  else if swapped then return (g, .propagated)
  else return (g, .unchanged)

/-- src/graph/propagation.rs:199-211: the insertion of one constraint in `extend`, release build -/
def insertR (g : Graph) (k : Constr) : Res Graph := do
  let mx := max k.src k.dst
  let g ← if mx ≥ g.size then g.resizeR (wrapU32 ((mx : Int) + 1)) else pure g
  let l ← g.lowerR k.src k.dst
  let g ← if l < k.lower then g.setLowerR k.src k.dst k.lower else pure g
  let u ← g.lowerR k.dst k.src
  if u < tvNeg k.upper then g.setLowerR k.dst k.src (tvNeg k.upper) else return g

/-- src/graph/propagation.rs:180-214 `extend`, release build -/
def extendR (g : Graph) (hint : Option Nat) (ks : List Constr) : Res (Graph × Outcome) := do
  if hint = some 0 then return (g, .unchanged)
  else if hint = some 1 then
    match ks with
    | [] => return (g, .unchanged)
    | k :: _ => g.propagateR k
  else
    let g ← ks.foldlM insertR g
    g.globalPropagationR

/-- src/graph/constraints.rs:247-255 `FromIterator`, release build -/
def fromConstraintsR (hint : Option Nat) (ks : List Constr) : Res Graph := do
  match ← default.extendR hint ks with
  | (g, .unchanged) => return g
  | (g, .propagated) => return g
  | _ => .error .unwrapNone

end Graph
end Chrono
