import Verif.Model.Scheduler

/-!
# What an interrupted operation leaves behind

The functions which modify a graph or a schedule in place, written again with the contents of `*self` after each of their writes: if the
function panics (an assertion, an overflow check, an `unwrap`), or if the code of the caller which it calls does (an iterator given to
`extend`), and the caller catches the panic, one of these contents is what remains. The results are proved equal to those of `Model.Graph`
and `Model.Scheduler` (`Props.Crash`).
-/

namespace Chrono

/-- a computation which modifies `*self`: the contents of `*self` after each write, in order, and the result -/
structure Run (S α : Type) where
  steps : List S
  res : Res α

namespace Run

/-- a computation which does not write -/
def lift {S α : Type} (x : Res α) : Run S α := ⟨[], x⟩

/-- a write of `*self` -/
def put {S : Type} (x : Res S) : Run S S :=
  match x with
  | .ok s => ⟨[s], .ok s⟩
  | .error e => ⟨[], .error e⟩

def bind {S α β : Type} (x : Run S α) (f : α → Run S β) : Run S β :=
  match x.res with
  | .ok a => ⟨x.steps ++ (f a).steps, (f a).res⟩
  | .error e => ⟨x.steps, .error e⟩

instance {S : Type} : Monad (Run S) where
  pure a := ⟨[], .ok a⟩
  bind := bind

end Run

namespace Graph
open Run

/-- src/graph/propagation.rs:138-142, 149-151, 163-165, see `Graph.relax` -/
def relaxT (g : Graph) (i j : Nat) (val : Int) : Run Graph Graph := do
  let k ← lift (g.lower i j)
  if val > k then put (g.setLower i j val) else return g

/-- src/graph/propagation.rs:119-153, see `Graph.propagateLowerBound` -/
def propagateLowerBoundT (g : Graph) (io jo : Nat) : Run Graph Graph := do
  let ioJo ← lift (g.lower io jo)
  let g ← (List.range g.size).foldlM (fun g i => do
    let a ← lift (g.lower i io)
    let val ← lift (tvAdd a ioJo)
    g.relaxT i jo val) g
  (List.range g.size).foldlM (fun g j => do
    let jJo ← lift (g.lower j jo)
    (List.range g.size).foldlM (fun g i => do
      let b ← lift (g.lower jo i)
      let val ← lift (tvAdd jJo b)
      g.relaxT j i val) g) g

/-- src/graph/propagation.rs:47-99, see `Graph.propagate`. `resize` is one write: it can only panic before its first write (the overflow of
`n * n`, storage.rs:39). -/
def propagateT (g : Graph) (k : Constr) : Run Graph (Graph × Outcome) := do
  if k.isEmpty then return (g, .recovered)
  else
    let mx := max k.src k.dst
    if g.size ≤ mx then
      let m ← lift (chkU32 ((mx : Int) + 1))
      let g ← put (g.resize m)
      let g ← put (g.setLower k.src k.dst k.lower)
      let g ← put (g.setLower k.dst k.src (tvNeg k.upper))
      return (g, .propagated)
    else
      let ij ← lift (g.lower k.src k.dst)
      let ji ← lift (g.lower k.dst k.src)
      if k.lower ≤ ij then
        if tvNeg k.upper ≤ ji then return (g, .unchanged)
        else if ij > k.upper then return (g, .recovered)
        else
          let g ← put (g.setLower k.dst k.src (tvNeg k.upper))
          let g ← g.propagateLowerBoundT k.dst k.src
          return (g, .propagated)
      else
        if ji > tvNeg k.lower then return (g, .recovered)
        else
          let g ← put (g.setLower k.src k.dst k.lower)
          let g ← g.propagateLowerBoundT k.src k.dst
          let ji ← lift (g.lower k.dst k.src)
          if ji < tvNeg k.upper then
            let g ← put (g.setLower k.dst k.src (tvNeg k.upper))
            let g ← g.propagateLowerBoundT k.dst k.src
            return (g, .propagated)
          else return (g, .propagated)

/-- src/graph/propagation.rs:162-166, see `Graph.gpRow` -/
def gpRowT (g : Graph) (k i : Nat) : Run Graph Graph :=
  (List.range g.size).foldlM (fun g j => do
    let a ← lift (g.lower i k)
    let b ← lift (g.lower k j)
    let val ← lift (tvAdd a b)
    g.relaxT i j val) g

/-- src/graph/propagation.rs:158-174, see `Graph.globalPropagation`. The last write of a fatal failure (`self.size = 0`, line 168) is not
recorded: nothing which could panic is executed after it. -/
def globalPropagationT (g : Graph) : Run Graph (Graph × Outcome) := do
  let n := g.size
  let (g, failed) ← (List.range n).foldlM (fun (p : Graph × Bool) k =>
    (List.range n).foldlM (fun (p : Graph × Bool) i => do
      if p.2 then return p
      else
        let g ← p.1.gpRowT k i
        let d ← lift (g.lower i i)
        if isStrictlyPositive d then return ({ g with size := 0 }, true)
        else return (g, false)) p) (g, false)
  return (g, if failed then .fatal else .propagated)

/-- src/graph/propagation.rs:102-117, see `Graph.merge`. The exchange of the two graphs and the loop of lines 107-109 are one write: nothing
in them can panic. -/
def mergeT (g h : Graph) : Run Graph (Graph × Outcome) := do
  let (g, h, swapped) := if g.size < h.size then (h, g, true) else (g, h, false)
  let (d, change) := zipMax g.data h.data
  let g ← put (.ok { g with data := d })
  if change then g.globalPropagationT
  else if swapped then return (g, .propagated)
  else return (g, .unchanged)

/-- src/graph/propagation.rs:199-211, see `Graph.insert` -/
def insertT (g : Graph) (k : Constr) : Run Graph Graph := do
  let mx := max k.src k.dst
  let g ← if mx ≥ g.size then do put (g.resize (← lift (chkU32 ((mx : Int) + 1)))) else pure g
  let l ← lift (g.lower k.src k.dst)
  let g ← if l < k.lower then put (g.setLower k.src k.dst k.lower) else pure g
  let u ← lift (g.lower k.dst k.src)
  if u < tvNeg k.upper then put (g.setLower k.dst k.src (tvNeg k.upper)) else return g

/-- src/graph/propagation.rs:180-214, see `Graph.extend` -/
def extendT (g : Graph) (hint : Option Nat) (ks : List Constr) : Run Graph (Graph × Outcome) := do
  if hint = some 0 then return (g, .unchanged)
  else if hint = some 1 then
    match ks with
    | [] => return (g, .unchanged)
    | k :: _ => g.propagateT k
  else
    let g ← ks.foldlM insertT g
    g.globalPropagationT

/-- src/graph/propagation.rs:198-212: the graph left by `extend` when its iterator (with an upper bound of `size_hint` which is not 0 or 1)
produces `ks` and then panics -/
def extendCut (g : Graph) (ks : List Constr) : Res Graph := ks.foldlM insert g

end Graph

namespace Sched
open Run

/-- src/graph/scheduler.rs:97-115 and 126-142, see `Sched.retain`. `set &= tw` (line 110) is one write: the bounds of the window types of
the library do not panic, and the intersection of sets is computed before it is assigned. -/
def retainT (dbg : Bool) (s : Sched) (i : Nat) (tw : Window) : Run Sched (Sched × Outcome) := do
  if i < s.schedule.length then
    let si ← lift (sget s.schedule i)
    if tw.containsSet si then return (s, .unchanged)
    else if !tw.overlapsSet si then return (s, .recovered)
    else
      let r ← lift (tw.restrict si)
      let s ← put (do return { s with schedule := ← sset s.schedule i r })
      let ks ← lift (s.graph.constraintsFrom i)
      let s ← ks.foldlM (fun s k => put (do return { s with schedule := ← propagateOne dbg i s.schedule k })) s
      return (s, .propagated)
  else lift (.error .assertFail)

/-- src/graph/scheduler.rs:117-124, see `Sched.remove` -/
def removeT (dbg : Bool) (s : Sched) (i : Nat) (tw : Negatable) : Run Sched (Sched × Outcome) :=
  retainT dbg s i (.set tw.not)

/-- src/graph/scheduler.rs:63-69, 82-88, see `Sched.retainAll` -/
def retainAllT (dbg : Bool) (s : Sched) (tw : Window) : Run Sched (Sched × Outcome) :=
  (List.range s.schedule.length).foldlM (fun (p : Sched × Outcome) i => do
    match ← retainT dbg p.1 i tw with
    | (s, .unchanged) => return (s, p.2)
    | (s, .propagated) => return (s, .propagated)
    | _ => lift (.error .unwrapNone)) (s, .unchanged)

/-- src/graph/scheduler.rs:56-71, see `Sched.setDeadline` -/
def setDeadlineT (dbg : Bool) (s : Sched) (deadline : Int) : Run Sched (Sched × Outcome) :=
  if s.schedule.any (fun tw => decide (TSet.lowerBound tw > deadline)) then lift (.ok (s, .recovered))
  else retainAllT dbg s (.conv (.rangeToIncl deadline))

/-- src/graph/scheduler.rs:75-90, see `Sched.setStartline` -/
def setStartlineT (dbg : Bool) (s : Sched) (startline : Int) : Run Sched (Sched × Outcome) :=
  if s.schedule.any (fun tw => decide (TSet.upperBound tw < startline)) then lift (.ok (s, .recovered))
  else retainAllT dbg s (.conv (.rangeFrom startline))

end Sched
end Chrono
