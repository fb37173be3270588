import Verif.Model.TimeSet

/-!
# The constraint graph (src/graph/{mod,storage,constraints,propagation}.rs)

`TimeGraph { size: u32, data: Vec<TimeValue> }`. Instants are `u32`: they are `Nat` here and every
`u32` operation of the source is checked (`chkU32`). `get_unchecked` outside the vector is the error
`outOfBounds` (undefined behaviour in the program). `for` loops are folds over `List.range`.
-/

namespace Chrono

/-- src/graph/mod.rs:68-84 `TimeGraph` -/
structure Graph where
  size : Nat
  data : List Int
  deriving DecidableEq, Repr

/-- What the code reads of a `TimeConstraint` (src/graph/mod.rs:101-119): its two instants and the
`TimeBounds` methods `is_empty`, `lower_bound`, `upper_bound`. -/
structure Constr where
  src : Nat
  dst : Nat
  isEmpty : Bool
  lower : Int
  upper : Int
  deriving DecidableEq, Repr

/-- src/graph/mod.rs:130-150 `TimeConstraint for ((Instant,Instant), TW)` -/
def Constr.ofConvex (i j : Nat) (w : Convex) : Constr := ⟨i, j, w.isEmpty, w.lower, w.upper⟩

/-- src/graph/mod.rs:121-127 `From<K: TimeConstraint> for TimeSpan` -/
def Constr.span (k : Constr) : Iv := ⟨k.lower, k.upper⟩

/-- src/graph/constraints.rs:128-133 `From<TimeGraphConstraint> for ((Instant, Instant), TimeSpan)` -/
def Constr.toTuple (k : Constr) : Constr := Constr.ofConvex k.src k.dst (.iv ⟨k.lower, k.upper⟩)

/-- src/graph/mod.rs:107-118 `equiv` -/
def Constr.equiv (a b : Constr) : Bool :=
  if a.src = b.src then a.dst == b.dst && a.lower == b.lower && a.upper == b.upper
  else if a.src = b.dst then a.dst == b.src && a.lower == -b.upper && a.upper == -b.lower
  else false

/-- src/graph/propagation.rs:7-37 `TimePropagationResult`: `Ok(Unchanged)`, `Ok(Propagated)`,
`Err(Recovered)`, `Err(Fatal)` -/
inductive Outcome where
  | unchanged | propagated | recovered | fatal
  deriving DecidableEq, Repr

/-- `Vec::get_unchecked` -/
def vget (d : List Int) (k : Nat) : Res Int :=
  match d[k]? with
  | some x => .ok x
  | none => .error .outOfBounds

/-- write through `Vec::get_unchecked_mut` -/
def vset (d : List Int) (k : Nat) (v : Int) : Res (List Int) :=
  if k < d.length then .ok (d.set k v) else .error .outOfBounds

namespace Graph

/-! ## Storage (src/graph/storage.rs) -/

/-- `TimeGraph::default()` (derived, src/graph/mod.rs:67) -/
def default : Graph := ⟨0, []⟩

/-- src/graph/storage.rs:76, 83: the cell of the pair `(i,j)`, in `u32` arithmetic -/
def cell (i j : Nat) : Res Nat :=
  if i ≥ j then do
    let a ← chkU32 ((i : Int) * i)
    chkU32 ((a : Int) + j)
  else do
    let a ← chkU32 ((j : Int) + 2)
    let b ← chkU32 ((j : Int) * a)
    chkU32 ((b : Int) - i)

/-- src/graph/storage.rs:75-78 `lower` -/
def lower (g : Graph) (i j : Nat) : Res Int := do vget g.data (← cell i j)

/-- src/graph/storage.rs:82-85 `*lower_mut(i,j) = v` -/
def setLower (g : Graph) (i j : Nat) (v : Int) : Res Graph := do
  return { g with data := ← vset g.data (← cell i j) v }

/-- src/graph/storage.rs:8-15 `reset` -/
def reset (g : Graph) : Res Graph :=
  (List.range g.size).foldlM (fun g i => g.setLower i i 0)
    { g with data := g.data.map (fun _ => -INF) }

/-- `Vec::resize` -/
def vresize (d : List Int) (m : Nat) (v : Int) : List Int :=
  d.take m ++ List.replicate (m - d.length) v

/-- src/graph/storage.rs:37-45 `resize` -/
def resize (g : Graph) (n : Nat) : Res Graph := do
  let m ← chkU32 ((n : Int) * n)
  let g' ← (List.range' g.size (n - g.size)).foldlM (fun g i => g.setLower i i 0)
    { g with data := vresize g.data m (-INF) }
  return { g' with size := n }

/-- src/graph/storage.rs:21-26 `with_size` -/
def withSize (n : Nat) : Res Graph := default.resize n

/-- src/graph/storage.rs:58-59: is instant `i` constrained with a smaller instant? -/
def constrainedWithSmaller (g : Graph) (i : Nat) : Res Bool := do
  let _ ← chkU32 ((i : Int) * i)
  let _ ← chkU32 ((i : Int) * i + 2 * i)
  ((List.range' (i * i) (2 * i + 1)).filter (fun x => x != i * i + i)).anyM
    (fun x => do return !isPastInfinite (← vget g.data x))

/-- src/graph/storage.rs:56-61: the new size computed by `shrink_to_fit`; the argument counts down
from `self.size`. -/
def shrunkSize (g : Graph) : Nat → Res Nat
  | 0 => .ok 0
  | i + 1 => do
    if ← g.constrainedWithSmaller i then return i + 1 else g.shrunkSize i

/-- src/graph/storage.rs:54-63 `shrink_to_fit` (the capacity of the vector is not modelled) -/
def shrinkToFit (g : Graph) : Res Graph := do
  return { g with size := ← g.shrunkSize g.size }

/-- src/graph/storage.rs:88-110 `timespan` -/
def timespan (g : Graph) (i j : Nat) : Res Iv :=
  if i ≥ j then
    if i ≥ g.size then .ok Iv.all
    else do
      let a ← chkU32 ((i : Int) * i)
      let a ← chkU32 ((a : Int) + j)
      let l ← vget g.data a
      let b ← chkU32 ((i : Int) + 2)
      let b ← chkU32 ((i : Int) * b)
      let b ← chkU32 ((b : Int) - j)
      let u ← vget g.data b
      return ⟨l, tvNeg u⟩
  else
    if j ≥ g.size then .ok Iv.all
    else do
      let b ← chkU32 ((j : Int) + 2)
      let b ← chkU32 ((j : Int) * b)
      let b ← chkU32 ((b : Int) - i)
      let l ← vget g.data b
      let a ← chkU32 ((j : Int) * j)
      let a ← chkU32 ((a : Int) + i)
      let u ← vget g.data a
      return ⟨l, tvNeg u⟩

/-- src/graph/storage.rs:112-131 `instant_cmp` -/
def instantCmp (g : Graph) (i j : Nat) : Res (Option Ordering) := do
  if i ≥ g.size || j ≥ g.size then return none
  else
    let ij ← g.lower i j
    if isStrictlyPositive ij then return some .lt
    else
      let ji ← g.lower j i
      if isStrictlyPositive ji then return some .gt
      else if ij == 0 && ji == 0 then return some .eq
      else return none

/-! ## Views (src/graph/constraints.rs) -/

/-- src/graph/constraints.rs:52-82: what can be read of a `TimeGraphConstraint` -/
def view (g : Graph) (i j : Nat) : Res Constr := do
  let l ← g.lower i j
  let u ← g.lower j i
  return ⟨i, j, false, l, tvNeg u⟩

/-- src/graph/constraints.rs:17-25 `constraint`; `is_all` is src/wins/mod.rs:76-78 with the bounds
tests of constraints.rs:66-73 -/
def constraint (g : Graph) (i j : Nat) : Res (Option Constr) := do
  if i ≥ g.size || j ≥ g.size then return none
  else
    let k ← g.view i j
    if isPastInfinite k.lower && isFutureInfinite k.upper then return none else return some k

/-- src/graph/storage.rs:135-142 `are_distinct_instants` -/
def areDistinct (g : Graph) (i j : Nat) : Res Bool := do
  match ← g.constraint i j with
  | some k => return isStrictlyPositive k.lower || isStrictlyNegative k.upper
  | none => return false

/-- src/graph/constraints.rs:161-162, 219-220: at least one side of the pair is constrained -/
def related (g : Graph) (i j : Nat) : Res Bool := do
  let l ← g.lower i j
  if !isPastInfinite l then return true
  else
    let u ← g.lower j i
    return !isPastInfinite u

/-- src/graph/constraints.rs:154-172: the `loop` of `TimeConstraintIter::next`, and the state left.
The first test cannot succeed in a reachable state (`i < size` and `j < size` there); it is added to
make the recursion well-founded. -/
def iterLoop (g : Graph) (i j : Nat) : Res (Option Constr × (Nat × Nat)) :=
  if _h : g.size ≤ i ∨ g.size ≤ j then .error .outOfBounds
  else
    if j + 1 = g.size then
      if i + 1 = g.size then .ok (none, (i + 1, j + 1))
      else iterLoop g (i + 1) (i + 1)
    else
      match g.related i (j + 1) with
      | .error e => .error e
      | .ok true =>
        match g.view i (j + 1) with
        | .error e => .error e
        | .ok k => .ok (some k, (i, j + 1))
      | .ok false => iterLoop g i (j + 1)
termination_by (g.size - i, g.size - j)

/-- src/graph/constraints.rs:147-174 `TimeConstraintIter::next`; the state is `(i, j)`. -/
def iterNext (g : Graph) (s : Nat × Nat) : Res (Option Constr × (Nat × Nat)) :=
  if s.1 = g.size then .ok (none, s) else iterLoop g s.1 s.2

/-- src/graph/constraints.rs:45-47 `iter`: initial state -/
def iterInit : Nat × Nat := (0, 0)

/-- src/graph/constraints.rs:213-226: the `loop` of `TimeConstraintFromIter::next`: the state left.
The first test is added for well-foundedness: `j < size` in every reachable state. -/
def fromLoop (g : Graph) (i j : Nat) : Res (Nat × Nat) :=
  if h : g.size ≤ j then .error .outOfBounds
  else
    if j + 1 = g.size then .ok (g.size, j + 1)
    else if i ≠ j + 1 then
      match g.related i (j + 1) with
      | .error e => .error e
      | .ok true => .ok (i, j + 1)
      | .ok false => fromLoop g i (j + 1)
    else fromLoop g i (j + 1)
termination_by g.size - j

/-- src/graph/constraints.rs:203-230 `TimeConstraintFromIter::next`. The returned constraint reads
the graph lazily; the graph is borrowed immutably, so its bounds can be taken at once. -/
def fromNext (g : Graph) (s : Nat × Nat) : Res (Option Constr × (Nat × Nat)) := do
  if s.1 ≥ g.size then return (none, s)
  else
    let k ← g.view s.1 s.2
    let s' ← fromLoop g s.1 s.2
    return (some k, s')

/-- src/graph/constraints.rs:177-183, 233-239 `size_hint` (the same body for both iterators), in
`u32` arithmetic: the announced upper bound. -/
def graphSizeHint (g : Graph) (s : Nat × Nat) : Res Nat := do
  let n2 ← chkU32 ((g.size : Int) * g.size)
  let n2n ← chkU32 ((n2 : Int) - g.size)
  let i2 ← chkU32 ((s.1 : Int) * s.1)
  let i2i ← chkU32 ((i2 : Int) - s.1)
  let a ← chkU32 ((n2n / 2 : Nat) - ((i2i / 2 : Nat) : Int))
  let b ← chkU32 ((a : Int) + 1)
  chkU32 ((b : Int) - s.2)

/-- Run an iterator (`next`) until it returns `None`; the first argument bounds the number of calls,
`size² + 1` calls always suffice for both graph iterators (proved). -/
def runIter (next : Nat × Nat → Res (Option Constr × (Nat × Nat))) :
    Nat → Nat × Nat → Res (List Constr)
  | 0, _ => .error .stackOverflow
  | f + 1, s => do
    match ← next s with
    | (none, _) => return []
    | (some k, s') => return k :: (← runIter next f s')

/-- `graph.iter().collect()`, src/graph/constraints.rs:45-47 -/
def iterAll (g : Graph) : Res (List Constr) := runIter g.iterNext (g.size * g.size + 1) iterInit

/-- `graph.constraints_from(i).collect()`, src/graph/constraints.rs:29-31 -/
def constraintsFrom (g : Graph) (i : Nat) : Res (List Constr) :=
  runIter g.fromNext (g.size + 1) (i, 0)

/-- src/graph/constraints.rs:35-39 `constraints_to`: the same view with the instants swapped, so the
bounds are read the other way round. -/
def constraintsTo (g : Graph) (i : Nat) : Res (List Constr) := do
  (← g.constraintsFrom i).mapM (fun k => g.view k.dst k.src)

/-! ## Propagation (src/graph/propagation.rs) -/

/-- src/graph/propagation.rs:138-142, 149-151, 163-165: `val = a + b; if val > *k { *k = val }` -/
def relax (g : Graph) (i j : Nat) (val : Int) : Res Graph := do
  let k ← g.lower i j
  if val > k then g.setLower i j val else return g

/-- src/graph/propagation.rs:119-153 `propagate_lower_bound` -/
def propagateLowerBound (g : Graph) (io jo : Nat) : Res Graph := do
  let ioJo ← g.lower io jo
  let g ← (List.range g.size).foldlM (fun g i => do
    let a ← g.lower i io
    let val ← tvAdd a ioJo
    g.relax i jo val) g
  (List.range g.size).foldlM (fun g j => do
    let jJo ← g.lower j jo
    (List.range g.size).foldlM (fun g i => do
      let b ← g.lower jo i
      let val ← tvAdd jJo b
      g.relax j i val) g) g

/-- src/graph/propagation.rs:47-99 `propagate` -/
def propagate (g : Graph) (k : Constr) : Res (Graph × Outcome) := do
  if k.isEmpty then return (g, .recovered)
  else
    let mx := max k.src k.dst
    if g.size ≤ mx then
      let m ← chkU32 ((mx : Int) + 1)
      let g ← g.resize m
      let g ← g.setLower k.src k.dst k.lower
      let g ← g.setLower k.dst k.src (tvNeg k.upper)
      return (g, .propagated)
    else
      let ij ← g.lower k.src k.dst
      let ji ← g.lower k.dst k.src
      if k.lower ≤ ij then
        if tvNeg k.upper ≤ ji then return (g, .unchanged)
        else if ij > k.upper then return (g, .recovered)
        else
          let g ← g.setLower k.dst k.src (tvNeg k.upper)
          let g ← g.propagateLowerBound k.dst k.src
          return (g, .propagated)
      else
        if ji > tvNeg k.lower then return (g, .recovered)
        else
          let g ← g.setLower k.src k.dst k.lower
          let g ← g.propagateLowerBound k.src k.dst
          let ji ← g.lower k.dst k.src
          if ji < tvNeg k.upper then
            let g ← g.setLower k.dst k.src (tvNeg k.upper)
            let g ← g.propagateLowerBound k.dst k.src
            return (g, .propagated)
          else return (g, .propagated)

/-- src/graph/propagation.rs:162-166: the innermost loop of `global_propagation` -/
def gpRow (g : Graph) (k i : Nat) : Res Graph :=
  (List.range g.size).foldlM (fun g j => do
    let a ← g.lower i k
    let b ← g.lower k j
    let val ← tvAdd a b
    g.relax i j val) g

/-- src/graph/propagation.rs:158-174 `global_propagation`. The Boolean is set when the function has
returned `Err(Fatal)` inside the loops, which then do nothing more. -/
def globalPropagation (g : Graph) : Res (Graph × Outcome) := do
  let n := g.size
  let (g, failed) ← (List.range n).foldlM (fun (p : Graph × Bool) k =>
    (List.range n).foldlM (fun (p : Graph × Bool) i => do
      if p.2 then return p
      else
        let g ← p.1.gpRow k i
        let d ← g.lower i i
        if isStrictlyPositive d then return ({ g with size := 0 }, true)
        else return (g, false)) p) (g, false)
  return (g, if failed then .fatal else .propagated)

/-- src/graph/propagation.rs:107-109: `zip` and `if *a < b { *a = b; change = true }` -/
def zipMax : List Int → List Int → List Int × Bool
  | a :: as, b :: bs =>
    let (r, c) := zipMax as bs
    if a < b then (b :: r, true) else (a :: r, c)
  | as, _ => (as, false)

/-- src/graph/propagation.rs:102-117 `merge` -/
def merge (g h : Graph) : Res (Graph × Outcome) := do
  let (g, h, swapped) := if g.size < h.size then (h, g, true) else (g, h, false)
  let (d, change) := zipMax g.data h.data
  let g := { g with data := d }
  if change then g.globalPropagation
  else if swapped then return (g, .propagated)
  else return (g, .unchanged)

/-- src/graph/propagation.rs:199-211: the insertion of one constraint in `extend` -/
def insert (g : Graph) (k : Constr) : Res Graph := do
  let mx := max k.src k.dst
  let g ← if mx ≥ g.size then do g.resize (← chkU32 ((mx : Int) + 1)) else pure g
  let l ← g.lower k.src k.dst
  let g ← if l < k.lower then g.setLower k.src k.dst k.lower else pure g
  let u ← g.lower k.dst k.src
  if u < tvNeg k.upper then g.setLower k.dst k.src (tvNeg k.upper) else return g

/-- src/graph/propagation.rs:180-214 `extend`. `hint` is the upper bound of the `size_hint` of the
iterator and `ks` the items it would produce. -/
def extend (g : Graph) (hint : Option Nat) (ks : List Constr) : Res (Graph × Outcome) := do
  if hint = some 0 then return (g, .unchanged)
  else if hint = some 1 then
    match ks with
    | [] => return (g, .unchanged)
    | k :: _ => g.propagate k
  else
    let g ← ks.foldlM insert g
    g.globalPropagation

/-- src/graph/constraints.rs:247-255 `FromIterator` (`expect` on the result) -/
def fromConstraints (hint : Option Nat) (ks : List Constr) : Res Graph := do
  match ← default.extend hint ks with
  | (g, .unchanged) => return g
  | (g, .propagated) => return g
  | _ => .error .unwrapNone

/-- src/graph/constraints.rs:258-262 the trait `Extend` (`expect` on the result of the method of the same name, which
has priority over the trait's) -/
def extendTrait (g : Graph) (hint : Option Nat) (ks : List Constr) : Res Graph := do
  match ← g.extend hint ks with
  | (g, .unchanged) => return g
  | (g, .propagated) => return g
  | _ => .error .unwrapNone

end Graph
end Chrono
