import Verif.Model.Chain

/-!
# Chains of lazy window iterators, one call of `next` at a time (src/iter/*.rs)

`Chain.items` evaluates the inner iterators of a pipeline completely. Here a pipeline is a state, which is advanced by
calls of `next` only, and an inner iterator is advanced only when the code of the outer one calls its `next`.
`Pipe.step` is one turn of the loops the code of `next` runs through, those of the inner iterators included.
-/

namespace Chrono

/-- The state of a pipeline. In a combinator which wraps its inner iterators in `Fuse`, `ei` says that `i` has returned
`None` once (`Fuse` never calls it again), and `bi` is the answer of `i.next()` in the current turn of the loop, if it has
been asked already; `ej` and `bj` likewise. -/
inductive Pipe where
  /-- src/iter/mod.rs:36-79, src/wins/mod.rs:132-145: the iterators over the intervals of a window; those still to come -/
  | items (l : List Iv)
  /-- src/iter/union.rs:82-88 `IterUnion` -/
  | union (i : Pipe) (ei : Bool) (bi : Option (Option Iv)) (j : Pipe) (ej : Bool) (bj : Option (Option Iv))
      (state : UState) (tmp : Iv)
  /-- src/iter/intersect.rs:81-87 `IterIntersection` -/
  | inter (i : Pipe) (ei : Bool) (bi : Option (Option Iv)) (j : Pipe) (ej : Bool) (bj : Option (Option Iv))
      (state : NState) (tmp : Iv)
  /-- src/iter/compl.rs:25-29 `IterComplementary`; `inFor`: the current call of `next` has reached the `for` loop -/
  | compl (a : Pipe) (ea : Bool) (lower : Int) (inFor : Bool)
  /-- src/iter/transl.rs:26-29 `TimeValueTranslIter` -/
  | transl (d : Int) (a : Pipe)
  /-- src/iter/scaling.rs:25-28 `TimeValueScaleIter` -/
  | scale (ty : Iv.ScaleTy) (n : Int) (a : Pipe)
  /-- src/iter/mod.rs:88-94 `Filter` -/
  | filter (p : Iv → Bool) (a : Pipe)
  /-- src/iter/mod.rs:103-109 `SkipWhile`; `started`: an item has been returned -/
  | skipWhile (p : Iv → Bool) (started : Bool) (a : Pipe)
  /-- src/iter/mod.rs:111-117 `TakeWhile`; `over`: an item has been refused -/
  | takeWhile (p : Iv → Bool) (over : Bool) (a : Pipe)
  /-- src/iter/mod.rs:119-123 `Skip`; the number of items still to skip -/
  | skip (n : Nat) (a : Pipe)
  /-- src/iter/mod.rs:125-129 `Take`; the number of items still to take -/
  | take (n : Nat) (a : Pipe)
  /-- src/iter/mod.rs:81-86 `StepBy`, by `k + 1`; `r`: the number of items to skip before the next one -/
  | stepBy (k r : Nat) (a : Pipe)
  /-- src/iter/mod.rs:96-101 `Peekable` (never peeked), 131-138 `Inspect` -/
  | same (a : Pipe)

/-- src/iter/union.rs:113, 150, 223: the states in which `i.next()` is called -/
def UState.asksI : UState → Bool
  | .init | .waitI | .onlyI => true
  | _ => false
/-- src/iter/union.rs:113, 187, 224: the states in which `j.next()` is called -/
def UState.asksJ : UState → Bool
  | .init | .waitJ | .onlyJ => true
  | _ => false
/-- src/iter/intersect.rs:112, 146: the states in which `i.next()` is called -/
def NState.asksI : NState → Bool
  | .init | .waitI => true
  | _ => false
/-- src/iter/intersect.rs:112, 179: the states in which `j.next()` is called -/
def NState.asksJ : NState → Bool
  | .init | .waitJ => true
  | _ => false

/-- The answer of an inner iterator in the current turn, as the list `UnionIter.step` and `InterIter.step` look at. -/
def answer (b : Option (Option Iv)) : List Iv := (b.getD none).toList

/-- src/iter/compl.rs:54-88: what `next` does with an answer of the inner iterator: return or ask again, the new `lower`,
and whether the `for` loop has been reached. When the inner iterator is exhausted at line 56, the loop asks it once more,
and `Fuse` answers `None` again. -/
def complTurn (lower : Int) (inFor : Bool) : Option Iv → Turn × Int × Bool
  | none =>
    if isFutureInfinite lower then (.ret none, lower, false)
    else (.ret (some ⟨lower, INF⟩), INF, false)
  | some x =>
    if !inFor && isPastInfinite lower then
      if justBefore x.lower == -INF then (.loop, justAfter x.upper, true)
      else (.ret (some ⟨-INF, justBefore x.lower⟩), justAfter x.upper, false)
    else if lower < x.lower then (.ret (some ⟨lower, justBefore x.lower⟩), justAfter x.upper, false)
    else (.loop, lower, true)

namespace Pipe

/-- One turn of the loops run by `next`: `loop` if `next` has not returned yet. src/iter/union.rs:108-228,
intersect.rs:107-214, compl.rs:52-89, transl.rs:36-39, scaling.rs:36-39, and the adaptors of the standard library. -/
def step (dbg : Bool) : Pipe → Res (Turn × Pipe)
  | .items [] => .ok (.ret none, .items [])
  | .items (x :: l) => .ok (.ret (some x), .items l)
  | .union i ei bi j ej bj st tmp =>
    if st.asksI && bi.isNone then
      if ei then .ok (.loop, .union i ei (some none) j ej bj st tmp)
      else do
        match ← i.step dbg with
        | (.loop, i) => return (.loop, .union i ei bi j ej bj st tmp)
        | (.ret o, i) => return (.loop, .union i o.isNone (some o) j ej bj st tmp)
    else if st.asksJ && bj.isNone then
      if ej then .ok (.loop, .union i ei bi j ej (some none) st tmp)
      else do
        match ← j.step dbg with
        | (.loop, j) => return (.loop, .union i ei bi j ej bj st tmp)
        | (.ret o, j) => return (.loop, .union i ei bi j o.isNone (some o) st tmp)
    else
      let r := UnionIter.step ⟨answer bi, answer bj, st, tmp⟩
      .ok (r.1, .union i ei none j ej none r.2.state r.2.tmp)
  | .inter i ei bi j ej bj st tmp =>
    if st.asksI && bi.isNone then
      if ei then .ok (.loop, .inter i ei (some none) j ej bj st tmp)
      else do
        match ← i.step dbg with
        | (.loop, i) => return (.loop, .inter i ei bi j ej bj st tmp)
        | (.ret o, i) => return (.loop, .inter i o.isNone (some o) j ej bj st tmp)
    else if st.asksJ && bj.isNone then
      if ej then .ok (.loop, .inter i ei bi j ej (some none) st tmp)
      else do
        match ← j.step dbg with
        | (.loop, j) => return (.loop, .inter i ei bi j ej bj st tmp)
        | (.ret o, j) => return (.loop, .inter i ei bi j o.isNone (some o) st tmp)
    else
      let r := InterIter.step ⟨answer bi, answer bj, st, tmp⟩
      .ok (r.1, .inter i ei none j ej none r.2.state r.2.tmp)
  | .compl a ea lower inFor =>
    if ea then
      let r := complTurn lower inFor none
      .ok (r.1, .compl a ea r.2.1 r.2.2)
    else do
      match ← a.step dbg with
      | (.loop, a) => return (.loop, .compl a ea lower inFor)
      | (.ret o, a) =>
        let r := complTurn lower inFor o
        return (r.1, .compl a o.isNone r.2.1 r.2.2)
  | .transl d a => do
    match ← a.step dbg with
    | (.loop, a) => return (.loop, .transl d a)
    | (.ret none, a) => return (.ret none, .transl d a)
    | (.ret (some tw), a) =>
      let x ← tw.addTv dbg d
      return (.ret (if x.isEmpty then none else some x), .transl d a)
  | .scale ty n a => do
    match ← a.step dbg with
    | (.loop, a) => return (.loop, .scale ty n a)
    | (.ret none, a) => return (.ret none, .scale ty n a)
    | (.ret (some tw), a) =>
      let x ← tw.mul ty n
      return (.ret (if x.isEmpty then none else some x), .scale ty n a)
  | .filter p a => do
    match ← a.step dbg with
    | (.loop, a) => return (.loop, .filter p a)
    | (.ret none, a) => return (.ret none, .filter p a)
    | (.ret (some x), a) => return (if p x then .ret (some x) else .loop, .filter p a)
  | .skipWhile p started a => do
    match ← a.step dbg with
    | (.loop, a) => return (.loop, .skipWhile p started a)
    | (.ret none, a) => return (.ret none, .skipWhile p started a)
    | (.ret (some x), a) =>
      if !started && p x then return (.loop, .skipWhile p false a)
      else return (.ret (some x), .skipWhile p true a)
  | .takeWhile p over a =>
    if over then .ok (.ret none, .takeWhile p over a)
    else do
      match ← a.step dbg with
      | (.loop, a) => return (.loop, .takeWhile p false a)
      | (.ret none, a) => return (.ret none, .takeWhile p false a)
      | (.ret (some x), a) =>
        if p x then return (.ret (some x), .takeWhile p false a) else return (.ret none, .takeWhile p true a)
  | .skip n a => do
    match ← a.step dbg with
    | (.loop, a) => return (.loop, .skip n a)
    | (.ret none, a) => return (.ret none, .skip 0 a)
    | (.ret (some x), a) =>
      match n with
      | 0 => return (.ret (some x), .skip 0 a)
      | n + 1 => return (.loop, .skip n a)
  | .take n a =>
    match n with
    | 0 => .ok (.ret none, .take 0 a)
    | n + 1 => do
      match ← a.step dbg with
      | (.loop, a) => return (.loop, .take (n + 1) a)
      | (.ret o, a) => return (.ret o, .take n a)
  | .stepBy k r a => do
    match ← a.step dbg with
    | (.loop, a) => return (.loop, .stepBy k r a)
    | (.ret none, a) => return (.ret none, .stepBy k k a)
    | (.ret (some x), a) =>
      match r with
      | 0 => return (.ret (some x), .stepBy k k a)
      | r + 1 => return (.loop, .stepBy k r a)
  | .same a => do
    match ← a.step dbg with
    | (t, a) => return (t, .same a)

/-- `Fuse::size_hint`: nothing is announced once the inner iterator has returned `None`. Simplified: for an inner iterator marked
`FusedIterator` the standard library may keep the inner iterator, and go on calling it; it returns `None` again (C146), and announces what it
announces, which is at least what is announced here. -/
def fuseHint (e : Bool) (h : Nat × Option Nat) : Nat × Option Nat := if e then (0, some 0) else h

/-- src/iter/union.rs:237-242, intersect.rs:221-226: the sum of the upper bounds, if both are known. `saturating_add` is not
modelled: the bounds are counts of intervals held in memory. -/
def sumHint : Option Nat → Option Nat → Option Nat
  | some a, some b => some (a + b)
  | _, _ => none

/-- `size_hint` of a pipeline between two calls of `next`: src/iter/union.rs:230-245, intersect.rs:216-229, compl.rs:91-99 (the `+ 1`
of which cannot overflow, as above), src/iter/mod.rs:164-165, and the adaptors of the standard library; the translation and scaling
iterators have the default `(0, None)`. -/
def sizeHint : Pipe → Nat × Option Nat
  | .items l => (l.length, some l.length)
  | .union i ei _ j ej _ st _ =>
    match st with
    | .onlyI => fuseHint ei i.sizeHint
    | .onlyJ => fuseHint ej j.sizeHint
    | .done => (0, some 0)
    | _ => (0, sumHint (fuseHint ei i.sizeHint).2 (fuseHint ej j.sizeHint).2)
  | .inter i ei _ j ej _ st _ =>
    match st with
    | .done => (0, some 0)
    | _ => (0, sumHint (fuseHint ei i.sizeHint).2 (fuseHint ej j.sizeHint).2)
  | .compl a ea lower _ =>
    let h := fuseHint ea a.sizeHint
    if isFinite lower then (h.1 - 1, h.2) else (h.1 - 1, h.2.map (· + 1))
  | .transl _ _ => (0, none)
  | .scale _ _ _ => (0, none)
  | .filter _ a => (0, a.sizeHint.2)
  | .skipWhile _ _ a => (0, a.sizeHint.2)
  | .takeWhile _ over a => if over then (0, some 0) else (0, a.sizeHint.2)
  | .skip n a => (a.sizeHint.1 - n, a.sizeHint.2.map (· - n))
  | .take n a =>
    if n == 0 then (0, some 0)
    else (min a.sizeHint.1 n, match a.sizeHint.2 with | some m => some (min m n) | none => some n)
  | .stepBy k r a =>
    if r == 0 then
      let f := fun n => if n == 0 then 0 else 1 + (n - 1) / (k + 1)
      (f a.sizeHint.1, a.sizeHint.2.map f)
    else (a.sizeHint.1 / (k + 1), a.sizeHint.2.map (· / (k + 1)))
  | .same a => a.sizeHint

/-- A call of `next` on the pipeline in state `p`: turns until one returns (`ok`: the item and the state left) or panics
(`error`). -/
inductive Next (dbg : Bool) : Pipe → Res (Option Iv × Pipe) → Prop where
  | ret {p p' : Pipe} {o : Option Iv} (h : p.step dbg = .ok (.ret o, p')) : Next dbg p (.ok (o, p'))
  | loop {p p' : Pipe} {r : Res (Option Iv × Pipe)} (h : p.step dbg = .ok (.loop, p')) (hn : Next dbg p' r) : Next dbg p r
  | panic {p : Pipe} {e : Panic} (h : p.step dbg = .error e) : Next dbg p (.error e)

end Pipe

/-- The pipeline built by the calls of `union`, `intersection`, .., before any call of `next`: src/iter/union.rs:95-97,
intersect.rs:94-96, compl.rs:33-38, excl.rs:20-22, transl.rs:21-23, scaling.rs:20-22. `step_by(0)` panics. -/
def Chain.start : Chain → Res Pipe
  | .set s => .ok (.items s)
  | .win w => .ok (.items w.iter)
  | .into w => .ok (.items (Convex.iv ⟨w.lower, w.upper⟩).iter)
  | .union a b => do return .union (← a.start) false none (← b.start) false none .init Iv.all
  | .inter a b => do return .inter (← a.start) false none (← b.start) false none .init Iv.all
  | .compl a => do return .compl (← a.start) false (-INF) false
  | .excl a b => do return .inter (← a.start) false none (.compl (← b.start) false (-INF) false) false none .init Iv.all
  | .transl d a => do return .transl d (← a.start)
  | .scale ty n a => do return .scale ty n (← a.start)
  | .filter p a => do return .filter p (← a.start)
  | .skipWhile p a => do return .skipWhile p false (← a.start)
  | .takeWhile p a => do return .takeWhile p false (← a.start)
  | .skip n a => do return .skip n (← a.start)
  | .take n a => do return .take n (← a.start)
  | .stepBy n a => do
    match n with
    | 0 => .error .assertFail
    | n + 1 => return .stepBy n 0 (← a.start)
  | .same a => do return .same (← a.start)

end Chrono
