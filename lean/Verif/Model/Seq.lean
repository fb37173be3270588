import Verif.Model.TimeValue

/-!
# Time sequences (src/seq/{mod,forward,backward}.rs)

`usize` is 64 bits wide.
-/

namespace Chrono

/-- src/seq/mod.rs:8-11 `TimeSeqForward`: `t` is the last emitted date -/
structure FSeq where
  t : Int
  step : Int
  deriving DecidableEq, Repr

/-- src/seq/mod.rs:14-17 `TimeSeqBackward` -/
structure BSeq where
  t : Int
  step : Int
  deriving DecidableEq, Repr

/-- Division of `usize` values -/
def divU64 (a b : Int) : Res Int := if b = 0 then .error .divZero else .ok (a / b)

namespace FSeq

/-- src/seq/forward.rs:13-19 `new` -/
def new (t delta : Int) : Res FSeq := do
  if isStrictlyPositive delta then
    let t' ← tsSubDur t delta
    if isFinite t' then return ⟨t', delta⟩ else .error .assertFail
  else .error .assertFail

/-- src/seq/forward.rs:22-25 `reverse` -/
def reverse (s : FSeq) : BSeq := ⟨s.t, s.step⟩
/-- src/seq/forward.rs:28 `increment` -/
def increment (s : FSeq) : Int := tvNeg s.step
/-- src/seq/forward.rs:31 `period` -/
def period (s : FSeq) : Int := s.step

/-- src/seq/forward.rs:33-40 `len` -/
def len (s : FSeq) : Res Int := do
  if isPositive s.t then
    let d ← chk64 (I64_MAX - s.t)
    divU64 (asU64 d) (asU64 s.step)
  else
    let d ← chk64 (-s.t)
    let q ← divU64 (asU64 d) (asU64 s.step)
    chkU64 (asU64 I64_MAX + q)

/-- src/seq/forward.rs:51-55 `next` -/
def next (s : FSeq) : Res (Option Int × FSeq) := do
  let t ← tsAdd s.t s.step
  return (if isFutureInfinite t then none else some t, { s with t })

/-- src/seq/forward.rs:58-62 `size_hint` -/
def sizeHint (s : FSeq) : Res (Int × Int) := do let n ← s.len; return (n, n)
/-- src/seq/forward.rs:65-67 `count` -/
def count (s : FSeq) : Res Int := s.len

/-- src/seq/forward.rs:69-73 `last`; `then_some` evaluates its argument eagerly -/
def last (s : FSeq) : Res (Option Int) := do
  let n ← s.len
  let x ← tsAdd s.t (mulUBig s.step n.toNat)
  return if n > 0 then some x else none

/-- src/seq/forward.rs:76-85 `nth` -/
def nth (s : FSeq) (n : Nat) : Res (Option Int × FSeq) := do
  let l ← s.len
  if l < n then return (none, { s with t := INF })
  else
    let t ← tsAdd s.t (mulUBig s.step n)
    return (some t, { s with t })

end FSeq

namespace BSeq

/-- src/seq/backward.rs:13-19 `new` -/
def new (t delta : Int) : Res BSeq := do
  if isStrictlyPositive delta then
    let t' ← tsSubDur t delta
    if isFinite t' then return ⟨t', delta⟩ else .error .assertFail
  else .error .assertFail

/-- src/seq/backward.rs:22-24 `reverse` -/
def reverse (s : BSeq) : FSeq := ⟨s.t, s.step⟩
/-- src/seq/backward.rs:27 `increment` -/
def increment (s : BSeq) : Int := tvNeg s.step
/-- src/seq/backward.rs:30 `period` -/
def period (s : BSeq) : Int := s.step

/-- src/seq/backward.rs:32-39 `len` -/
def len (s : BSeq) : Res Int := do
  if isStrictlyNegative s.t then
    let d ← chk64 (s.t - I64_MIN)
    divU64 (asU64 d) (asU64 s.step)
  else
    let a ← chkU64 (asU64 s.t + asU64 I64_MAX)
    let q ← divU64 1 (asU64 s.step)
    chkU64 (a + q)

/-- src/seq/backward.rs:50-54 `next` -/
def next (s : BSeq) : Res (Option Int × BSeq) := do
  let t ← tsSubDur s.t s.step
  return (if isPastInfinite t then none else some t, { s with t })

/-- src/seq/backward.rs:57-61 `size_hint` -/
def sizeHint (s : BSeq) : Res (Int × Int) := do let n ← s.len; return (n, n)
/-- src/seq/backward.rs:64-66 `count` -/
def count (s : BSeq) : Res Int := s.len

/-- src/seq/backward.rs:68-72 `last` -/
def last (s : BSeq) : Res (Option Int) := do
  let n ← s.len
  let x ← tsSubDur s.t (mulUBig s.step n.toNat)
  return if n > 0 then some x else none

/-- src/seq/backward.rs:75-84 `nth` -/
def nth (s : BSeq) (n : Nat) : Res (Option Int × BSeq) := do
  let l ← s.len
  if l < n then return (none, { s with t := -INF })
  else
    let t ← tsSubDur s.t (mulUBig s.step n)
    return (some t, { s with t })

end BSeq

/-- src/seq/mod.rs:30-32 `forward_sequence` -/
def forwardSequence (t p : Int) : Res FSeq := FSeq.new t p
/-- src/seq/mod.rs:34-36 `forward_periods` -/
def forwardPeriods (t p : Int) : Res FSeq := do FSeq.new (← ceilTo t p) p
/-- src/seq/mod.rs:38-40 `backward_sequence` -/
def backwardSequence (t p : Int) : Res BSeq := BSeq.new t p
/-- src/seq/mod.rs:42-44 `backward_periods` -/
def backwardPeriods (t p : Int) : Res BSeq := do BSeq.new (← ceilTo t p) p

/-! ## Adaptors of the standard library on a sequence

`Skip` and `StepBy` are implemented with `nth`, which the sequences override (src/seq/forward.rs:76-85, src/seq/backward.rs:75-84). -/

/-- `sequence.skip(n)` -/
structure FSkip where
  s : FSeq
  n : Nat

/-- core `Skip::next` over src/seq/forward.rs:51-55 and 76-85: `nth(n)` the first time if `n > 0`, then `next` -/
def FSkip.next (a : FSkip) : Res (Option Int × FSkip) := do
  let r ← if a.n > 0 then a.s.nth a.n else a.s.next
  return (r.1, ⟨r.2, 0⟩)

/-- `sequence.step_by(k + 1)` -/
structure FStepBy where
  s : FSeq
  k : Nat
  first : Bool

/-- core `StepBy::next` over src/seq/forward.rs:51-55 and 76-85: `nth(0)` the first time (`next()` in the older versions of the library, `old`),
then `nth(k)` -/
def FStepBy.next (old : Bool) (a : FStepBy) : Res (Option Int × FStepBy) := do
  let r ← if a.first then (if old then a.s.next else a.s.nth 0) else a.s.nth a.k
  return (r.1, ⟨r.2, a.k, false⟩)

/-- `sequence.skip(n)` -/
structure BSkip where
  s : BSeq
  n : Nat

/-- core `Skip::next` over src/seq/backward.rs:50-54 and 75-84 -/
def BSkip.next (a : BSkip) : Res (Option Int × BSkip) := do
  let r ← if a.n > 0 then a.s.nth a.n else a.s.next
  return (r.1, ⟨r.2, 0⟩)

/-- `sequence.step_by(k + 1)` -/
structure BStepBy where
  s : BSeq
  k : Nat
  first : Bool

/-- core `StepBy::next` over src/seq/backward.rs:50-54 and 75-84 -/
def BStepBy.next (old : Bool) (a : BStepBy) : Res (Option Int × BStepBy) := do
  let r ← if a.first then (if old then a.s.next else a.s.nth 0) else a.s.nth a.k
  return (r.1, ⟨r.2, a.k, false⟩)

end Chrono
