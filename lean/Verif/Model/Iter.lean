import Verif.Model.Interval

/-!
# The lazy iterators over sorted intervals (src/iter/{union,intersect,compl}.rs)

The inner iterators `Fuse<I>`, `Fuse<J>` are represented by the list of the items they will still
produce: `next` pops the head, and keeps returning `None` on the empty list, as `Fuse` guarantees.
Each iterator is the same state machine as in the source: `step` is one turn of its `loop`, `next`
iterates `step` until a `return`, `drain` is the sequence of items up to the first `None`.
-/

namespace Chrono

/-- Outcome of one turn of a `loop { match self.state { .. } }`: `return o` or go on looping. -/
inductive Turn where
  | ret (o : Option Iv)
  | loop
  deriving DecidableEq, Repr

/-! ## Union -/

/-- src/iter/union.rs:72-79 `UnionState` -/
inductive UState where | init | waitI | waitJ | onlyI | onlyJ | done
  deriving DecidableEq, Repr

/-- src/iter/union.rs:82-88 `IterUnion` -/
structure UnionIter where
  i : List Iv
  j : List Iv
  state : UState
  tmp : Iv
  deriving DecidableEq, Repr

namespace UnionIter

/-- src/iter/union.rs:95-97 `IterUnion::new` -/
def new (i j : List Iv) : UnionIter := ⟨i, j, .init, Iv.all⟩

/-- src/iter/union.rs:111-226: one turn of the loop of `next`. -/
def step (s : UnionIter) : Turn × UnionIter :=
  match s.state with
  | .init =>                                                        -- 112-148
    match s.i, s.j with
    | [], [] => (.ret none, { s with state := .done })
    | i :: is, [] => (.ret (some i), { s with i := is, state := .onlyI })
    | [], j :: js => (.ret (some j), { s with j := js, state := .onlyJ })
    | i :: is, j :: js =>
      if i.upper < justBefore j.lower then
        (.ret (some i), ⟨is, js, .waitI, j⟩)
      else if j.upper < justBefore i.lower then
        (.ret (some j), ⟨is, js, .waitJ, i⟩)
      else if i.upper ≤ j.upper then
        (.loop, ⟨is, js, .waitI, ⟨min i.lower j.lower, j.upper⟩⟩)
      else
        (.loop, ⟨is, js, .waitJ, ⟨min i.lower j.lower, i.upper⟩⟩)
  | .waitI =>                                                       -- 149-185
    match s.i with
    | [] => (.ret (some s.tmp), { s with state := .onlyJ })
    | i :: is =>
      if i.upper < justBefore s.tmp.lower then
        (.ret (some i), { s with i := is })
      else if s.tmp.upper < justBefore i.lower then
        (.ret (some s.tmp), ⟨is, s.j, .waitJ, i⟩)
      else if i.upper ≤ s.tmp.upper then
        (.loop, ⟨is, s.j, .waitI,
          ⟨if s.tmp.lower > i.lower then i.lower else s.tmp.lower, s.tmp.upper⟩⟩)
      else
        (.loop, ⟨is, s.j, .waitJ,
          ⟨if s.tmp.lower > i.lower then i.lower else s.tmp.lower, i.upper⟩⟩)
  | .waitJ =>                                                       -- 186-222
    match s.j with
    | [] => (.ret (some s.tmp), { s with state := .onlyJ })
    | j :: js =>
      if j.upper < justBefore s.tmp.lower then
        (.ret (some j), { s with j := js })
      else if s.tmp.upper < justBefore j.lower then
        (.ret (some s.tmp), ⟨s.i, js, .waitI, j⟩)
      else if j.upper ≤ s.tmp.upper then
        (.loop, ⟨s.i, js, .waitJ,
          ⟨if s.tmp.lower > j.lower then j.lower else s.tmp.lower, s.tmp.upper⟩⟩)
      else
        (.loop, ⟨s.i, js, .waitI,
          ⟨if s.tmp.lower > j.lower then j.lower else s.tmp.lower, j.upper⟩⟩)
  | .onlyI =>                                                       -- 223
    match s.i with
    | [] => (.ret none, s)
    | i :: is => (.ret (some i), { s with i := is })
  | .onlyJ =>                                                       -- 224
    match s.j with
    | [] => (.ret none, s)
    | j :: js => (.ret (some j), { s with j := js })
  | .done => (.ret none, s)                                         -- 225

/-- Proof-only measure: items still held, counting the pending `tmp`. -/
def size (s : UnionIter) : Nat :=
  s.i.length + s.j.length + (match s.state with | .waitI | .waitJ => 1 | _ => 0)

theorem step_loop_size {s s' : UnionIter} (h : s.step = (.loop, s')) : s'.size < s.size := by
  rcases s with ⟨i, j, st, tmp⟩
  cases st <;> cases i <;> cases j <;> simp only [step] at h <;>
    (repeat' split at h) <;> simp_all <;> (try (rw [← h])) <;> simp [size] <;> omega

theorem step_some_size {s s' : UnionIter} {x : Iv} (h : s.step = (.ret (some x), s')) :
    s'.size < s.size := by
  rcases s with ⟨i, j, st, tmp⟩
  cases st <;> cases i <;> cases j <;> simp only [step] at h <;>
    (repeat' split at h) <;> simp_all <;> (try (obtain ⟨_, h⟩ := h; rw [← h])) <;> simp [size]
    <;> omega

/-- src/iter/union.rs:108-228 `next`: the returned item and the iterator afterwards. -/
def next (s : UnionIter) : Option Iv × UnionIter :=
  match _h : s.step with
  | (.ret o, s') => (o, s')
  | (.loop, s') => next s'
termination_by s.size
decreasing_by exact step_loop_size _h

theorem next_some_size {s s' : UnionIter} {x : Iv} (h : s.next = (some x, s')) :
    s'.size < s.size := by
  fun_induction next s with
  | case1 s o s1 hs => cases h; exact step_some_size hs
  | case2 s s1 hs ih => exact Nat.lt_trans (ih h) (step_loop_size hs)

/-- The items produced by repeated calls of `next` until it returns `None` (what `for`, `collect`
or `fold` see). -/
def drain (s : UnionIter) : List Iv :=
  match _h : s.next with
  | (none, _) => []
  | (some x, s') => x :: drain s'
termination_by s.size
decreasing_by exact next_some_size _h

/-- src/iter/union.rs:230-245 `size_hint`, over inner iterators whose own hint is exact
(vector iterators); `saturating_add` cannot saturate on vector lengths. -/
def sizeHint (s : UnionIter) : Nat × Option Nat :=
  match s.state with
  | .onlyI => (s.i.length, some s.i.length)
  | .onlyJ => (s.j.length, some s.j.length)
  | .done => (0, some 0)
  | _ => (0, some (s.i.length + s.j.length))

end UnionIter

/-! ## Intersection -/

/-- src/iter/intersect.rs:73-78 `InterState` -/
inductive NState where | init | waitI | waitJ | done
  deriving DecidableEq, Repr

/-- src/iter/intersect.rs:81-87 `IterIntersection` -/
structure InterIter where
  i : List Iv
  j : List Iv
  state : NState
  tmp : Iv
  deriving DecidableEq, Repr

namespace InterIter

/-- src/iter/intersect.rs:94-96 `IterIntersection::new` -/
def new (i j : List Iv) : InterIter := ⟨i, j, .init, Iv.all⟩

/-- src/iter/intersect.rs:110-212: one turn of the loop of `next`. In the `Init` case both inner
iterators are advanced before matching (line 112), so an item of `j` is consumed even if `i` is
exhausted. -/
def step (s : InterIter) : Turn × InterIter :=
  match s.state with
  | .init =>                                                        -- 111-144
    match s.i, s.j with
    | [], j => (.ret none, ⟨[], j.tail, .done, s.tmp⟩)
    | i, [] => (.ret none, ⟨i.tail, [], .done, s.tmp⟩)
    | i :: is, j :: js =>
      if i.upper < justBefore j.lower then
        (.loop, ⟨is, js, .waitI, j⟩)
      else if j.upper < justBefore i.lower then
        (.loop, ⟨is, js, .waitJ, i⟩)
      else if i.upper ≤ j.upper then
        (.ret (some ⟨if j.lower > i.lower then j.lower else i.lower, i.upper⟩), ⟨is, js, .waitI, j⟩)
      else
        (.ret (some ⟨if i.lower > j.lower then i.lower else j.lower, j.upper⟩), ⟨is, js, .waitJ, i⟩)
  | .waitI =>                                                       -- 145-177
    match s.i with
    | [] => (.ret none, { s with state := .done })
    | i :: is =>
      if i.upper < justBefore s.tmp.lower then
        (.loop, { s with i := is })
      else if s.tmp.upper < justBefore i.lower then
        (.loop, ⟨is, s.j, .waitJ, i⟩)
      else if i.upper ≤ s.tmp.upper then
        (.ret (some ⟨if s.tmp.lower > i.lower then s.tmp.lower else i.lower, i.upper⟩),
          { s with i := is })
      else
        (.ret (some ⟨if s.tmp.lower < i.lower then i.lower else s.tmp.lower, s.tmp.upper⟩),
          ⟨is, s.j, .waitJ, i⟩)
  | .waitJ =>                                                       -- 178-210
    match s.j with
    | [] => (.ret none, { s with state := .done })
    | j :: js =>
      if j.upper < justBefore s.tmp.lower then
        (.loop, { s with j := js })
      else if s.tmp.upper < justBefore j.lower then
        (.loop, ⟨s.i, js, .waitI, j⟩)
      else if j.upper ≤ s.tmp.upper then
        (.ret (some ⟨if s.tmp.lower > j.lower then s.tmp.lower else j.lower, j.upper⟩),
          { s with j := js })
      else
        (.ret (some ⟨if s.tmp.lower < j.lower then j.lower else s.tmp.lower, s.tmp.upper⟩),
          ⟨s.i, js, .waitI, j⟩)
  | .done => (.ret none, s)                                         -- 211

/-- Proof-only measure: items still held by the two inner iterators. -/
def size (s : InterIter) : Nat := s.i.length + s.j.length

theorem step_loop_size {s s' : InterIter} (h : s.step = (.loop, s')) : s'.size < s.size := by
  rcases s with ⟨i, j, st, tmp⟩
  cases st <;> cases i <;> cases j <;> simp only [step] at h <;>
    (repeat' split at h) <;> simp_all <;> (try (rw [← h])) <;> simp [size] <;> omega

theorem step_some_size {s s' : InterIter} {x : Iv} (h : s.step = (.ret (some x), s')) :
    s'.size < s.size := by
  rcases s with ⟨i, j, st, tmp⟩
  cases st <;> cases i <;> cases j <;> simp only [step] at h <;>
    (repeat' split at h) <;> simp_all <;> (try (obtain ⟨_, h⟩ := h; rw [← h])) <;> simp [size]
    <;> omega

/-- src/iter/intersect.rs:107-214 `next` -/
def next (s : InterIter) : Option Iv × InterIter :=
  match _h : s.step with
  | (.ret o, s') => (o, s')
  | (.loop, s') => next s'
termination_by s.size
decreasing_by exact step_loop_size _h

theorem next_some_size {s s' : InterIter} {x : Iv} (h : s.next = (some x, s')) :
    s'.size < s.size := by
  fun_induction next s with
  | case1 s o s1 hs => cases h; exact step_some_size hs
  | case2 s s1 hs ih => exact Nat.lt_trans (ih h) (step_loop_size hs)

/-- The items produced by repeated calls of `next` until it returns `None`. -/
def drain (s : InterIter) : List Iv :=
  match _h : s.next with
  | (none, _) => []
  | (some x, s') => x :: drain s'
termination_by s.size
decreasing_by exact next_some_size _h

/-- src/iter/intersect.rs:216-229 `size_hint`, over inner iterators with an exact hint. -/
def sizeHint (s : InterIter) : Nat × Option Nat :=
  match s.state with
  | .done => (0, some 0)
  | _ => (0, some (s.i.length + s.j.length))

end InterIter

/-! ## Complementary -/

/-- src/iter/compl.rs:25-29 `IterComplementary` -/
structure ComplIter where
  iter : List Iv
  lower : Int
  deriving DecidableEq, Repr

namespace ComplIter

/-- src/iter/compl.rs:33-38 `new` -/
def new (l : List Iv) : ComplIter := ⟨l, -INF⟩

/-- src/iter/compl.rs:68-88: the `for next in self.iter.by_ref()` loop and what follows it. -/
def scan (lower : Int) : List Iv → Option Iv × ComplIter
  | [] =>
    if isFutureInfinite lower then (none, ⟨[], lower⟩)
    else (some ⟨lower, INF⟩, ⟨[], INF⟩)
  | x :: xs =>
    if lower < x.lower then (some ⟨lower, justBefore x.lower⟩, ⟨xs, justAfter x.upper⟩)
    else scan lower xs

/-- src/iter/compl.rs:52-89 `next` -/
def next (s : ComplIter) : Option Iv × ComplIter :=
  if isPastInfinite s.lower then
    match s.iter with
    | [] => scan s.lower []
    | x :: xs =>
      let upper := justBefore x.lower
      let lower := justAfter x.upper
      if upper == -INF then scan lower xs
      else (some ⟨-INF, upper⟩, ⟨xs, lower⟩)
  else scan s.lower s.iter

/-- Proof-only measure -/
def size (s : ComplIter) : Nat := 2 * s.iter.length + (if isFutureInfinite s.lower then 0 else 1)

theorem scan_some_size {l : Int} {xs : List Iv} {x : Iv} {s' : ComplIter}
    (h : scan l xs = (some x, s')) :
    s'.size < 2 * xs.length + (if isFutureInfinite l then 0 else 1) := by
  induction xs with
  | nil =>
    simp only [scan] at h
    split at h
    · cases h
    · rename_i h1
      cases h; rw [if_neg h1]; simp [size, isFutureInfinite]
  | cons y ys ih =>
    simp only [scan] at h
    split at h
    · cases h; simp only [size, List.length_cons]; split <;> omega
    · have := ih h; simp only [List.length_cons]; omega

theorem next_some_size {s s' : ComplIter} {x : Iv} (h : s.next = (some x, s')) :
    s'.size < s.size := by
  rcases s with ⟨it, lo⟩
  simp only [next] at h
  split at h
  · cases it with
    | nil => exact scan_some_size h
    | cons y ys =>
      simp only at h
      split at h
      · have := scan_some_size h
        have h2 : (if isFutureInfinite (justAfter y.upper) then 0 else 1 : Nat) ≤ 1 := by
          split <;> omega
        show s'.size < 2 * (ys.length + 1) + _
        omega
      · cases h; simp only [size, List.length_cons]; split <;> omega
  · exact scan_some_size h

/-- The items produced by repeated calls of `next` until it returns `None`. -/
def drain (s : ComplIter) : List Iv :=
  match _h : s.next with
  | (none, _) => []
  | (some x, s') => x :: drain s'
termination_by s.size
decreasing_by exact next_some_size _h

/-- src/iter/compl.rs:91-99 `size_hint`, over an inner iterator with an exact hint. -/
def sizeHint (s : ComplIter) : Nat × Option Nat :=
  if isFinite s.lower then (s.iter.length - 1, some s.iter.length)
  else (s.iter.length - 1, some (s.iter.length + 1))

end ComplIter

end Chrono
