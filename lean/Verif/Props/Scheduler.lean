import Verif.Lemmas.SchedLoose
import Verif.Props.Graph
import Verif.Props.GraphIter

/-!
# C75-C77, C80: one call of the scheduler, and histories of calls
-/

set_option linter.unusedSimpArgs false

namespace Chrono
open Spec

/-- an accepted window which changes something is reported as propagated -/
theorem retain_third {dbg : Bool} {s s' : Sched} {i : Nat} {w : Window} {o : Outcome}
    (h : s.retain dbg i w = .ok (s', o)) : ((o = .unchanged ∨ o = .recovered) ∧ s' = s) ∨ o = .propagated := by
  unfold Sched.retain at h
  split at h
  · obtain ⟨a, -, h⟩ := bind_ok h
    split at h
    · cases h; exact Or.inl ⟨Or.inl rfl, rfl⟩
    · split at h
      · cases h; exact Or.inl ⟨Or.inr rfl, rfl⟩
      · obtain ⟨b, -, h⟩ := bind_ok h
        obtain ⟨c, -, h⟩ := bind_ok h
        obtain ⟨d, -, h⟩ := bind_ok h
        cases h
        exact Or.inr rfl
  · cases h

/-- C75: whatever the schedule and the window, a call which does not report `Ok(Propagated)` has changed nothing; it
never reports a fatal inconsistency. -/
theorem C75_untouched (dbg : Bool) (s s' : Sched) (c : Call) (o : Outcome) (h : c.run dbg s = .ok (s', o)) :
    o ≠ .fatal ∧ (o ≠ .propagated → s' = s) := by
  have : ((o = .unchanged ∨ o = .recovered) ∧ s' = s) ∨ o = .propagated := by
    cases c with
    | retain i w => exact retain_third h
    | remove i w => exact retain_third h
  rcases this with ⟨h1 | h1, h2⟩ | h1
  · exact ⟨by rw [h1]; decide, fun _ => h2⟩
  · exact ⟨by rw [h1]; decide, fun _ => h2⟩
  · exact ⟨by rw [h1]; decide, fun h => absurd h1 h⟩

/-- C75: a call about an unknown instant panics. -/
theorem C75_unknown (dbg : Bool) (s : Sched) (c : Call) (h : s.schedule.length ≤ c.instant) :
    c.run dbg s = .error .assertFail := by
  cases c with
  | retain i w =>
    show s.retain dbg i w = _
    unfold Sched.retain
    exact if_neg (Nat.not_lt.2 h)
  | remove i w =>
    show s.retain dbg i _ = _
    unfold Sched.retain
    exact if_neg (Nat.not_lt.2 h)

/-- C75: `retain` returns `Ok(Unchanged)` iff the window contains all the current dates of the instant. -/
theorem C75_unchanged (dbg : Bool) {s : Sched} (hc : CanonSched s) {i : Nat} (hi : i < s.graph.size) {w : Window}
    (hw : ProperWindow w) :
    (∃ s', s.retain dbg i w = .ok (s', .unchanged)) ↔ ∀ t, Slot s i t → InExtWindow t w := by
  obtain ⟨si, e, ci, -⟩ := sched_get hc hi
  have hs : (∀ t, Slot s i t → InExtWindow t w) ↔ w.containsSet si = true := by
    rw [contains_ext hw ci]
    exact ⟨fun h t ht => h t ((slot_get e t).2 ht), fun h t ht => h t ((slot_get e t).1 ht)⟩
  rw [hs]
  constructor
  · rintro ⟨s', h⟩
    by_cases c : w.containsSet si = true
    · exact c
    · rw [retain_test dbg e, if_neg c] at h
      split at h
      · cases h
      · obtain ⟨b, -, h⟩ := bind_ok h
        obtain ⟨d, -, h⟩ := bind_ok h
        cases h
  · intro h
    exact ⟨s, by rw [retain_test dbg e, if_pos h]⟩

/-- C75: `retain` returns `Err(Recovered)` iff the instant has dates and none of them is in the window. Missing: an
empty interval or range on an unconstrained instant (see `C75_violated`). -/
theorem C75_recovered_partial (dbg : Bool) {s : Sched} (hc : CanonSched s) {i : Nat} (hi : i < s.graph.size) {w : Window}
    (hw : ProperWindow w) (hne : ∀ v, w = .conv v → (∃ t, InExtConvex t v) ∨ s.scheduling i ≠ some TSet.all) :
    (∃ s', s.retain dbg i w = .ok (s', .recovered)) ↔ (∃ t, Slot s i t) ∧ ¬ ∃ t, Slot s i t ∧ InExtWindow t w := by
  obtain ⟨si, e, ci, -⟩ := sched_get hc hi
  have hs := contains_ext hw ci
  have ho := overlaps_ext hw ci (fun v hv => (hne v hv).imp id (fun h e' => h (by
    show s.schedule[i]? = _
    rw [e, e'])))
  have conv : (∃ t, Slot s i t ∧ InExtWindow t w) ↔ ∃ t, InExtSet t si ∧ InExtWindow t w := by
    constructor
    · rintro ⟨t, h1, h2⟩; exact ⟨t, (slot_get e t).1 h1, h2⟩
    · rintro ⟨t, h1, h2⟩; exact ⟨t, (slot_get e t).2 h1, h2⟩
  rw [conv, ← ho]
  constructor
  · rintro ⟨s', h⟩
    rw [retain_test dbg e] at h
    split at h
    · cases h
    · rename_i c
      split at h
      · rename_i c'
        refine ⟨?_, by simpa using c'⟩
        rw [hs] at c
        apply Classical.byContradiction
        intro hno
        exact c (fun t ht => absurd ⟨t, (slot_get e t).2 ht⟩ hno)
      · obtain ⟨b, -, h⟩ := bind_ok h
        obtain ⟨d, -, h⟩ := bind_ok h
        cases h
  · rintro ⟨⟨t, ht⟩, h⟩
    refine ⟨s, ?_⟩
    rw [retain_test dbg e, if_neg, if_pos (by simpa using h)]
    intro hcont
    exact h (ho.2 ⟨t, (slot_get e t).1 ht, hs.1 hcont t ((slot_get e t).1 ht)⟩)

/-- C75: the same for `remove`: `Ok(Unchanged)` iff no current date is removed, `Err(Recovered)` iff there are dates and
they would all be. -/
theorem C75_remove (dbg : Bool) {s : Sched} (hc : CanonSched s) {i : Nat} (hi : i < s.graph.size) {w : Negatable}
    (hw : ProperNeg w) {W : Int} (hW : WithinNeg W w) (hW' : W + 1 < INF) :
    ((∃ s', s.remove dbg i w = .ok (s', .unchanged)) ↔ ∀ t, Slot s i t → ¬ InExtNeg t w) ∧
    ((∃ s', s.remove dbg i w = .ok (s', .recovered)) ↔ (∃ t, Slot s i t) ∧ ∀ t, Slot s i t → InExtNeg t w) := by
  obtain ⟨k1, k2, k3⟩ := neg_spec hw hW hW'
  have e : ∀ t, InExtWindow t (.set w.not) ↔ ¬ InExtNeg t w := k3
  constructor
  · have := C75_unchanged dbg hc hi (w := .set w.not) k1
    simp only [e] at this
    exact this
  · have := C75_recovered_partial dbg hc hi (w := .set w.not) k1 (fun v hv => by cases hv)
    simp only [e] at this
    refine this.trans (and_congr_right (fun _ => ?_))
    constructor
    · intro h t ht
      exact Classical.byContradiction (fun hn => h ⟨t, ht, hn⟩)
    · rintro h ⟨t, ht, hn⟩
      exact hn (h t ht)

/-- from an instant without date, a propagation goes through and gives it no date -/
theorem propagate_none (dbg : Bool) {i : Nat} : ∀ (ks : List Constr) (sch : List TSet), sch[i]? = some [] →
    (∀ k ∈ ks, k.dst < sch.length) → ∃ sch', ks.foldlM (Sched.propagateOne dbg i) sch = .ok sch' ∧ sch'[i]? = some [] ∧
      sch'.length = sch.length := by
  intro ks
  induction ks with
  | nil => intro sch h _; exact ⟨sch, rfl, h, rfl⟩
  | cons k ks ih =>
    intro sch h hk
    have hd := hk k (by simp)
    have hj : sch[k.dst]? = some sch[k.dst] := List.getElem?_eq_getElem hd
    have hone : Sched.propagateOne dbg i sch k = .ok (sch.set k.dst []) := by
      have ha : TSet.addSpan dbg [] k.span = .ok [] := rfl
      have hn : TSet.inter sch[k.dst] [] = .ok [] := by
        simp only [TSet.inter]
        cases sch[k.dst] <;> (rw [InterIter.drain_eq]; rfl)
      simp only [Sched.propagateOne, sget, hj, h, ok_bind, ha, hn, sset, if_pos hd]
    obtain ⟨sch', e1, e2, e3⟩ := ih (sch.set k.dst []) (by
      rw [List.getElem?_set]
      split
      · first | rfl | rw [if_pos hd]
      · exact h) (by intro k' hk'; rw [List.length_set]; exact hk k' (by simp [hk']))
    exact ⟨sch', by rw [List.foldlM_cons, hone, ok_bind, e1], e2, by rw [e3, List.length_set]⟩

/-- C75 and C77 fail for every empty interval or range, on every instant which has not been constrained yet: although no date of the
instant is in it, it is accepted, `Ok(Propagated)`; the instant has lost all its dates and the schedule has no solution left. -/
theorem C75_violated (dbg : Bool) {s : Sched} (hv : Valid s.graph) (hl : s.schedule.length = s.graph.size) {i : Nat}
    (hi : i < s.graph.size) (ha : s.scheduling i = some TSet.all) {w : Convex} (hp : Proper w) (he : ∀ t, ¬ InExtConvex t w) :
    ∃ s', s.retain dbg i (.conv w) = .ok (s', .propagated) ∧ s'.graph = s.graph ∧ (∀ t, ¬ Slot s' i t) ∧ ¬ ∃ τ, Feasible τ s' := by
  have hb : w.lower = INF ∧ w.upper = -INF := by
    cases w with
    | iv j =>
      rcases hp with hp | hp
      · exfalso
        obtain ⟨p1, p2, p3, p4, p5⟩ := hp
        by_cases c : j.lower = -INF
        · by_cases c' : j.upper = INF
          · exact he 0 ⟨Or.inl c, Or.inl c'⟩
          · exact he j.upper ⟨Or.inl c, Or.inr (Int.le_refl _)⟩
        · exact he j.lower ⟨Or.inr (Int.le_refl _), Or.inr p1⟩
      · rw [hp]; exact ⟨rfl, rfl⟩
    | point p => exact absurd rfl (he p)
    | range a b =>
      simp only [InExtConvex] at he
      simp only [Proper] at hp
      have : ¬ a < b := by
        intro c
        by_cases c1 : a = -INF
        · exact he (b - 1) ⟨Or.inl c1, Or.inr (by omega)⟩
        · exact he a ⟨Or.inr (Int.le_refl _), Or.inr c⟩
      simp only [Convex.lower, Convex.upper, if_neg this]; exact ⟨trivial, trivial⟩
    | rangeFrom a => exact absurd (Or.inr (Int.le_refl _)) (he a)
    | rangeIncl a b =>
      simp only [InExtConvex] at he
      have : ¬ a ≤ b := fun c => he a ⟨Or.inr (Int.le_refl _), Or.inr c⟩
      simp only [Convex.lower, Convex.upper, if_neg this]; exact ⟨trivial, trivial⟩
    | rangeTo b => exact absurd (Or.inr (by omega)) (he (b - 1))
    | rangeToIncl b => exact absurd (Or.inr (Int.le_refl _)) (he b)
  have hc : Window.containsSet (.conv w) TSet.all = false := by
    rw [← Bool.not_eq_true, contains_ext (w := .conv w) hp (by decide)]
    intro h
    exact he 0 (h 0 ⟨⟨-INF, INF⟩, by decide, by decide⟩)
  have ho : Window.overlapsSet (.conv w) TSet.all = true := by
    simp only [Window.overlapsSet, Convex.overlapsSet, TSet.overlaps, hb]; decide
  have hr : Window.restrict (.conv w) TSet.all = .ok [] := by
    simp only [Window.restrict, TSet.interAssignConvex, hb]; decide
  obtain ⟨ks, k1, -, k2, -⟩ := C72_from_partial hv hi
  obtain ⟨sch', e1, e2, e3⟩ := propagate_none dbg ks (s.schedule.set i []) (i := i)
    (by rw [List.getElem?_set, if_pos rfl, if_pos (by omega)])
    (by intro k hk; rw [List.length_set, hl]; exact (k2 k hk).2.1)
  have hno : ∀ t, ¬ Slot ⟨s.graph, sch'⟩ i t := by
    rintro t ⟨v, hv', x, hx, -⟩
    have : (some [] : Option TSet) = some v := e2.symm.trans hv'
    cases this
    simp at hx
  refine ⟨⟨s.graph, sch'⟩, ?_, rfl, hno, ?_⟩
  · rw [retain_test dbg ha, hc, ho, hr]
    simp only [Bool.false_eq_true, if_false, Bool.not_true, ok_bind, Sched.propagateScheduling, k1, e1]
    rfl
  · rintro ⟨τ, -, h⟩
    exact hno _ (h i hi)

example : Valid exGraph ∧ (Sched.new exGraph).schedule.length = 3 ∧ (Sched.new exGraph).scheduling 0 = some TSet.all ∧
    Proper (.range 5 3) ∧
    (Sched.new exGraph).retain false 0 (.conv (.range 5 3)) = .ok (⟨exGraph, [[], [], []]⟩, .propagated) := by
  refine ⟨exGraph_valid, rfl, rfl, by decide, ?_⟩
  decide +kernel
example : ∀ t, ¬ InExtConvex t (.range 5 3) := by intro t; simp only [InExtConvex]; ticks

/-- A schedule reached on `exGraph`: instant 0 between 0 and 9 -/
def exSched : Sched := ⟨exGraph, [[⟨0, 9⟩], [⟨10, 29⟩], [⟨15, 35⟩]]⟩

theorem exSched_reached : (Sched.new exGraph).retain true 0 (.conv (.iv ⟨0, 9⟩)) = .ok (exSched, .propagated) := by
  decide +kernel

example : CanonSched exSched ∧ 1 < exSched.graph.size ∧ ProperWindow (.conv (.rangeTo 100)) ∧
    exSched.retain true 1 (.conv (.rangeTo 100)) = .ok (exSched, .unchanged) ∧
    exSched.retain true 1 (.conv (.rangeTo 10)) = .ok (exSched, .recovered) ∧
    exSched.retain true 2 (.set [⟨-5, 3⟩, ⟨40, INF⟩]) = .ok (exSched, .recovered) ∧
    ProperNeg (.iv ⟨0, 20⟩) ∧ WithinNeg 20 (.iv ⟨0, 20⟩) ∧
    exSched.remove true 0 (.iv ⟨0, 20⟩) = .ok (exSched, .recovered) ∧
    exSched.remove true 2 (.point 7) = .ok (exSched, .unchanged) ∧
    exSched.retain true 3 (.conv (.rangeTo 100)) = .error .assertFail := by
  decide +kernel

theorem exGraph_zeroDiag : ZeroDiag exGraph := zeroDiag_of_minimal exGraph_valid exGraph_minimal
theorem exGraph_spanned : Spanned exGraph := spanned_of_sat exGraph_minimal.1 (by decide) exGraph_within

/-- C76: on an allocated graph without contradiction, if the bounds are small enough for no sum to overflow, successive
calls of `retain` and `remove` with windows of any kind always return in a release build, and no assignment is
discarded: if it satisfies the graph and is allowed by all the accepted calls, it is within the slots. (In a debug build
a call may also fail a debug assertion, see `C76_debug_violated`.) -/
theorem C76_history (dbg : Bool) {g : Graph} (hv : Valid g) (hz : ZeroDiag g) (hs : Spanned g) {B W : Int} (hB : 0 ≤ B)
    (hg : Within B g) {calls : List Call} (hW : W + calls.length * B < INF) (hok : ∀ c ∈ calls, c.Ok g.size W) :
    (∃ s acc, callAll dbg (Sched.new g) calls = .ok (s, acc) ∧ s.graph = g ∧
      ∀ τ, Sat τ g → (∀ c ∈ acc, c.Allows (τ c.instant)) → Feasible τ s) ∨
    (dbg = true ∧ callAll dbg (Sched.new g) calls = .error .debugAssert) := by
  rcases callAll_loose dbg hB calls (s := Sched.new g) (V := W) hv hz hs (new_loose g) hg (new_within g W) (Int.le_refl _)
    hW hok with ⟨s, acc, h1, h2, h3, h4, h5⟩ | h
  · left
    refine ⟨s, acc, h1, h2, fun τ hτ hal => ?_⟩
    have h2 : s.graph = g := h2
    refine ⟨by rw [h2]; exact hτ, fun i hi => ?_⟩
    rw [h2] at hi
    exact h5 τ hτ (fun j hj => new_slot g hj _) hal i hi
  · exact Or.inr h

/-- C76, for one call on any canonical schedule. -/
theorem C76_call (dbg : Bool) {s : Sched} (hv : Valid s.graph) (hz : ZeroDiag s.graph) (hs : Spanned s.graph)
    (hc : CanonSched s) {B W : Int} (hB : 0 ≤ B) (hg : Within B s.graph) (hw : WithinSched W s) (hW : W + B < INF)
    {c : Call} (hok : c.Ok s.graph.size W) :
    (∃ s' o, c.run dbg s = .ok (s', o) ∧ s'.graph = s.graph ∧
      ∀ τ, Feasible τ s → c.Allows (τ c.instant) → Feasible τ s') ∨
    (dbg = true ∧ c.run dbg s = .error .debugAssert) := by
  rcases call_loose dbg hv hz hs (s := s) ⟨hc.1, fun w h => (hc.2 w h).loose⟩ hg hw (Int.le_refl _) hW hB hok with
    ⟨s', o, h1, h2, -, -, -, -, -, -, h3⟩ | h
  · left
    refine ⟨s', o, h1, h2, fun τ hτ hal => ?_⟩
    exact ⟨by rw [h2]; exact hτ.1, by rw [h2]; exact h3 τ hτ.1 hτ.2 hal⟩
  · exact Or.inr h

/-- C76: no debug assertion fails either when the windows of `retain` are intervals, ranges or dates, or sets whose
intervals do not start or end just beside the slots. -/
theorem C76_debug_partial {s : Sched} (hv : Valid s.graph) (hz : ZeroDiag s.graph) (hs : Spanned s.graph)
    (hc : CanonSched s) {B W : Int} (hg : Within B s.graph) (hw : WithinSched W s) (hW : W + B < INF)
    {i : Nat} (hi : i < s.graph.size) {w : Window} (hpw : ProperWindow w) (hww : WithinWindow W w) (ha : Apart s i w)
    (hne : ∀ v, w = .conv v → (∃ t, InExtConvex t v) ∨ s.scheduling i ≠ some TSet.all) :
    ∃ s' o, s.retain true i w = .ok (s', o) := by
  obtain ⟨si, e, ci, -⟩ := sched_get hc hi
  have hov := overlaps_ext hpw ci (fun v hv => (hne v hv).imp id (fun h e' => h (by
    show s.schedule[i]? = _
    rw [e, e'])))
  by_cases c1 : w.containsSet si = true
  · exact ⟨s, .unchanged, by rw [retain_test _ e, if_pos c1]⟩
  by_cases c2 : w.overlapsSet si = true
  · have hin : ¬ ∀ t, InExtSet t si → InExtWindow t w := by rw [← contains_ext hpw ci]; exact c1
    obtain ⟨s1, r1, a1, -⟩ := retain_ext true hv hz hs hc hg hw hW hi e hpw hww ha hin (hov.1 c2)
    exact ⟨s1, _, a1⟩
  · exact ⟨s, .recovered, by rw [retain_test _ e, if_neg c1, if_pos (by simpa using c2)]⟩

/-- C76 fails in a debug build: removing the last dates of instant 0 stops the program with a failed debug assertion. -/
theorem C76_debug_violated : CanonSched exSched ∧ exSched.remove true 0 (.iv ⟨5, 9⟩) = .error .debugAssert ∧
    exSched.remove false 0 (.iv ⟨5, 9⟩) = .ok (⟨exGraph, [[⟨0, 4⟩], [⟨10, 24⟩], [⟨15, 30⟩]]⟩, .propagated) := by
  decide +kernel

/-- Calls of both kinds, with an interval, a range, sets, dates; the second one is refused. -/
def exCalls : List Call := [.retain 0 (.conv (.iv ⟨0, 9⟩)), .retain 2 (.conv (.rangeFrom 36)),
  .remove 1 (.set [⟨12, 13⟩, ⟨15, 15⟩]), .retain 2 (.set [⟨-3, 17⟩, ⟨21, 40⟩]), .remove 0 (.point 4)]

def exAfter : Sched := ⟨exGraph, [[⟨0, 3⟩, ⟨5, 9⟩], [⟨10, 11⟩, ⟨15, 14⟩, ⟨16, 29⟩], [⟨15, 17⟩, ⟨21, 35⟩]]⟩

example : Valid exGraph ∧ ZeroDiag exGraph ∧ Spanned exGraph ∧ Within 26 exGraph ∧ (∀ c ∈ exCalls, c.Ok exGraph.size 100) ∧
    100 + (exCalls.length : Int) * 26 < INF ∧
    ((callAll true (Sched.new exGraph) exCalls).map (fun p => p.1)) = .ok exAfter ∧
    (callAll true (Sched.new exGraph) exCalls).map (fun p => p.2.length) = .ok 4 :=
  ⟨exGraph_valid, exGraph_zeroDiag, exGraph_spanned, exGraph_within, by decide +kernel, by decide, by decide +kernel,
    by decide +kernel⟩

example : CanonSched exSched ∧ WithinSched 100 exSched ∧ Apart exSched 0 (.set [⟨-5, 2⟩, ⟨7, 40⟩]) ∧
    exSched.retain true 0 (.set [⟨-5, 2⟩, ⟨7, 40⟩]) =
      .ok (⟨exGraph, [[⟨0, 2⟩, ⟨7, 9⟩], [⟨10, 29⟩], [⟨15, 35⟩]]⟩, .propagated) := by
  refine ⟨by decide, by decide, ?_, by decide +kernel⟩
  intro w hw
  have : w = [⟨0, 9⟩] := by cases hw; rfl
  rw [this]
  decide

/-- C77, first part: after any history of calls, each date still in the slots of an instant is allowed by each of the
accepted calls about it. -/
theorem C77_history (dbg : Bool) {g : Graph} (hv : Valid g) (hz : ZeroDiag g) (hs : Spanned g) {B W : Int} (hB : 0 ≤ B)
    (hg : Within B g) {calls : List Call} (hW : W + calls.length * B < INF) (hok : ∀ c ∈ calls, c.Ok g.size W)
    {s : Sched} {acc : List Call} (h : callAll dbg (Sched.new g) calls = .ok (s, acc)) {c : Call} (hc : c ∈ acc) {t : Int}
    (ht : Slot s c.instant t) : c.Allows t := by
  rcases callAll_loose dbg hB calls (s := Sched.new g) (V := W) hv hz hs (new_loose g) hg (new_within g W) (Int.le_refl _)
    hW hok with ⟨s', acc', h1, -, -, h4, -⟩ | ⟨-, h1⟩
  · rw [h] at h1
    cases h1
    exact (h4 _ t ht).2 c hc rfl
  · rw [h] at h1; cases h1

/-- C77, first part: a call adds no date anywhere. -/
theorem C77_shrinks (dbg : Bool) {s : Sched} (hv : Valid s.graph) (hz : ZeroDiag s.graph) (hs : Spanned s.graph)
    (hc : CanonSched s) {B W : Int} (hB : 0 ≤ B) (hg : Within B s.graph) (hw : WithinSched W s) (hW : W + B < INF)
    {c : Call} (hok : c.Ok s.graph.size W) {s' : Sched} {o : Outcome} (h : c.run dbg s = .ok (s', o)) {j : Nat} {t : Int}
    (ht : Slot s' j t) : Slot s j t := by
  rcases call_loose dbg hv hz hs (s := s) ⟨hc.1, fun w h => (hc.2 w h).loose⟩ hg hw (Int.le_refl _) hW hB hok with
    ⟨s1, o1, h1, -, -, -, -, -, h3, -⟩ | ⟨-, h1⟩
  · rw [h] at h1
    cases h1
    exact h3 j t ht
  · rw [h] at h1; cases h1

/-- C77: after `Ok(Propagated)` the dates of `i` are exactly the previous ones which are in the window, and those of
another instant exactly the previous ones which are at an allowed delay from one of the dates of `i`. Missing: sets
(or removed dates) whose intervals touch those of the slots, see `C77_violated`, and empty windows on an
unconstrained instant, see `C75_violated`. -/
theorem C77_retain_partial (dbg : Bool) {s : Sched} (hv : Valid s.graph) (hz : ZeroDiag s.graph) (hs : Spanned s.graph)
    (hc : CanonSched s) {B W : Int} (hg : Within B s.graph) (hw : WithinSched W s) (hW : W + B < INF)
    {i : Nat} (hi : i < s.graph.size) {w : Window} (hpw : ProperWindow w) (hww : WithinWindow W w) (ha : Apart s i w)
    (hne : ∀ v, w = .conv v → (∃ t, InExtConvex t v) ∨ s.scheduling i ≠ some TSet.all)
    {s' : Sched} (h : s.retain dbg i w = .ok (s', .propagated)) :
    (∀ t, Slot s' i t ↔ Slot s i t ∧ InExtWindow t w) ∧
    ∀ j, j < s.graph.size → j ≠ i → ∃ sp, s.graph.timespan i j = .ok sp ∧
      ∀ t, Slot s' j t ↔ Slot s j t ∧ ∃ a, Slot s' i a ∧ InExt (t - a) sp := by
  obtain ⟨si, e, ci, -⟩ := sched_get hc hi
  have hov := overlaps_ext hpw ci (fun v hv => (hne v hv).imp id (fun h e' => h (by
    show s.schedule[i]? = _
    rw [e, e'])))
  by_cases c1 : w.containsSet si = true
  · rw [retain_test _ e, if_pos c1] at h; cases h
  by_cases c2 : w.overlapsSet si = true
  · have hin : ¬ ∀ t, InExtSet t si → InExtWindow t w := by rw [← contains_ext hpw ci]; exact c1
    obtain ⟨s1, r, a1, a2, a3, a4, a5, a6, a7, a8⟩ := retain_ext dbg hv hz hs hc hg hw hW hi e hpw hww ha hin (hov.1 c2)
    rw [h] at a1
    cases a1
    refine ⟨fun t => ?_, fun j hj hji => ?_⟩
    · rw [slot_get a4, slot_get e, a7]
    · obtain ⟨v, v', sp, e1, e2, e3, e4⟩ := a8 j hj hji
      refine ⟨sp, e3, fun t => ?_⟩
      rw [slot_get e2, slot_get e1, e4.pts]
      simp only [slot_get a4]
  · rw [retain_test _ e, if_neg c1, if_pos (by simpa using c2)] at h; cases h

/-- C77, second part: after `Ok(Propagated)` from `remove`, if the complement of what is
removed does not start or end just beside an interval of the slots. -/
theorem C77_remove_partial (dbg : Bool) {s : Sched} (hv : Valid s.graph) (hz : ZeroDiag s.graph) (hs : Spanned s.graph)
    (hc : CanonSched s) {B W : Int} (hg : Within B s.graph) (hw : WithinSched W s) (hW : W + B < INF)
    (hB : 0 ≤ B) {i : Nat} (hi : i < s.graph.size) {w : Negatable} (hpw : ProperNeg w) (hww : WithinNeg (W - 1) w)
    (ha : Apart s i (.set w.not))
    {s' : Sched} (h : s.remove dbg i w = .ok (s', .propagated)) :
    (∀ t, Slot s' i t ↔ Slot s i t ∧ ¬ InExtNeg t w) ∧
    ∀ j, j < s.graph.size → j ≠ i → ∃ sp, s.graph.timespan i j = .ok sp ∧
      ∀ t, Slot s' j t ↔ Slot s j t ∧ ∃ a, Slot s' i a ∧ InExt (t - a) sp := by
  obtain ⟨k1, k2, k3⟩ := neg_spec hpw hww (by omega)
  obtain ⟨h1, h2⟩ := C77_retain_partial dbg hv hz hs hc hg hw hW hi (w := .set w.not) k1
    (withinWindow_mono (W := W - 1 + 1) (by omega) k2) ha (fun v hv => by cases hv) h
  refine ⟨fun t => (h1 t).trans (and_congr_right fun _ => k3 t), h2⟩

example : exSched.remove true 0 (.iv ⟨3, 4⟩) =
      .ok (⟨exGraph, [[⟨0, 2⟩, ⟨5, 9⟩], [⟨10, 29⟩], [⟨15, 35⟩]]⟩, .propagated) ∧
    WithinNeg (100 - 1) (.iv ⟨3, 4⟩) ∧ Apart exSched 0 (.set (Negatable.not (.iv ⟨3, 4⟩))) := by
  refine ⟨by decide +kernel, by decide, ?_⟩
  intro w hw
  have : w = [⟨0, 9⟩] := by cases hw; rfl
  rw [this]
  decide

/-- C77 fails: instant 1 is between 0 and 9, then its dates 5 to 9 are removed; -3 is still possible for instant 0
although instant 1 should follow by 10 to 20. -/
theorem C77_violated : ∃ s s', CanonSched s ∧ (Sched.new exGraph).retain true 1 (.conv (.iv ⟨0, 9⟩)) = .ok (s, .propagated) ∧
    s.remove false 1 (.iv ⟨5, 9⟩) = .ok (s', .propagated) ∧ s.remove true 1 (.iv ⟨5, 9⟩) = .ok (s', .propagated) ∧
    exGraph.timespan 1 0 = .ok ⟨-20, -10⟩ ∧ Slot s' 0 (-3) ∧ ¬ ∃ a, Slot s' 1 a ∧ InExt (-3 - a) ⟨-20, -10⟩ := by
  refine ⟨⟨exGraph, [[⟨-20, -1⟩], [⟨0, 9⟩], [⟨5, 15⟩]]⟩,
    ⟨exGraph, [[⟨-20, -1⟩], [⟨0, 4⟩, ⟨10, 9⟩], [⟨5, 10⟩, ⟨15, 15⟩]]⟩, by decide, by decide +kernel, by decide +kernel,
    by decide +kernel, by decide, ⟨[⟨-20, -1⟩], rfl, by decide⟩, ?_⟩
  rintro ⟨a, ⟨w, e, x, hx, h1⟩, h2⟩
  have : w = [⟨0, 4⟩, ⟨10, 9⟩] := by cases e; rfl
  subst this
  simp only [List.mem_cons, List.not_mem_nil, or_false] at hx
  rcases hx with rfl | rfl <;> simp only [InExt] at h1 h2 <;> ticks

theorem foldl_min (l : List Int) : ∀ x, (l.foldl min x = x ∨ l.foldl min x ∈ l) ∧ l.foldl min x ≤ x ∧ ∀ y ∈ l, l.foldl min x ≤ y := by
  induction l with
  | nil => intro x; simp
  | cons a l ih =>
    intro x
    obtain ⟨h1, h2, h3⟩ := ih (min x a)
    simp only [List.foldl_cons, List.mem_cons]
    refine ⟨?_, by omega, fun y hy => ?_⟩
    · rcases h1 with h1 | h1
      · rw [h1]
        by_cases c : x ≤ a
        · left; omega
        · right; left; omega
      · exact Or.inr (Or.inr h1)
    · rcases hy with rfl | hy
      · omega
      · exact h3 y hy

theorem foldl_max (l : List Int) : ∀ x, (l.foldl max x = x ∨ l.foldl max x ∈ l) ∧ x ≤ l.foldl max x ∧ ∀ y ∈ l, y ≤ l.foldl max x := by
  induction l with
  | nil => intro x; simp
  | cons a l ih =>
    intro x
    obtain ⟨h1, h2, h3⟩ := ih (max x a)
    simp only [List.foldl_cons, List.mem_cons]
    refine ⟨?_, by omega, fun y hy => ?_⟩
    · rcases h1 with h1 | h1
      · rw [h1]
        by_cases c : a ≤ x
        · left; omega
        · right; left; omega
      · exact Or.inr (Or.inr h1)
    · rcases hy with rfl | hy
      · omega
      · exact h3 y hy

theorem isLast_iff {w : List Iv} (hw : Canon w) (v : Int) : IsLast v w ↔ v = TSet.upperBound w := by
  by_cases c : w = []
  · subst c
    simp only [IsLast, true_and, InSet_nil, false_and, or_false]
    exact Iff.rfl
  · obtain ⟨-, -, h1, h2⟩ := canon_bounds hw c
    simp only [IsLast, c, false_and, false_or]
    constructor
    · rintro ⟨h3, h4⟩
      have := h4 _ h1
      have := (h2 v h3).2
      omega
    · rintro rfl
      exact ⟨h1, fun t ht => (h2 t ht).2⟩

theorem isFirst_iff {w : List Iv} (hw : Canon w) (v : Int) : IsFirst v w ↔ v = TSet.lowerBound w := by
  by_cases c : w = []
  · subst c
    simp only [IsFirst, true_and, InSet_nil, false_and, or_false]
    exact Iff.rfl
  · obtain ⟨-, h1, -, h2⟩ := canon_bounds hw c
    simp only [IsFirst, c, false_and, false_or]
    constructor
    · rintro ⟨h3, h4⟩
      have := h4 _ h1
      have := (h2 v h3).1
      omega
    · rintro rfl
      exact ⟨h1, fun t ht => (h2 t ht).1⟩

theorem getElem?_mem_iff {l : List TSet} {P : TSet → Prop} : (∃ (i : Nat) (w : TSet), l[i]? = some w ∧ P w) ↔ ∃ w ∈ l, P w := by
  constructor
  · rintro ⟨i, w, h, p⟩; exact ⟨w, List.mem_of_getElem? h, p⟩
  · rintro ⟨w, h, p⟩
    obtain ⟨i, hi⟩ := List.mem_iff_getElem?.1 h
    exact ⟨i, w, hi, p⟩

/-- C80 for all schedules, canonical or not: `latest_beginning` is the least of the `upper_bound` of the slots and `earliest_ending` the greatest
of their `lower_bound`; both panic exactly when there is no instant. -/
theorem C80_bounds (s : Sched) (hl : s.schedule.length = s.graph.size) :
    (s.latestBeginning = .error .unwrapNone ↔ s.graph.size = 0) ∧ (s.earliestEnding = .error .unwrapNone ↔ s.graph.size = 0) ∧
    (s.graph.size ≠ 0 → ∃ v u, s.latestBeginning = .ok v ∧ s.earliestEnding = .ok u ∧
      (∃ i w, s.scheduling i = some w ∧ v = TSet.upperBound w) ∧ (∀ i w, s.scheduling i = some w → v ≤ TSet.upperBound w) ∧
      (∃ i w, s.scheduling i = some w ∧ u = TSet.lowerBound w) ∧ ∀ i w, s.scheduling i = some w → TSet.lowerBound w ≤ u) := by
  unfold Sched.latestBeginning Sched.earliestEnding Sched.scheduling
  obtain ⟨g, sch⟩ := s
  simp only at *
  rw [← hl]
  cases sch with
  | nil => simp
  | cons x xs =>
    simp only [List.map_cons, List.length_cons, reduceCtorEq, false_iff]
    obtain ⟨h1, h2, h3⟩ := foldl_min (xs.map TSet.upperBound) (TSet.upperBound x)
    obtain ⟨k1, k2, k3⟩ := foldl_max (xs.map TSet.lowerBound) (TSet.lowerBound x)
    refine ⟨by simp, by simp, fun _ => ⟨_, _, rfl, rfl, ?_, ?_, ?_, ?_⟩⟩
    · rw [getElem?_mem_iff]
      rcases h1 with h1 | h1
      · exact ⟨x, by simp, h1⟩
      · obtain ⟨w, hw, e⟩ := List.mem_map.1 h1
        exact ⟨w, by simp [hw], e.symm⟩
    · intro i w hw
      rcases List.mem_cons.1 (List.mem_of_getElem? hw) with e | hm
      · rw [e]; exact h2
      · exact h3 _ (List.mem_map.2 ⟨w, hm, rfl⟩)
    · rw [getElem?_mem_iff]
      rcases k1 with h1 | h1
      · exact ⟨x, by simp, h1⟩
      · obtain ⟨w, hw, e⟩ := List.mem_map.1 h1
        exact ⟨w, by simp [hw], e.symm⟩
    · intro i w hw
      rcases List.mem_cons.1 (List.mem_of_getElem? hw) with e | hm
      · rw [e]; exact k2
      · exact k3 _ (List.mem_map.2 ⟨w, hm, rfl⟩)

example : (Sched.mk exGraph [[⟨0, 4⟩], [⟨5, 4⟩], []]).latestBeginning = .ok (-INF) ∧
    (Sched.mk exGraph [[⟨0, 4⟩], [⟨5, 4⟩], []]).earliestEnding = .ok INF ∧ exGraph.size = 3 := by decide

/-- C80: `latest_beginning` is the last possible date of some instant, and no instant has an earlier last possible date;
it panics iff there is no instant. -/
theorem C80_latest_beginning (s : Sched) (hc : CanonSched s) :
    (s.latestBeginning = .error .unwrapNone ↔ s.graph.size = 0) ∧ (s.graph.size ≠ 0 → ∃ v, s.latestBeginning = .ok v) ∧
    ∀ v, s.latestBeginning = .ok v →
      (∃ i w, s.scheduling i = some w ∧ IsLast v w) ∧ ∀ i w u, s.scheduling i = some w → IsLast u w → v ≤ u := by
  unfold Sched.latestBeginning Sched.scheduling
  have hl := hc.1
  obtain ⟨g, sch⟩ := s
  simp only at *
  have hcan : ∀ w ∈ sch, Canon w := hc.2
  rw [← hl]
  cases sch with
  | nil => simp
  | cons x xs =>
    simp only [List.map_cons, List.length_cons, reduceCtorEq, false_iff, Except.ok.injEq, exists_eq', implies_true,
      true_and, forall_eq']
    obtain ⟨h1, h2, h3⟩ := foldl_min (xs.map TSet.upperBound) (TSet.upperBound x)
    refine ⟨?_, ?_⟩
    · rw [getElem?_mem_iff]
      rcases h1 with h1 | h1
      · exact ⟨x, by simp, (isLast_iff (hcan x (by simp)) _).2 h1⟩
      · obtain ⟨w, hw, e⟩ := List.mem_map.1 h1
        exact ⟨w, by simp [hw], (isLast_iff (hcan w (by simp [hw])) _).2 e.symm⟩
    · intro i w u hw hu
      have hm := List.mem_of_getElem? hw
      rw [isLast_iff (hcan w hm)] at hu
      rcases List.mem_cons.1 hm with e | hm
      · rw [hu, e]; exact h2
      · rw [hu]; exact h3 _ (List.mem_map.2 ⟨w, hm, rfl⟩)

/-- C80: `earliest_ending` is the first possible date of some instant, and no instant has a later first possible date;
it panics iff there is no instant. -/
theorem C80_earliest_ending (s : Sched) (hc : CanonSched s) :
    (s.earliestEnding = .error .unwrapNone ↔ s.graph.size = 0) ∧ (s.graph.size ≠ 0 → ∃ v, s.earliestEnding = .ok v) ∧
    ∀ v, s.earliestEnding = .ok v →
      (∃ i w, s.scheduling i = some w ∧ IsFirst v w) ∧ ∀ i w u, s.scheduling i = some w → IsFirst u w → u ≤ v := by
  unfold Sched.earliestEnding Sched.scheduling
  have hl := hc.1
  obtain ⟨g, sch⟩ := s
  simp only at *
  have hcan : ∀ w ∈ sch, Canon w := hc.2
  rw [← hl]
  cases sch with
  | nil => simp
  | cons x xs =>
    simp only [List.map_cons, List.length_cons, reduceCtorEq, false_iff, Except.ok.injEq, exists_eq', implies_true,
      true_and, forall_eq']
    obtain ⟨h1, h2, h3⟩ := foldl_max (xs.map TSet.lowerBound) (TSet.lowerBound x)
    refine ⟨?_, ?_⟩
    · rw [getElem?_mem_iff]
      rcases h1 with h1 | h1
      · exact ⟨x, by simp, (isFirst_iff (hcan x (by simp)) _).2 h1⟩
      · obtain ⟨w, hw, e⟩ := List.mem_map.1 h1
        exact ⟨w, by simp [hw], (isFirst_iff (hcan w (by simp [hw])) _).2 e.symm⟩
    · intro i w u hw hu
      have hm := List.mem_of_getElem? hw
      rw [isFirst_iff (hcan w hm)] at hu
      rcases List.mem_cons.1 hm with e | hm
      · rw [hu, e]; exact h2
      · rw [hu]; exact h3 _ (List.mem_map.2 ⟨w, hm, rfl⟩)

example : CanonSched exSched ∧ exSched.latestBeginning = .ok 9 ∧ exSched.earliestEnding = .ok 15 ∧
    (Sched.new ⟨0, []⟩).latestBeginning = .error .unwrapNone ∧
    (Sched.new exGraph).latestBeginning = .ok INF := by decide

end Chrono
