import Verif.Props.SchedAnswers
import Verif.Props.Apart

/-!
# C79 and C128 after any history of requests

The answers of `set_deadline` and `set_startline` on the schedules which a history of requests with any windows and sets leaves.
-/

set_option linter.unusedSimpArgs false

namespace Chrono
open Spec

theorem line_any (dbg : Bool) {s : Sched} (hv : Valid s.graph) (hs : Spanned s.graph) (hc : LooseSched s) {w : Convex} (hw : Proper w)
    {s' : Sched} {o : Outcome} (h : s.retainAll dbg (.conv w) = .ok (s', o)) :
    o ≠ .recovered ∧ o ≠ .fatal ∧ (o = .unchanged → s' = s) ∧ ∀ j t, Slot s' j t → Slot s j t ∧ InExtConvex t w := by
  have hmem : ∀ i, i ∈ List.range s.schedule.length ↔ i < s.graph.size := by
    intro i; rw [List.mem_range, hc.1]
  rcases retainAll_any dbg hw (List.range s.schedule.length) s .unchanged hv hs hc (fun i hi => (hmem i).1 hi) (by decide) (by decide) with
    ⟨s1, o1, b1, b2, bl, b3, b4, b5, -⟩ | ⟨b1, -⟩ | ⟨-, b1⟩
  · have b1 : s.retainAll dbg (.conv w) = .ok (s1, o1) := b1
    rw [h] at b1
    cases b1
    refine ⟨b3, b4, ?_, fun j t ht => ⟨(b5 j t ht).1, (b5 j t ht).2 ((hmem j).2 ?_)⟩⟩
    · rintro rfl
      exact (retainAll_unchanged dbg s w).1 s' h
    · obtain ⟨x, hx, -⟩ := ht
      have : j < s'.schedule.length := (List.getElem?_eq_some_iff.1 hx).1
      rw [bl.1, b2] at this
      exact this
  · have b1 : s.retainAll dbg (.conv w) = .error .unwrapNone := b1
    rw [h] at b1
    cases b1
  · have b1 : s.retainAll dbg (.conv w) = .error .debugAssert := b1
    rw [h] at b1
    cases b1

/-- **C79**, partial, after any history of requests, with any windows and sets: if `set_deadline(d)` answers `Ok` then no date is gained and no slot
has a date after `d`, and `Ok(Unchanged)` is said of a schedule which is left as it was; if it answers `Err` then it is `Err(Recovered)`, the
schedule is left as it was and some instant has no date left by `d`. Missing: the converse of the last one, see
`C79_reached_violated`, and it may panic. -/
theorem C79_reached_deadline_partial (dbg : Bool) {dbg' : Bool} {g : Graph} (hv : Valid g) (hg : Spanned g) {s : Sched}
    {P : (Nat → Int) → Prop} (h : Planned dbg' g s P) {d : Int} (hd : Date d) {s' : Sched} {o : Outcome}
    (hr : s.setDeadline dbg d = .ok (s', o)) :
    (o = .unchanged → s' = s) ∧ (o = .unchanged ∨ o = .propagated → ∀ j t, Slot s' j t → Slot s j t ∧ t ≤ d) ∧
    (o = .recovered → s' = s ∧ ∃ i, i < g.size ∧ ∀ t, Slot s i t → d < t) ∧ o ≠ .fatal := by
  obtain ⟨rfl, hl, -⟩ := planned_inv hv hg h
  unfold Sched.setDeadline at hr
  split at hr
  · rename_i c
    cases hr
    refine ⟨nofun, nofun, fun _ => ⟨rfl, ?_⟩, nofun⟩
    obtain ⟨w, hw, hlt⟩ := List.any_eq_true.1 c
    have hlt : d < TSet.lowerBound w := of_decide_eq_true hlt
    obtain ⟨i, hi⟩ := List.mem_iff_getElem?.1 hw
    refine ⟨i, by rw [← hl.1]; exact (List.getElem?_eq_some_iff.1 hi).1, fun t ht => ?_⟩
    rw [slot_get hi] at ht
    obtain ⟨x, hx, hin⟩ := ht
    have hb := (loose_bounds (hl.2 w hw) x hx).1
    have := hd.1
    simp only [InExt] at hin
    omega
  · obtain ⟨h1, h2, h3, h4⟩ := line_any dbg hv hg hl (w := .rangeToIncl d) ⟨hd.1, by have := hd.2; omega⟩ hr
    refine ⟨h3, fun _ j t ht => ⟨(h4 j t ht).1, ?_⟩, fun e => absurd e h1, h2⟩
    have := (h4 j t ht).2
    simp only [InExtConvex] at this
    unfold Date at hd
    omega

/-- The same for `set_startline(d)`: no slot has a date before `d` after `Ok`, and some instant has no date left from `d` on after `Err`. -/
theorem C79_reached_startline_partial (dbg : Bool) {dbg' : Bool} {g : Graph} (hv : Valid g) (hg : Spanned g) {s : Sched}
    {P : (Nat → Int) → Prop} (h : Planned dbg' g s P) {d : Int} (hd : Date d) {s' : Sched} {o : Outcome}
    (hr : s.setStartline dbg d = .ok (s', o)) :
    (o = .unchanged → s' = s) ∧ (o = .unchanged ∨ o = .propagated → ∀ j t, Slot s' j t → Slot s j t ∧ d ≤ t) ∧
    (o = .recovered → s' = s ∧ ∃ i, i < g.size ∧ ∀ t, Slot s i t → t < d) ∧ o ≠ .fatal := by
  obtain ⟨rfl, hl, -⟩ := planned_inv hv hg h
  unfold Sched.setStartline at hr
  split at hr
  · rename_i c
    cases hr
    refine ⟨nofun, nofun, fun _ => ⟨rfl, ?_⟩, nofun⟩
    obtain ⟨w, hw, hlt⟩ := List.any_eq_true.1 c
    have hlt : TSet.upperBound w < d := of_decide_eq_true hlt
    obtain ⟨i, hi⟩ := List.mem_iff_getElem?.1 hw
    refine ⟨i, by rw [← hl.1]; exact (List.getElem?_eq_some_iff.1 hi).1, fun t ht => ?_⟩
    rw [slot_get hi] at ht
    obtain ⟨x, hx, hin⟩ := ht
    have hb := (loose_bounds (hl.2 w hw) x hx).2
    have := hd.2
    simp only [InExt] at hin
    omega
  · obtain ⟨h1, h2, h3, h4⟩ := line_any dbg hv hg hl (w := .rangeFrom d) ⟨by have := hd.1; omega, hd.2⟩ hr
    refine ⟨h3, fun _ j t ht => ⟨(h4 j t ht).1, ?_⟩, fun e => absurd e h1, h2⟩
    have := (h4 j t ht).2
    simp only [InExtConvex] at this
    unfold Date at hd
    omega

/-- a history with a set, then a deadline which is accepted, one which is refused and one which changes nothing -/
example : ∃ s P s', Planned false exGraph s P ∧ Valid exGraph ∧ Spanned exGraph ∧ s.scheduling 1 = some [⟨0, 4⟩, ⟨10, 9⟩] ∧
    s.setDeadline true 4 = .ok (s, .recovered) ∧ s.setDeadline true 15 = .ok (s, .unchanged) ∧
    s.setDeadline false 12 = .ok (s', .propagated) ∧ s'.scheduling 2 = some [⟨5, 10⟩] ∧
    s.setStartline true 0 = .ok (s, .recovered) ∧ s.setStartline true (-20) = .ok (s, .unchanged) := by
  have a0 := Planned.new (dbg := false) (g := exGraph)
  have a1 := a0.accepted (r := .retain 1 (.conv (.iv ⟨0, 9⟩))) (o := .propagated)
    (s' := ⟨exGraph, [[⟨-20, -1⟩], [⟨0, 9⟩], [⟨5, 15⟩]]⟩)
    (by unfold Req.Proper; decide) (by unfold Req.run; decide +kernel) (Or.inr rfl)
  have a2 := a1.accepted (r := .remove 1 (.iv ⟨5, 9⟩)) (o := .propagated)
    (s' := ⟨exGraph, [[⟨-20, -1⟩], [⟨0, 4⟩, ⟨10, 9⟩], [⟨5, 10⟩, ⟨15, 15⟩]]⟩)
    (by unfold Req.Proper; decide) (by unfold Req.run; decide +kernel) (Or.inr rfl)
  exact ⟨_, _, ⟨exGraph, [[⟨-20, -5⟩], [⟨0, 4⟩], [⟨5, 10⟩]]⟩, a2, exGraph_valid, exGraph_spanned, rfl, by decide +kernel,
    by decide +kernel, by decide +kernel, rfl, by decide +kernel, by decide +kernel⟩

/-- **C79** fails after histories with sets, whose slots may begin with an interval without a date: if an instant has no date by `d`, but all the
`lower_bound` of the slots are at most `d`, then `set_deadline(d)` is not refused (it returns `Ok` or panics), and after `Ok` the instant has no
date left. The same for `set_startline(d)`. -/
theorem C79_reached_violated (dbg : Bool) {dbg' : Bool} {g : Graph} (hv : Valid g) (hg : Spanned g) {s : Sched}
    {P : (Nat → Int) → Prop} (h : Planned dbg' g s P) {d : Int} (hd : Date d) {i : Nat} :
    ((∀ t, Slot s i t → d < t) → (∀ j w, s.scheduling j = some w → TSet.lowerBound w ≤ d) →
      ∀ s' o, s.setDeadline dbg d = .ok (s', o) → (o = .unchanged ∨ o = .propagated) ∧ ¬ ∃ t, Slot s' i t) ∧
    ((∀ t, Slot s i t → t < d) → (∀ j w, s.scheduling j = some w → d ≤ TSet.upperBound w) →
      ∀ s' o, s.setStartline dbg d = .ok (s', o) → (o = .unchanged ∨ o = .propagated) ∧ ¬ ∃ t, Slot s' i t) := by
  have two : ∀ o : Outcome, o ≠ .recovered → o ≠ .fatal → o = .unchanged ∨ o = .propagated := by
    intro o; cases o <;> simp
  constructor
  · intro hn hlow s' o hr
    obtain ⟨-, h2, -, h4⟩ := C79_reached_deadline_partial dbg hv hg h hd hr
    have h1 : o ≠ .recovered := by
      rintro rfl
      obtain ⟨rfl, hl, -⟩ := planned_inv hv hg h
      unfold Sched.setDeadline at hr
      split at hr
      · rename_i c
        obtain ⟨w, hw, hlt⟩ := List.any_eq_true.1 c
        obtain ⟨j, hj⟩ := List.mem_iff_getElem?.1 hw
        have := hlow j w hj
        have := of_decide_eq_true hlt
        omega
      · exact (line_any dbg hv hg hl (w := .rangeToIncl d) ⟨hd.1, by have := hd.2; omega⟩ hr).1 rfl
    refine ⟨two o h1 h4, ?_⟩
    rintro ⟨t, ht⟩
    obtain ⟨a, b⟩ := h2 (two o h1 h4) i t ht
    have := hn t a
    omega
  · intro hn hup s' o hr
    obtain ⟨-, h2, -, h4⟩ := C79_reached_startline_partial dbg hv hg h hd hr
    have h1 : o ≠ .recovered := by
      rintro rfl
      obtain ⟨rfl, hl, -⟩ := planned_inv hv hg h
      unfold Sched.setStartline at hr
      split at hr
      · rename_i c
        obtain ⟨w, hw, hlt⟩ := List.any_eq_true.1 c
        obtain ⟨j, hj⟩ := List.mem_iff_getElem?.1 hw
        have := hup j w hj
        have := of_decide_eq_true hlt
        omega
      · exact (line_any dbg hv hg hl (w := .rangeFrom d) ⟨by have := hd.1; omega, hd.2⟩ hr).1 rfl
    refine ⟨two o h1 h4, ?_⟩
    rintro ⟨t, ht⟩
    obtain ⟨a, b⟩ := h2 (two o h1 h4) i t ht
    have := hn t a
    omega

/-- the slots `[0,-1]` and `[6,9]` of an instant: it has no date by 5, and yet the deadline 5 is accepted -/
example : ∃ s P s', Planned false exGraph s P ∧ Valid exGraph ∧ Spanned exGraph ∧ s.scheduling 1 = some [⟨0, -1⟩, ⟨6, 9⟩] ∧
    (∀ t, Slot s 1 t → 5 < t) ∧ (∀ j w, s.scheduling j = some w → TSet.lowerBound w ≤ 5) ∧
    s.setDeadline false 5 = .ok (s', .propagated) ∧ s'.scheduling 1 = some [⟨0, -1⟩] := by
  have a0 := Planned.new (dbg := false) (g := exGraph)
  have a1 := a0.accepted (r := .retain 1 (.conv (.iv ⟨0, 9⟩))) (o := .propagated)
    (s' := ⟨exGraph, [[⟨-20, -1⟩], [⟨0, 9⟩], [⟨5, 15⟩]]⟩)
    (by unfold Req.Proper; decide) (by unfold Req.run; decide +kernel) (Or.inr rfl)
  have a2 := a1.accepted (r := .remove 1 (.iv ⟨0, 5⟩)) (o := .propagated)
    (s' := ⟨exGraph, [[⟨-20, -1⟩], [⟨0, -1⟩, ⟨6, 9⟩], [⟨5, 5⟩, ⟨11, 15⟩]]⟩)
    (by unfold Req.Proper; decide) (by unfold Req.run; decide +kernel) (Or.inr rfl)
  refine ⟨_, _, ⟨exGraph, [[⟨-20, -11⟩], [⟨0, -1⟩], [⟨5, 5⟩]]⟩, a2, exGraph_valid, exGraph_spanned, rfl, ?_, ?_, by decide +kernel, rfl⟩
  · rintro t ⟨v, hv, x, hx, ht⟩
    cases hv
    simp only [List.mem_cons, List.not_mem_nil, or_false] at hx
    rcases hx with rfl | rfl <;> simp only [InExt, INF] at ht <;> omega
  · intro j w hw
    have hm : w ∈ [[⟨-20, -1⟩], [⟨0, -1⟩, ⟨6, 9⟩], [⟨5, 5⟩, ⟨11, 15⟩]] := List.mem_of_getElem? hw
    simp only [List.mem_cons, List.not_mem_nil, or_false] at hm
    rcases hm with rfl | rfl | rfl <;> decide

/-- **C128** fails for empty windows after any history of requests: the request of an empty interval or range for an instant which nothing has bounded
yet is accepted, and then no date is left for instant 0, even if nothing relates the two instants. -/
theorem C128_reached_violated (dbg : Bool) {dbg' : Bool} {g : Graph} (hv : Valid g) (hg : Spanned g) {s : Sched} {P : (Nat → Int) → Prop}
    (h : Planned dbg' g s P) {i : Nat} (hi : i < g.size) (ha : s.scheduling i = some [⟨-INF, INF⟩]) {w : Convex}
    (hp : Proper w) (he : ∀ t, ¬ InExtConvex t w) :
    ∃ s', s.retain dbg i (.conv w) = .ok (s', .propagated) ∧ s'.scheduling 0 = some [] ∧ ¬ ∃ t, Slot s' 0 t := by
  obtain ⟨rfl, hl, -⟩ := planned_inv hv hg h
  obtain ⟨s', h1, h2⟩ := empty_window_loose dbg hv hg hl hi ha hp he
  refine ⟨s', h1, h2, ?_⟩
  rintro ⟨t, ht⟩
  obtain ⟨x, hx, -⟩ := (slot_get h2 t).1 ht
  simp at hx

/-- three instants which nothing relates: the slots of the first one are lost with the request of `3..2` for the last one -/
example : ∃ g s P, Planned false g s P ∧ Valid g ∧ Spanned g ∧ 2 < g.size ∧ s.scheduling 2 = some [⟨-INF, INF⟩] ∧ Proper (.range 3 2) ∧
    (∀ t, ¬ InExtConvex t (.range 3 2)) ∧ s.scheduling 0 = some [⟨0, 9⟩] ∧ g.timespan 2 0 = .ok ⟨-INF, INF⟩ ∧
    ∃ s', s.retain true 2 (.conv (.range 3 2)) = .ok (s', .propagated) ∧ s'.scheduling 0 = some [] := by
  have sp : ∀ i j : Fin 3, (match Graph.timespan ⟨3, [0, -INF, 0, -INF, -INF, -INF, 0, -INF, -INF]⟩ i j with | .ok s => decide (WF s) | _ => true) = true := by
    decide +kernel
  have a0 := Planned.new (dbg := false) (g := ⟨3, [0, -INF, 0, -INF, -INF, -INF, 0, -INF, -INF]⟩)
  have a1 := a0.accepted (r := .retain 0 (.conv (.iv ⟨0, 9⟩))) (o := .propagated)
    (s' := ⟨⟨3, [0, -INF, 0, -INF, -INF, -INF, 0, -INF, -INF]⟩, [[⟨0, 9⟩], [⟨-INF, INF⟩], [⟨-INF, INF⟩]]⟩)
    (by unfold Req.Proper; decide) (by unfold Req.run; decide +kernel) (Or.inr rfl)
  refine ⟨_, _, _, a1, by decide, fun i j hi hj s hs => ?_, by decide, rfl, by decide, ?_, rfl, by decide +kernel,
    ⟨⟨3, [0, -INF, 0, -INF, -INF, -INF, 0, -INF, -INF]⟩, [[], [⟨-INF, INF⟩], []]⟩, by decide +kernel, rfl⟩
  · have := sp ⟨i, hi⟩ ⟨j, hj⟩
    simp only [hs, decide_eq_true_eq] at this
    exact this
  · intro t ht
    simp only [InExtConvex, INF] at ht
    omega

end Chrono
