import Verif.Props.LooseFormat
import Verif.Lemmas.MirrorSched

/-!
# C75 after any history of requests

The answers of `retain` on the schedules which a history of requests leaves. Some of them contain intervals `[c, c - 1]`, without a date.
-/

set_option linter.unusedSimpArgs false

namespace Chrono
open Spec

/-- C75, after any history of requests: `Ok(Unchanged)` is only returned if the slots are inside the window, and `Err(Recovered)` only if they are
disjoint from it, both without a change; a window which has some of the dates of the instant is not refused. Missing: the converses
(`C75_reached_violated`), which hold if the slots of the instant show no interval without a date (`C75_reached_clean_partial`). -/
theorem C75_reached_partial (dbg : Bool) {dbg' : Bool} {g : Graph} (hv : Valid g) (hg : Spanned g) {s : Sched} {P : (Nat → Int) → Prop}
    (h : Planned dbg' g s P) {i : Nat} (hi : i < g.size) {w : Window} (hw : ProperWindow w) {s' : Sched} {o : Outcome}
    (hr : s.retain dbg i w = .ok (s', o)) :
    (o = .unchanged → s' = s ∧ ∀ t, Slot s i t → InExtWindow t w) ∧
    (o = .recovered → s' = s ∧ ¬ ∃ t, Slot s i t ∧ InExtWindow t w) ∧
    (o = .propagated → ∀ j t, Slot s' j t → Slot s j t ∧ (j = i → InExtWindow t w)) ∧ o ≠ .fatal := by
  obtain ⟨e, hl, -⟩ := planned_inv hv hg h
  subst e
  rcases retain_any dbg hv hg hl hi hw with ⟨s1, o1, e, R⟩ | ⟨-, e⟩
  · rw [hr] at e
    cases e
    refine ⟨fun ho => ?_, fun ho => ⟨R.same (Or.inl ho), R.refused ho⟩, fun ho j t ht => ⟨R.sub j t ht, ?_⟩, R.fatal⟩
    · have e := R.same (Or.inr ho)
      subst e
      exact ⟨rfl, R.inside (by rw [ho]; decide)⟩
    · rintro rfl
      exact R.inside (by rw [ho]; decide) t ht
  · rw [hr] at e
    cases e

/-- C75, after any history of requests, for `remove`: `Ok(Unchanged)` is only returned if no date of the slots is removed, `Err(Recovered)` only if
all of them are, both without a change; and after `Ok(Propagated)` no removed date is left. -/
theorem C75_reached_remove_partial (dbg : Bool) {dbg' : Bool} {g : Graph} (hv : Valid g) (hg : Spanned g) {s : Sched} {P : (Nat → Int) → Prop}
    (h : Planned dbg' g s P) {i : Nat} (hi : i < g.size) {w : Negatable} (hw : ProperNeg w) {s' : Sched} {o : Outcome}
    (hr : s.remove dbg i w = .ok (s', o)) :
    (o = .unchanged → s' = s ∧ ∀ t, Date t → Slot s i t → ¬ InExtNeg t w) ∧
    (o = .recovered → s' = s ∧ ∀ t, Date t → Slot s i t → InExtNeg t w) ∧
    (o = .propagated → ∀ j t, Slot s' j t → Slot s j t ∧ (j = i → Date t → ¬ InExtNeg t w)) ∧ o ≠ .fatal := by
  obtain ⟨n1, n2⟩ := neg_any hw
  have n2 : ∀ t, Date t → (InExtWindow t (.set w.not) ↔ ¬ InExtNeg t w) := n2
  obtain ⟨h1, h2, h3, h4⟩ := C75_reached_partial dbg hv hg h hi (w := .set w.not) n1 hr
  refine ⟨fun ho => ⟨(h1 ho).1, fun t ht hs => (n2 t ht).1 ((h1 ho).2 t hs)⟩, fun ho => ⟨(h2 ho).1, fun t ht hs => ?_⟩,
    fun ho j t hs => ⟨(h3 ho j t hs).1, fun e ht => (n2 t ht).1 ((h3 ho j t hs).2 e)⟩, h4⟩
  exact Classical.byContradiction fun hn => (h2 ho).2 ⟨t, hs, (n2 t ht).2 hn⟩

/-- C75, after any history of requests, if the slots of the instant show no interval without a date: the answers are exact (an empty interval or
range on an unconstrained instant apart, `C75_violated`). -/
theorem C75_reached_clean_partial (dbg : Bool) {dbg' : Bool} {g : Graph} (hv : Valid g) (hg : Spanned g) {s : Sched} {P : (Nat → Int) → Prop}
    (h : Planned dbg' g s P) {i : Nat} (hi : i < g.size) {v : TSet} (hv' : s.scheduling i = some v) (hcl : ∀ x ∈ v, x.lower ≤ x.upper)
    {w : Window} (hw : ProperWindow w) :
    ((∃ s', s.retain dbg i w = .ok (s', .unchanged)) ↔ ∀ t, Slot s i t → InExtWindow t w) ∧
    ((∀ c, w = .conv c → (∃ t, InExtConvex t c) ∨ v ≠ TSet.all) →
      ((∃ s', s.retain dbg i w = .ok (s', .recovered)) ↔ (∃ t, Slot s i t) ∧ ¬ ∃ t, Slot s i t ∧ InExtWindow t w)) := by
  obtain ⟨e0, hl, -⟩ := planned_inv hv hg h
  subst e0
  have e : s.schedule[i]? = some v := hv'
  have lv := hl.2 v (List.mem_of_getElem? e)
  have ci : Canon v := ⟨fun x hx => by
    obtain ⟨a1, a2, a3, a4, a5⟩ := lv.wf x hx
    exact ⟨hcl x hx, a2, a3, a4, a5⟩, lv.gap⟩
  have hs : (∀ t, Slot s i t → InExtWindow t w) ↔ w.containsSet v = true := by
    rw [contains_ext hw ci]
    exact ⟨fun h t ht => h t ((slot_get e t).2 ht), fun h t ht => h t ((slot_get e t).1 ht)⟩
  constructor
  · rw [hs]
    constructor
    · rintro ⟨s', h⟩
      by_cases c : w.containsSet v = true
      · exact c
      · rw [retain_test dbg e, if_neg c] at h
        split at h
        · cases h
        · obtain ⟨b, -, h⟩ := bind_ok h
          obtain ⟨d, -, h⟩ := bind_ok h
          cases h
    · intro h
      exact ⟨s, by rw [retain_test dbg e, if_pos h]⟩
  · intro hne
    have ho := overlaps_ext hw ci (fun c hc => hne c hc)
    have conv : (∃ t, Slot s i t ∧ InExtWindow t w) ↔ ∃ t, InExtSet t v ∧ InExtWindow t w := by
      constructor
      · rintro ⟨t, h1, h2⟩; exact ⟨t, (slot_get e t).1 h1, h2⟩
      · rintro ⟨t, h1, h2⟩; exact ⟨t, (slot_get e t).2 h1, h2⟩
    have hs' := contains_ext hw ci
    rw [conv, ← ho]
    constructor
    · rintro ⟨s', h⟩
      rw [retain_test dbg e] at h
      split at h
      · cases h
      · rename_i c
        split at h
        · rename_i c'
          refine ⟨?_, by simpa using c'⟩
          rw [hs'] at c
          apply Classical.byContradiction
          intro hno
          exact c (fun t ht => absurd ⟨t, (slot_get e t).2 ht⟩ hno)
        · obtain ⟨b, -, h⟩ := bind_ok h
          obtain ⟨d, -, h⟩ := bind_ok h
          cases h
    · rintro ⟨⟨t, ht⟩, h⟩
      refine ⟨s, ?_⟩
      rw [retain_test dbg e, if_neg, if_pos (by simpa using h)]
      intro hcont
      exact h (ho.2 ⟨t, (slot_get e t).1 ht, hs'.1 hcont t ((slot_get e t).1 ht)⟩)

/-- The same for `remove` with a window whose finite bounds are not the last ticks: `Ok(Unchanged)` iff no date of the instant is removed,
`Err(Recovered)` iff it has dates and all of them are. -/
theorem C75_reached_clean_remove_partial (dbg : Bool) {dbg' : Bool} {g : Graph} (hv : Valid g) (hg : Spanned g) {s : Sched}
    {P : (Nat → Int) → Prop} (h : Planned dbg' g s P) {i : Nat} (hi : i < g.size) {v : TSet} (hv' : s.scheduling i = some v)
    (hcl : ∀ x ∈ v, x.lower ≤ x.upper) {w : Negatable} (hw : ProperNeg w) {W : Int} (hW : WithinNeg W w) (hW' : W + 1 < INF) :
    ((∃ s', s.remove dbg i w = .ok (s', .unchanged)) ↔ ∀ t, Slot s i t → ¬ InExtNeg t w) ∧
    ((∃ s', s.remove dbg i w = .ok (s', .recovered)) ↔ (∃ t, Slot s i t) ∧ ∀ t, Slot s i t → InExtNeg t w) := by
  obtain ⟨k1, k2, k3⟩ := neg_spec hw hW hW'
  have e : ∀ t, InExtWindow t (.set w.not) ↔ ¬ InExtNeg t w := k3
  obtain ⟨h1, h2⟩ := C75_reached_clean_partial dbg hv hg h hi hv' hcl (w := .set w.not) k1
  have h2 := h2 (fun v hv => by cases hv)
  simp only [e] at h1 h2
  refine ⟨h1, h2.trans (and_congr_right (fun _ => ?_))⟩
  constructor
  · intro h t ht
    exact Classical.byContradiction (fun hn => h ⟨t, ht, hn⟩)
  · rintro h ⟨t, ht, hn⟩
    exact hn (h t ht)

/-- C75 fails whenever the slots of an instant which has dates show an interval `[c, c - 1]`, which has no date. The instant has no date in `[c - 1, c]`, and
yet a request for `[c - 1, c]` is accepted instead of being refused, and leaves it without a date; and if the interval is the last one, all
the dates are before `c - 1`, and yet a request for the dates until `c - 2` is not answered `Unchanged`. -/
theorem C75_reached_violated {dbg : Bool} {g : Graph} (hv : Valid g) (hg : Spanned g) {s : Sched} {P : (Nat → Int) → Prop}
    (h : Planned dbg g s P) {i : Nat} (hi : i < g.size) {v : TSet} (hv' : s.scheduling i = some v) {c : Int} (hc : ⟨c, c - 1⟩ ∈ v)
    (hd : ∃ t, Slot s i t) :
    (¬ ∃ t, Slot s i t ∧ c - 1 ≤ t ∧ t ≤ c) ∧
    (∃ s', s.retain false i (.conv (.iv ⟨c - 1, c⟩)) = .ok (s', .propagated) ∧ (∃ u, s'.scheduling i = some u) ∧ ∀ t, ¬ Slot s' i t) ∧
    (∀ l, v = l ++ [⟨c, c - 1⟩] →
      (∀ t, Slot s i t → t ≤ c - 2) ∧
      ∃ s', s.retain false i (.conv (.iv ⟨-INF, c - 2⟩)) = .ok (s', .propagated)) := by
  obtain ⟨e0, hl, -⟩ := planned_inv hv hg h
  subst e0
  have e : s.schedule[i]? = some v := hv'
  have lv := hl.2 v (List.mem_of_getElem? e)
  obtain ⟨j1, j2, j3, j4, j5⟩ := lv.wf _ hc
  simp only at j1 j2 j3 j4 j5
  have far : ∀ x ∈ v, x = ⟨c, c - 1⟩ ∨ x.upper + 1 < c ∨ c < x.lower := by
    intro x hx
    obtain ⟨n, hn⟩ := List.getElem?_of_mem hx
    obtain ⟨m, hm⟩ := List.getElem?_of_mem hc
    obtain ⟨hn, en⟩ := List.getElem?_eq_some_iff.1 hn
    obtain ⟨hm, em⟩ := List.getElem?_eq_some_iff.1 hm
    have pw := List.pairwise_iff_getElem.1 lv.gap
    rcases Nat.lt_trichotomy n m with q | q | q
    · have := pw n m hn hm q
      rw [en, em] at this
      exact Or.inr (Or.inl this)
    · subst q
      rw [en] at em
      exact Or.inl em
    · have := pw m n hm hn q
      rw [en, em] at this
      simp only at this
      exact Or.inr (Or.inr (by omega))
  have nodate : ¬ ∃ t, Slot s i t ∧ c - 1 ≤ t ∧ t ≤ c := by
    rintro ⟨t, ht, h1, h2⟩
    obtain ⟨x, hx, hin⟩ := (slot_get e t).1 ht
    obtain ⟨k1, k2, k3, k4, k5⟩ := lv.wf x hx
    simp only [InExt] at hin
    rcases far x hx with rfl | q | q
    · simp only at hin
      omega
    · omega
    · omega
  have answer : ∀ u : Iv, WF u → (Window.conv (.iv u)).containsSet v ≠ true → (Window.conv (.iv u)).overlapsSet v = true →
      ∃ s', s.retain false i (.conv (.iv u)) = .ok (s', .propagated) ∧ Retained s s' .propagated i (.conv (.iv u)) := by
    intro u hu h1 h2
    rcases retain_any false hv hg hl hi (w := .conv (.iv u)) (Or.inl hu) with ⟨s', o, e1, R⟩ | ⟨q, -⟩
    · have e2 := e1
      rw [retain_test false e, if_neg h1, if_neg (by rw [h2]; decide)] at e2
      obtain ⟨b, -, e2⟩ := bind_ok e2
      obtain ⟨d, -, e2⟩ := bind_ok e2
      cases e2
      exact ⟨_, e1, R⟩
    · cases q
  obtain ⟨t, ht⟩ := hd
  obtain ⟨x, hx, hin⟩ := (slot_get e t).1 ht
  obtain ⟨k1, k2, k3, k4, k5⟩ := lv.wf x hx
  refine ⟨nodate, ?_, fun l hl' => ?_⟩
  · have hu : WF ⟨c - 1, c⟩ := ⟨by simp only; omega, by simp only; omega, by simp only; omega, by simp only; omega, by simp only; omega⟩
    have noext : ∀ t, Slot s i t → ¬ InExtWindow t (.conv (.iv ⟨c - 1, c⟩)) := by
      intro t ht hw
      have hw : InExt t ⟨c - 1, c⟩ := hw
      simp only [InExt] at hw
      exact nodate ⟨t, ht, by omega, by omega⟩
    obtain ⟨s', e1, R⟩ := answer ⟨c - 1, c⟩ hu
      (fun hcon => noext t ht (contains_loose (w := .conv (.iv ⟨c - 1, c⟩)) (Or.inl hu) lv hcon t ((slot_get e t).1 ht)))
      (overlaps_loose lv ⟨_, hc, by show c - 1 ≥ c - 1; omega, by show c ≤ c; omega⟩)
    refine ⟨s', e1, ?_, fun t ht => noext t (R.sub i t ht) (R.inside (by decide) t ht)⟩
    have : i < s'.schedule.length := by rw [R.loose.1, R.graph]; exact hi
    exact ⟨_, List.getElem?_eq_getElem this⟩
  · have before : ∀ y ∈ v, y = ⟨c, c - 1⟩ ∨ y.upper + 1 < c := by
      intro y hy
      rw [hl'] at hy
      rcases List.mem_append.1 hy with hy | hy
      · have := (List.pairwise_append.1 (hl' ▸ lv.gap)).2.2 y hy ⟨c, c - 1⟩ (by simp)
        exact Or.inr this
      · exact Or.inl (by simpa using hy)
    have dates : ∀ t, Slot s i t → t ≤ c - 2 := by
      intro t ht
      obtain ⟨y, hy, hin⟩ := (slot_get e t).1 ht
      obtain ⟨k1, k2, k3, k4, k5⟩ := lv.wf y hy
      simp only [InExt] at hin
      rcases before y hy with rfl | q
      · simp only at hin
        omega
      · omega
    have ht' := dates t ht
    simp only [InExt] at hin
    have hx' : x.upper + 1 < c := by
      rcases before x hx with rfl | q
      · simp only at hin
        omega
      · exact q
    have hlt : -INF < c - 2 := by omega
    refine ⟨dates, ?_⟩
    obtain ⟨s', e1, -⟩ := answer ⟨-INF, c - 2⟩
      ⟨by simp only; omega, by simp only; omega, by simp only; omega, by simp only; decide, by simp only; omega⟩
      (fun hcon => by
        have hcon : (Convex.iv ⟨-INF, c - 2⟩).containsSet v = true := hcon
        simp only [Convex.containsSet, Convex.containsBounds, Bool.and_eq_true, decide_eq_true_eq] at hcon
        have q1 := (loose_bounds lv _ hc).2
        have q2 : TSet.upperBound v ≤ c - 2 := hcon.2
        simp only at q1
        omega)
      (overlaps_loose lv ⟨x, hx, by show x.upper ≥ -INF; omega, by show x.lower ≤ c - 2; omega⟩)
    exact ⟨s', e1⟩

/-- The hypotheses: two accepted requests leave `[0, 4]` and `[10, 9]` in the slots of instant 1, and those of instant 0 show dates only. -/
example : ∃ s P, Planned false exGraph s P ∧ Valid exGraph ∧ Spanned exGraph ∧ s.scheduling 1 = some ([⟨0, 4⟩] ++ [⟨10, 10 - 1⟩]) ∧
    (∃ t, Slot s 1 t) ∧ s.scheduling 0 = some [⟨-20, -1⟩] ∧ ProperWindow (.conv (.iv ⟨9, 10⟩)) ∧
    s.retain true 1 (.conv (.iv ⟨20, 30⟩)) = .ok (s, .recovered) ∧ ProperNeg (.iv ⟨-20, -1⟩) ∧
    WithinNeg 20 (.iv ⟨-20, -1⟩) ∧ (20 : Int) + 1 < INF ∧
    s.remove true 0 (.iv ⟨-20, -1⟩) = .ok (s, .recovered) ∧ s.remove true 0 (.iv ⟨0, 5⟩) = .ok (s, .unchanged) := by
  have a0 := Planned.new (dbg := false) (g := exGraph)
  have a1 := a0.accepted (r := .retain 1 (.conv (.iv ⟨0, 9⟩))) (o := .propagated)
    (s' := ⟨exGraph, [[⟨-20, -1⟩], [⟨0, 9⟩], [⟨5, 15⟩]]⟩)
    (by unfold Req.Proper; decide) (by unfold Req.run; decide +kernel) (Or.inr rfl)
  have a2 := a1.accepted (r := .remove 1 (.iv ⟨5, 9⟩)) (o := .propagated)
    (s' := ⟨exGraph, [[⟨-20, -1⟩], [⟨0, 4⟩, ⟨10, 9⟩], [⟨5, 10⟩, ⟨15, 15⟩]]⟩)
    (by unfold Req.Proper; decide) (by unfold Req.run; decide +kernel) (Or.inr rfl)
  exact ⟨_, _, a2, exGraph_valid, exGraph_spanned, rfl, ⟨3, _, rfl, ⟨0, 4⟩, by simp, by decide⟩, rfl, by decide, by decide +kernel,
    by decide, by simp [WithinNeg, WithinSet], by decide, by decide +kernel, by decide +kernel⟩

end Chrono
