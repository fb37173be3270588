import Verif.Lemmas.SchedAny
import Verif.Props.SchedConvex
import Verif.Props.GraphHistory

/-!
# A schedule means exactly what its whole history says
-/

namespace Chrono
open Spec

/-- the result of a request on a schedule which may contain junk -/
structure Served (s s' : Sched) (o : Outcome) (r : Req) : Prop where
  graph : s'.graph = s.graph
  loose : LooseSched s'
  fatal : o ≠ .fatal
  refused : o = .recovered → s' = s ∧ ¬ ∃ τ, FiniteDates s.graph.size τ ∧ Feasible τ s ∧ r.Allows s.graph.size τ
  exact : o ≠ .recovered → ∀ τ, FiniteDates s.graph.size τ → (Feasible τ s' ↔ Feasible τ s ∧ r.Allows s.graph.size τ)

theorem served_retain {s s' : Sched} {o : Outcome} {i : Nat} {w : Window} (hi : i < s.graph.size) (R : Retained s s' o i w) {r : Req}
    (hr : ∀ τ, FiniteDates s.graph.size τ → (r.Allows s.graph.size τ ↔ InExtWindow (τ i) w)) : Served s s' o r := by
  refine ⟨R.graph, R.loose, R.fatal, fun h => ⟨R.same (Or.inl h), ?_⟩, fun h τ hf => ?_⟩
  · rintro ⟨τ, hf, hτ, ha⟩
    exact R.refused h ⟨τ i, hτ.2 i hi, (hr τ hf).1 ha⟩
  · rw [hr τ hf]
    constructor
    · rintro ⟨h1, h2⟩
      rw [R.graph] at h1 h2
      exact ⟨⟨h1, fun j hj => R.sub j _ (h2 j hj)⟩, R.inside h _ (h2 i hi)⟩
    · rintro ⟨⟨h1, h2⟩, h3⟩
      exact ⟨by rw [R.graph]; exact h1, by rw [R.graph]; exact R.keep τ hf h1 h2 h3⟩

theorem req_any (dbg : Bool) {s : Sched} (hv : Valid s.graph) (hs : Spanned s.graph) (hc : LooseSched s) {r : Req}
    (hr : r.Proper s.graph.size) :
    (∃ s' o, r.run dbg s = .ok (s', o) ∧ Served s s' o r) ∨
    (r.run dbg s = .error .unwrapNone ∧ ¬ ∃ τ, FiniteDates s.graph.size τ ∧ Feasible τ s ∧ r.Allows s.graph.size τ) ∨
    (dbg = true ∧ r.run dbg s = .error .debugAssert) := by
  have hmem : ∀ i, i ∈ List.range s.schedule.length ↔ i < s.graph.size := by
    intro i; rw [List.mem_range, hc.1]
  have line : ∀ (w : Convex) (r : Req), Proper w → r.run dbg s = s.retainAll dbg (.conv w) →
      (∀ τ, FiniteDates s.graph.size τ → (r.Allows s.graph.size τ ↔ ∀ j, j < s.graph.size → InExtConvex (τ j) w)) →
      (∃ s' o, r.run dbg s = .ok (s', o) ∧ Served s s' o r) ∨
      (r.run dbg s = .error .unwrapNone ∧ ¬ ∃ τ, FiniteDates s.graph.size τ ∧ Feasible τ s ∧ r.Allows s.graph.size τ) ∨
      (dbg = true ∧ r.run dbg s = .error .debugAssert) := by
    intro w r hw e ha
    rw [e]
    rcases retainAll_any dbg hw (List.range s.schedule.length) s .unchanged hv hs hc (fun i hi => (hmem i).1 hi) (by decide) (by decide) with
      ⟨s', o, b1, b2, bl, b3, b4, b5, b6⟩ | ⟨b1, b2⟩ | b
    · left
      refine ⟨s', o, b1, b2, bl, b4, fun h => absurd h b3, fun _ τ hf => ?_⟩
      rw [ha τ hf]
      constructor
      · rintro ⟨h1, h2⟩
        rw [b2] at h1 h2
        exact ⟨⟨h1, fun j hj => (b5 j _ (h2 j hj)).1⟩, fun j hj => (b5 j _ (h2 j hj)).2 ((hmem j).2 hj)⟩
      · rintro ⟨h1, h2⟩
        exact b6 τ hf h1 (fun j hj => h2 j ((hmem j).1 hj))
    · right; left
      refine ⟨b1, ?_⟩
      rintro ⟨τ, hf, hτ, h⟩
      exact b2 ⟨τ, hf, hτ, fun j hj => (ha τ hf).1 h j ((hmem j).1 hj)⟩
    · exact Or.inr (Or.inr b)
  have early : ∀ (r : Req), r.run dbg s = .ok (s, .recovered) →
      (∀ τ, FiniteDates s.graph.size τ → r.Allows s.graph.size τ → ∃ w ∈ s.schedule, ∀ j, s.schedule[j]? = some w → ¬ InExtSet (τ j) w) →
      ∃ s' o, r.run dbg s = .ok (s', o) ∧ Served s s' o r := by
    intro r e h
    refine ⟨s, _, e, rfl, hc, by decide, fun _ => ⟨rfl, ?_⟩, fun h => absurd rfl h⟩
    rintro ⟨τ, hf, hτ, ha⟩
    obtain ⟨w, hw, hn⟩ := h τ hf ha
    obtain ⟨j, hj⟩ := List.mem_iff_getElem?.1 hw
    have hl : j < s.graph.size := by
      rw [List.getElem?_eq_some_iff] at hj
      rw [← hc.1]; exact hj.1
    have hin := hτ.2 j hl
    rw [slot_get hj] at hin
    exact hn j hj hin
  cases r with
  | retain i w =>
    rcases retain_any dbg hv hs hc hr.1 hr.2 with ⟨s', o, e, R⟩ | h
    · exact Or.inl ⟨s', o, e, served_retain hr.1 R (fun _ _ => Iff.rfl)⟩
    · exact Or.inr (Or.inr h)
  | remove i w =>
    obtain ⟨n1, n2⟩ := neg_any hr.2
    rcases retain_any dbg hv hs hc hr.1 (w := .set w.not) n1 with ⟨s', o, e, R⟩ | h
    · exact Or.inl ⟨s', o, e, served_retain hr.1 R (fun τ hf => (n2 _ (hf i hr.1)).symm)⟩
    · exact Or.inr (Or.inr h)
  | deadline d =>
    have hr : -INF < d ∧ d ≤ INF := hr
    by_cases c : s.schedule.any (fun tw => decide (TSet.lowerBound tw > d)) = true
    · left
      refine early _ (by show Sched.setDeadline _ _ _ = _; unfold Sched.setDeadline; rw [if_pos c]) (fun τ hf ha => ?_)
      obtain ⟨w, hw, hlt⟩ := List.any_eq_true.1 c
      have hlt : d < TSet.lowerBound w := of_decide_eq_true hlt
      refine ⟨w, hw, fun j hj => ?_⟩
      rintro ⟨x, hx, hin⟩
      have hl : j < s.graph.size := by
        rw [List.getElem?_eq_some_iff] at hj
        rw [← hc.1]; exact hj.1
      have hb := (loose_bounds (hc.2 w hw) x hx).1
      have := ha j hl
      simp only [InExt] at hin
      omega
    · refine line (.rangeToIncl d) _ hr (by show Sched.setDeadline _ _ _ = _; unfold Sched.setDeadline; rw [if_neg c]) (fun τ hf => ?_)
      refine ⟨fun h j hj => Or.inr (h j hj), fun h j hj => ?_⟩
      have := hf j hj
      rcases h j hj with e | e
      · ticks
      · exact e
  | startline d =>
    have hr : -INF ≤ d ∧ d < INF := hr
    by_cases c : s.schedule.any (fun tw => decide (TSet.upperBound tw < d)) = true
    · left
      refine early _ (by show Sched.setStartline _ _ _ = _; unfold Sched.setStartline; rw [if_pos c]) (fun τ hf ha => ?_)
      obtain ⟨w, hw, hlt⟩ := List.any_eq_true.1 c
      have hlt : TSet.upperBound w < d := of_decide_eq_true hlt
      refine ⟨w, hw, fun j hj => ?_⟩
      rintro ⟨x, hx, hin⟩
      have hl : j < s.graph.size := by
        rw [List.getElem?_eq_some_iff] at hj
        rw [← hc.1]; exact hj.1
      have hb := (loose_bounds (hc.2 w hw) x hx).2
      have := ha j hl
      simp only [InExt] at hin
      omega
    · refine line (.rangeFrom d) _ hr (by show Sched.setStartline _ _ _ = _; unfold Sched.setStartline; rw [if_neg c]) (fun τ hf => ?_)
      refine ⟨fun h j hj => Or.inr (h j hj), fun h j hj => ?_⟩
      have := hf j hj
      rcases h j hj with e | e
      · ticks
      · exact e

theorem planned_inv {dbg : Bool} {g : Graph} (hv : Valid g) (hs : Spanned g) {s : Sched} {P : (Nat → Int) → Prop} (h : Planned dbg g s P) :
    s.graph = g ∧ LooseSched s ∧ ∀ τ, FiniteDates g.size τ → (Feasible τ s ↔ Sat τ g ∧ P τ) := by
  induction h with
  | new => exact ⟨rfl, new_loose g, fun τ _ => by rw [new_feasible]; exact (and_iff_left trivial).symm⟩
  | @accepted s P r s' o _ hr e ho ih =>
    obtain ⟨e0, hl, h⟩ := ih
    subst e0
    rcases req_any dbg hv hs hl hr with ⟨s1, o1, e1, S⟩ | ⟨e1, -⟩ | ⟨-, e1⟩ <;> rw [e] at e1 <;> cases e1
    refine ⟨S.graph, S.loose, fun τ hf => ?_⟩
    rw [S.exact (by rintro rfl; rcases ho with ho | ho <;> cases ho) τ hf, h τ hf, and_assoc]
  | @refused s P r s' o _ hr e ho ih =>
    obtain ⟨e0, hl, h⟩ := ih
    subst e0
    rcases req_any dbg hv hs hl hr with ⟨s1, o1, e1, S⟩ | ⟨e1, -⟩ | ⟨-, e1⟩ <;> rw [e] at e1 <;> cases e1
    have := S.refused (ho.resolve_right S.fatal)
    rw [this.1]
    exact ⟨rfl, hl, h⟩

theorem spanned_of_representable {N : Nat} {g : Graph} (hN : g.size ≤ N) (hw : Within INF g) (h : ∃ τ, Representable N τ ∧ Sat τ g) :
    Spanned g := by
  obtain ⟨τ, hr, hτ⟩ := h
  intro i j hi hj s e
  obtain ⟨s', e', hin⟩ := hτ i j hi hj
  rw [e] at e'
  cases e'
  have := hw i j hi hj s e
  have := hr i j (by omega) (by omega)
  simp only [InExt] at hin
  constructor <;> ticks

/-! ## C115 -/

/-- C115. After any history of requests with windows of any kind, whatever their bounds and those of the graph, the assignments of finite
dates which satisfy the graph and are within the slots are exactly those which satisfy the graph and all the accepted requests. -/
theorem C115_solutions {dbg : Bool} {g : Graph} (hv : Valid g) (hs : Spanned g) {s : Sched} {P : (Nat → Int) → Prop}
    (h : Planned dbg g s P) (τ : Nat → Int) (hτ : FiniteDates g.size τ) :
    (Sat τ g ∧ ∀ i, i < g.size → ∃ w, s.scheduling i = some w ∧ InExtSet (τ i) w) ↔ Sat τ g ∧ P τ := by
  obtain ⟨e, -, h⟩ := planned_inv hv hs h
  rw [← h τ hτ, Feasible, e]
  rfl

/-- C115. After any history, in a release build, a request compatible with the graph and the accepted requests is accepted; a refused one
changes nothing and is incompatible; a request can panic only in `set_deadline` and `set_startline`, if it is incompatible. A debug build
may also fail a debug assertion. -/
theorem C115_next {dbg : Bool} {g : Graph} (hv : Valid g) (hs : Spanned g) {s : Sched} {P : (Nat → Int) → Prop} (h : Planned dbg g s P)
    {r : Req} (hr : r.Proper g.size) :
    (dbg = false → (∃ τ, FiniteDates g.size τ ∧ Sat τ g ∧ P τ ∧ r.Allows g.size τ) →
      ∃ s' o, r.run dbg s = .ok (s', o) ∧ (o = .unchanged ∨ o = .propagated)) ∧
    (∀ s' o, r.run dbg s = .ok (s', o) → o = .recovered ∨ o = .fatal →
      s' = s ∧ ¬ ∃ τ, FiniteDates g.size τ ∧ Sat τ g ∧ P τ ∧ r.Allows g.size τ) ∧
    (∀ e, r.run dbg s = .error e →
      (e = .unwrapNone ∧ (∃ d, r = .deadline d ∨ r = .startline d) ∧
        ¬ ∃ τ, FiniteDates g.size τ ∧ Sat τ g ∧ P τ ∧ r.Allows g.size τ) ∨
      (e = .debugAssert ∧ dbg = true)) := by
  obtain ⟨e0, hl, h⟩ := planned_inv hv hs h
  subst e0
  have tr : (∃ τ, FiniteDates s.graph.size τ ∧ Feasible τ s ∧ r.Allows s.graph.size τ) ↔
      ∃ τ, FiniteDates s.graph.size τ ∧ Sat τ s.graph ∧ P τ ∧ r.Allows s.graph.size τ := by
    constructor
    · rintro ⟨τ, a, b, c⟩
      have b := (h τ a).1 b
      exact ⟨τ, a, b.1, b.2, c⟩
    · rintro ⟨τ, a, b, c, d⟩
      exact ⟨τ, a, (h τ a).2 ⟨b, c⟩, d⟩
  have R := req_any dbg hv hs hl hr
  rw [tr] at R
  have kind : r.run dbg s = .error .unwrapNone → ∃ d, r = .deadline d ∨ r = .startline d := by
    intro e
    cases r with
    | deadline d => exact ⟨d, Or.inl rfl⟩
    | startline d => exact ⟨d, Or.inr rfl⟩
    | retain i w =>
      rcases retain_any dbg hv hs hl hr.1 hr.2 with ⟨s', o, e', -⟩ | ⟨-, e'⟩
      · rw [show s.retain dbg i w = .error .unwrapNone from e] at e'; cases e'
      · rw [show s.retain dbg i w = .error .unwrapNone from e] at e'; cases e'
    | remove i w =>
      rcases retain_any dbg hv hs hl hr.1 (w := .set w.not) (neg_any hr.2).1 with ⟨s', o, e', -⟩ | ⟨-, e'⟩
      · rw [show s.retain dbg i (.set w.not) = .error .unwrapNone from e] at e'; cases e'
      · rw [show s.retain dbg i (.set w.not) = .error .unwrapNone from e] at e'; cases e'
  rcases R with ⟨s1, o1, e1, S⟩ | ⟨e1, n⟩ | ⟨d1, e1⟩
  · have ref := S.refused
    rw [tr] at ref
    refine ⟨fun _ c => ⟨s1, o1, e1, ?_⟩, fun s' o e ho => ?_, fun e h => by rw [e1] at h; cases h⟩
    · have f := S.fatal
      cases o1 with
      | unchanged => exact Or.inl rfl
      | propagated => exact Or.inr rfl
      | recovered => exact absurd c (ref rfl).2
      | fatal => exact absurd rfl f
    · rw [e1] at e
      cases e
      exact ref (ho.resolve_right S.fatal)
  · refine ⟨fun _ c => absurd c n, fun s' o e => (by rw [e1] at e; cases e), fun e h => ?_⟩
    rw [e1] at h
    cases h
    exact Or.inl ⟨rfl, kind e1, n⟩
  · refine ⟨fun d => (by rw [d1] at d; cases d), fun s' o e => (by rw [e1] at e; cases e), fun e h => ?_⟩
    rw [e1] at h
    cases h
    exact Or.inr ⟨rfl, d1⟩

/-- C115. From the first constraint to the last window: on a graph with any history, as long as it has a solution, a schedule with any
history has exactly the solutions which satisfy both histories. -/
theorem C115_end_to_end {N : Nat} (hN : N ≤ 65535) {g : Graph} {Q : (Nat → Int) → Prop} (hg : Built N g Q)
    (hq : ∃ τ, Representable N τ ∧ Q τ) {dbg : Bool} {s : Sched} {P : (Nat → Int) → Prop} (h : Planned dbg g s P) (τ : Nat → Int)
    (h1 : Representable N τ) (h2 : FiniteDates g.size τ) :
    (∀ i, i < g.size → ∃ w, s.scheduling i = some w ∧ InExtSet (τ i) w) ∧
      (∀ i j, i < g.size → j < g.size → ∃ sp, g.timespan i j = .ok sp ∧ InExt (τ j - τ i) sp) ↔ Q τ ∧ P τ := by
  have I := built_inv hN hg
  have hs : Spanned g := spanned_of_representable I.size I.within (hq.imp fun τ ⟨a, b⟩ => ⟨a, (I.sat τ a).2 b⟩)
  have := C115_solutions I.valid hs h τ h2
  rw [I.sat τ h1] at this
  rw [show (∀ i j, i < g.size → j < g.size → ∃ sp, g.timespan i j = .ok sp ∧ InExt (τ j - τ i) sp) ↔ Q τ from I.sat τ h1]
  rw [and_comm]
  exact this

/-- on delays near the limits of `i64`: a window, a hole, a refused window and a deadline -/
example : ∃ s P, Planned false exLimit s P ∧ Valid exLimit ∧ Spanned exLimit ∧
    (∃ τ, FiniteDates exLimit.size τ ∧ Sat τ exLimit ∧ P τ) ∧ ¬ P (fun _ => 3) := by
  have hv : Valid exLimit := by decide
  have a0 := Planned.new (dbg := false) (g := exLimit)
  have a1 := a0.accepted (r := .retain 0 (.conv (.iv ⟨-1, 1⟩))) (o := .propagated)
    (s' := ⟨exLimit, [[⟨-1, 1⟩], [⟨-INF, -INF + 2⟩], [⟨-INF, INF⟩]]⟩) (by unfold Req.Proper; decide) (by unfold Req.run; decide +kernel)
    (Or.inr rfl)
  have a2 := a1.accepted (r := .remove 2 (.iv ⟨3, 4⟩)) (o := .propagated)
    (s' := ⟨exLimit, [[⟨-1, 1⟩], [⟨-INF, -INF + 2⟩], [⟨-INF, 2⟩, ⟨5, INF⟩]]⟩) (by unfold Req.Proper; decide) (by unfold Req.run; decide +kernel)
    (Or.inr rfl)
  have a3 := a2.refused (r := .retain 0 (.conv (.iv ⟨5, 6⟩))) (o := .recovered)
    (s' := ⟨exLimit, [[⟨-1, 1⟩], [⟨-INF, -INF + 2⟩], [⟨-INF, 2⟩, ⟨5, INF⟩]]⟩) (by unfold Req.Proper; decide) (by unfold Req.run; decide +kernel)
    (Or.inl rfl)
  have a4 := a3.accepted (r := .deadline 10) (o := .propagated)
    (s' := ⟨exLimit, [[⟨-1, 1⟩], [⟨-INF, -INF + 2⟩], [⟨-INF, 2⟩, ⟨5, 10⟩]]⟩) (by unfold Req.Proper; decide) (by unfold Req.run; decide +kernel)
    (Or.inr rfl)
  have hsat : Sat exLimitSol exLimit := by
    rw [sat_iff hv]
    have : ∀ i j : Fin 3, mat exLimit i j = -INF ∨ mat exLimit i j ≤ exLimitSol j - exLimitSol i := by decide
    exact fun i hi j hj => this ⟨i, hi⟩ ⟨j, hj⟩
  have hrep : Representable 3 exLimitSol := by
    have : ∀ i j : Fin 3, -INF < exLimitSol j - exLimitSol i ∧ exLimitSol j - exLimitSol i < INF := by decide
    exact fun i j hi hj => this ⟨i, hi⟩ ⟨j, hj⟩
  refine ⟨_, _, a4, hv, spanned_of_representable (Nat.le_refl 3) ?_ ⟨exLimitSol, hrep, hsat⟩, ⟨exLimitSol, ?_, hsat, ?_⟩, ?_⟩
  · rw [within_iff hv]
    have : ∀ i j : Fin 3, Small INF (mat exLimit i j) := by unfold Small; decide
    exact fun i hi j hj => this ⟨i, hi⟩ ⟨j, hj⟩
  · have : ∀ i : Fin 3, Date (exLimitSol i) := by decide
    exact fun i hi => this ⟨i, hi⟩
  · refine ⟨⟨⟨trivial, ?_⟩, ?_⟩, ?_⟩
    · simp only [Req.Allows]; decide
    · simp only [Req.Allows]; decide
    · have : ∀ i : Fin 3, exLimitSol i ≤ 10 := by decide
      exact fun i hi => this ⟨i, hi⟩
  · rintro ⟨⟨-, h⟩, -⟩
    simp only [Req.Allows] at h
    exact h (by decide)

end Chrono
