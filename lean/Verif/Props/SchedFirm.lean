import Verif.Lemmas.SchedInside
import Verif.Props.Rename
import Verif.Props.GraphAny

/-!
# C127: an answer is final
-/

set_option linter.unusedSimpArgs false

namespace Chrono
open Spec

theorem retain_refused {dbg : Bool} {s s' : Sched} (hv : Valid s.graph) (hs : Spanned s.graph) (hc : LooseSched s)
    (hl : Later dbg s.graph.size s s') {i : Nat} (hi : i < s.graph.size) {w : Window} (hw : ProperWindow w) {s1 : Sched}
    (h : s.retain dbg i w = .ok (s1, .recovered)) (hd : ∃ t, Slot s' i t) : s'.retain dbg i w = .ok (s', .recovered) := by
  obtain ⟨g', l', ins⟩ := later_inside hv hs hc hl
  obtain ⟨t, v, ev, ht⟩ := hd
  have ev : s'.schedule[i]? = some v := ev
  obtain ⟨u, eu, hin⟩ := ins i v ev
  have lv := l'.2 v (List.mem_of_getElem? ev)
  have lu := hc.2 u (List.mem_of_getElem? eu)
  have no : w.overlapsSet u = false := by
    rcases retain_any dbg hv hs hc hi hw with ⟨s2, o2, e2, R⟩ | ⟨-, e2⟩
    · rw [retain_test dbg eu] at h
      split at h
      · cases h
      split at h
      · rename_i c; simpa using c
      · exfalso
        cases k1 : w.restrict u with
        | error => rw [k1] at h; cases h
        | ok r =>
          rw [k1, ok_bind] at h
          cases k2 : Sched.propagateScheduling dbg { s with schedule := s.schedule.set i r } i with
          | error => rw [k2] at h; cases h
          | ok q => rw [k2] at h; cases h
    · rw [h] at e2; cases e2
  have no' : w.overlapsSet v = false := by
    rw [← Bool.not_eq_true] at no ⊢
    exact fun c => no (inside_overlaps hw lv lu hin c)
  have nc : ¬ w.containsSet v = true := fun c => by
    have := overlaps_any hw lv ht (contains_loose hw lv c t ht)
    rw [no'] at this
    cases this
  rw [retain_test dbg ev, if_neg nc, no']
  rfl

/-- C127: a request which has been refused will be refused whenever it is made again, whatever has been requested meanwhile, as long as each
instant has a date left. -/
theorem C127_refused {dbg : Bool} {g : Graph} (hv : Valid g) (hs : Spanned g) {s : Sched} {P : (Nat → Int) → Prop} (h : Planned dbg g s P)
    {r : Req} (hr : r.Proper g.size) {s1 : Sched} (he : r.run dbg s = .ok (s1, .recovered)) {s' : Sched} (hl : Later dbg g.size s s')
    (hd : ∀ i, i < g.size → ∃ t, Slot s' i t) : r.run dbg s' = .ok (s', .recovered) := by
  obtain ⟨e0, hc, -⟩ := planned_inv hv hs h
  subst e0
  obtain ⟨g', l', ins⟩ := later_inside hv hs hc hl
  have back : ∀ u ∈ s.schedule, ∃ v ∈ s'.schedule, Inside v u := by
    intro u hu
    obtain ⟨j, hj⟩ := List.mem_iff_getElem?.1 hu
    have lj : j < s'.schedule.length := by
      rw [l'.1, g', ← hc.1]; exact (List.getElem?_eq_some_iff.1 hj).1
    obtain ⟨w, hw, hin⟩ := ins j _ (List.getElem?_eq_getElem lj)
    rw [hj] at hw
    cases hw
    exact ⟨_, List.getElem_mem lj, hin⟩
  have never : ∀ w : Convex, Proper w → s.retainAll dbg (.conv w) ≠ .ok (s1, .recovered) := by
    intro w hw hn
    rcases retainAll_any dbg hw (List.range s.schedule.length) s .unchanged hv hs hc
      (fun i hi => by rw [← hc.1]; exact List.mem_range.1 hi) (by decide) (by decide) with ⟨s2, o, b1, -, -, b3, -⟩ | ⟨b1, -⟩ | ⟨-, b1⟩
    · have b1 := hn.symm.trans b1; cases b1; exact b3 rfl
    · have b1 := hn.symm.trans b1; cases b1
    · have b1 := hn.symm.trans b1; cases b1
  cases r with
  | retain i w => exact retain_refused hv hs hc hl hr.1 hr.2 he (hd i hr.1)
  | remove i w => exact retain_refused hv hs hc hl hr.1 (w := .set w.not) (neg_any hr.2).1 he (hd i hr.1)
  | deadline d =>
    change Sched.setDeadline dbg s d = _ at he
    show Sched.setDeadline dbg s' d = _
    unfold Sched.setDeadline at *
    split at he
    · rename_i c
      obtain ⟨u, hu, hlt⟩ := List.any_eq_true.1 c
      obtain ⟨v, hv', hin⟩ := back u hu
      have := inside_lower (hc.2 u hu) hin
      have hlt : d < TSet.lowerBound u := of_decide_eq_true hlt
      rw [if_pos (List.any_eq_true.2 ⟨v, hv', decide_eq_true (by omega)⟩)]
    · exact absurd he (never (.rangeToIncl d) hr)
  | startline d =>
    change Sched.setStartline dbg s d = _ at he
    show Sched.setStartline dbg s' d = _
    unfold Sched.setStartline at *
    split at he
    · rename_i c
      obtain ⟨u, hu, hlt⟩ := List.any_eq_true.1 c
      obtain ⟨v, hv', hin⟩ := back u hu
      have := inside_upper (hc.2 u hu) hin
      have hlt : TSet.upperBound u < d := of_decide_eq_true hlt
      rw [if_pos (List.any_eq_true.2 ⟨v, hv', decide_eq_true (by omega)⟩)]
    · exact absurd he (never (.rangeFrom d) hr)

theorem retain_kept {dbg : Bool} {s s1 s' : Sched} {o : Outcome} (hv : Valid s.graph) (hs : Spanned s.graph) (hc : LooseSched s)
    {i : Nat} (hi : i < s.graph.size) {w : Window} (hw : ProperWindow w) (h : s.retain dbg i w = .ok (s1, o)) (ho : o ≠ .recovered)
    (hl : Later dbg s.graph.size s1 s') (hset : ∀ q, w = .set q → ∃ v, s'.scheduling i = some v ∧ Canon v) :
    s'.retain dbg i w = .ok (s', .unchanged) := by
  rcases retain_any dbg hv hs hc hi hw with ⟨s2, o2, e2, R⟩ | ⟨-, e2⟩
  · rw [h] at e2
    cases e2
    have hv1 : Valid s1.graph := by rw [R.graph]; exact hv
    have hs1 : Spanned s1.graph := by rw [R.graph]; exact hs
    rw [← R.graph] at hl
    obtain ⟨g', l', ins⟩ := later_inside hv1 hs1 R.loose hl
    have li : i < s'.schedule.length := by rw [l'.1, g', R.graph]; exact hi
    have ev : s'.schedule[i]? = some s'.schedule[i] := List.getElem?_eq_getElem li
    generalize s'.schedule[i] = v at ev
    obtain ⟨u, eu, hin⟩ := ins i v ev
    have lv := l'.2 v (List.mem_of_getElem? ev)
    have lu := R.loose.2 u (List.mem_of_getElem? eu)
    have yes : w.containsSet v = true := by
      cases w with
      | conv c => exact contains_inside lu hin ((retain_inside hv hs hc hi hw h).2 ho c rfl u eu)
      | set q =>
        obtain ⟨v', e', cv⟩ := hset q rfl
        have e' : s'.schedule[i]? = some v' := e'
        rw [ev] at e'
        cases e'
        exact (contains_ext hw cv).2 fun t ht => R.inside ho t ⟨u, eu, inside_slot lv lu hin ht⟩
    rw [retain_test dbg ev, if_pos yes]
  · rw [h] at e2; cases e2

/-- C127: a request which has been accepted will be answered `Unchanged` whenever it is made again, and change nothing, whatever has been
requested meanwhile, as long as each instant has a date left. For a request which keeps or removes a set: if the intervals left for its
instant are in canonical form. -/
theorem C127_kept_partial {dbg : Bool} {g : Graph} (hv : Valid g) (hs : Spanned g) {s : Sched} {P : (Nat → Int) → Prop} (h : Planned dbg g s P)
    {r : Req} (hr : r.Proper g.size) {s1 : Sched} {o : Outcome} (he : r.run dbg s = .ok (s1, o)) (ho : o = .unchanged ∨ o = .propagated)
    {s' : Sched} (hl : Later dbg g.size s1 s') (hd : ∀ i, i < g.size → ∃ t, Slot s' i t)
    (hset : ∀ i, (∃ q, r = .retain i (.set q)) ∨ (∃ q, r = .remove i q) → ∃ v, s'.scheduling i = some v ∧ Canon v) :
    r.run dbg s' = .ok (s', .unchanged) := by
  obtain ⟨e0, hc, -⟩ := planned_inv hv hs h
  subst e0
  have ho : o ≠ .recovered := by rintro rfl; rcases ho with h | h <;> cases h
  have line : ∀ w : Convex, (∀ x ∈ s1.schedule, w.containsSet x = true) → ∀ x ∈ s'.schedule, w.containsSet x = true := by
    intro w hw x hx
    rcases req_any dbg hv hs hc hr with ⟨s2, o2, e2, S⟩ | ⟨e2, -⟩ | ⟨-, e2⟩ <;> rw [he] at e2 <;> cases e2
    have hv1 : Valid s1.graph := by rw [S.graph]; exact hv
    have hs1 : Spanned s1.graph := by rw [S.graph]; exact hs
    rw [← S.graph] at hl
    obtain ⟨g', l', ins⟩ := later_inside hv1 hs1 S.loose hl
    obtain ⟨j, hj⟩ := List.mem_iff_getElem?.1 hx
    obtain ⟨u, eu, hin⟩ := ins j x hj
    exact contains_inside (S.loose.2 u (List.mem_of_getElem? eu)) hin (hw u (List.mem_of_getElem? eu))
  have dates : ∀ x ∈ s'.schedule, ∃ y ∈ x, y.lower ≤ y.upper := by
    intro x hx
    rcases req_any dbg hv hs hc hr with ⟨s2, o2, e2, S⟩ | ⟨e2, -⟩ | ⟨-, e2⟩ <;> rw [he] at e2 <;> cases e2
    have hv1 : Valid s1.graph := by rw [S.graph]; exact hv
    have hs1 : Spanned s1.graph := by rw [S.graph]; exact hs
    rw [← S.graph] at hl
    obtain ⟨g', l', -⟩ := later_inside hv1 hs1 S.loose hl
    obtain ⟨j, hj⟩ := List.mem_iff_getElem?.1 hx
    obtain ⟨t, v, ev, y, hy, hin⟩ := hd j (by rw [← S.graph, ← g', ← l'.1]; exact (List.getElem?_eq_some_iff.1 hj).1)
    have ev : s'.schedule[j]? = some v := ev
    rw [hj] at ev
    cases ev
    refine ⟨y, hy, ?_⟩
    have := (l'.2 x hx).wf y hy
    have a := this.hi
    have b := this.lo
    have c := this.lo_lt
    have d := this.lt_hi
    simp only [InExt] at hin
    omega
  have bnd := (req_inside hv hs hc hr he).2 ho
  have lo : ∀ x ∈ s'.schedule, TSet.lowerBound x ≤ TSet.upperBound x := by
    intro x hx
    obtain ⟨y, hy, h⟩ := dates x hx
    rcases req_any dbg hv hs hc hr with ⟨s2, o2, e2, S⟩ | ⟨e2, -⟩ | ⟨-, e2⟩ <;> rw [he] at e2 <;> cases e2
    have hv1 : Valid s1.graph := by rw [S.graph]; exact hv
    have hs1 : Spanned s1.graph := by rw [S.graph]; exact hs
    rw [← S.graph] at hl
    obtain ⟨g', l', -⟩ := later_inside hv1 hs1 S.loose hl
    have := loose_bounds (l'.2 x hx) y hy
    omega
  cases r with
  | retain i w => exact retain_kept hv hs hc hr.1 hr.2 he ho hl fun q e => hset i (Or.inl ⟨q, by rw [e]⟩)
  | remove i w => exact retain_kept hv hs hc hr.1 (w := .set w.not) (neg_any hr.2).1 he ho hl fun _ _ => hset i (Or.inr ⟨w, rfl⟩)
  | deadline d =>
    have all := line (.rangeToIncl d) bnd
    show Sched.setDeadline dbg s' d = _
    unfold Sched.setDeadline
    rw [if_neg, (retainAll_unchanged dbg s' (.rangeToIncl d)).2.2 all]
    intro c
    obtain ⟨x, hx, hlt⟩ := List.any_eq_true.1 c
    have hlt : d < TSet.lowerBound x := of_decide_eq_true hlt
    have := lo x hx
    have a := all x hx
    unfold Convex.containsSet Convex.containsBounds at a
    simp only [Bool.and_eq_true, decide_eq_true_eq] at a
    have : TSet.upperBound x ≤ d := a.2
    omega
  | startline d =>
    have all := line (.rangeFrom d) bnd
    show Sched.setStartline dbg s' d = _
    unfold Sched.setStartline
    rw [if_neg, (retainAll_unchanged dbg s' (.rangeFrom d)).2.2 all]
    intro c
    obtain ⟨x, hx, hlt⟩ := List.any_eq_true.1 c
    have hlt : TSet.upperBound x < d := of_decide_eq_true hlt
    have := lo x hx
    have a := all x hx
    unfold Convex.containsSet Convex.containsBounds at a
    simp only [Bool.and_eq_true, decide_eq_true_eq] at a
    have : d ≤ TSet.lowerBound x := a.1
    omega

-- after the constraints of `exGraph` and the window [0, 4] for instant 0, a startline of 20 is refused and a deadline of 30 is accepted; then
-- instant 2 is restricted to [16, 22]: the startline is refused again, the deadline is `Unchanged`
example : let s : Sched := ⟨exGraph, [[⟨0, 4⟩], [⟨10, 24⟩], [⟨15, 30⟩]]⟩
    let s' : Sched := ⟨exGraph, [[⟨0, 4⟩], [⟨10, 17⟩], [⟨16, 22⟩]]⟩
    (Req.startline 20).run true s' = .ok (s', .recovered) ∧ (Req.deadline 30).run true s' = .ok (s', .unchanged) := by
  have a1 := (Planned.new (dbg := true) (g := exGraph)).accepted (r := .retain 0 (.conv (.iv ⟨0, 4⟩))) (o := .propagated)
    (s' := ⟨exGraph, [[⟨0, 4⟩], [⟨10, 24⟩], [⟨15, 30⟩]]⟩) (by unfold Req.Proper; decide) (by unfold Req.run; decide +kernel) (Or.inr rfl)
  have l : Later true exGraph.size ⟨exGraph, [[⟨0, 4⟩], [⟨10, 24⟩], [⟨15, 30⟩]]⟩ ⟨exGraph, [[⟨0, 4⟩], [⟨10, 17⟩], [⟨16, 22⟩]]⟩ :=
    Later.now.request (r := .retain 2 (.conv (.iv ⟨16, 22⟩))) (o := .propagated) (by unfold Req.Proper; decide)
      (by unfold Req.run; decide +kernel)
  have d : ∀ i, i < exGraph.size → ∃ t, Slot ⟨exGraph, [[⟨0, 4⟩], [⟨10, 17⟩], [⟨16, 22⟩]]⟩ i t := by
    intro i hi
    have : i = 0 ∨ i = 1 ∨ i = 2 := by simp only [exGraph] at hi; omega
    rcases this with rfl | rfl | rfl
    · exact ⟨0, _, rfl, by decide⟩
    · exact ⟨10, _, rfl, by decide⟩
    · exact ⟨16, _, rfl, by decide⟩
  have sp : Spanned exGraph := spanned_of_sat exGraph_minimal.1 (by decide) exGraph_within
  exact ⟨C127_refused exGraph_valid sp a1 (by unfold Req.Proper; decide) (s1 := ⟨exGraph, [[⟨0, 4⟩], [⟨10, 24⟩], [⟨15, 30⟩]]⟩)
      (by unfold Req.run; decide +kernel) l d,
    C127_kept_partial exGraph_valid sp a1 (by unfold Req.Proper; decide) (s1 := ⟨exGraph, [[⟨0, 4⟩], [⟨10, 24⟩], [⟨15, 30⟩]]⟩)
      (o := .unchanged) (by unfold Req.run; decide +kernel) (Or.inl rfl) l d (by rintro i (⟨q, h⟩ | ⟨q, h⟩) <;> cases h)⟩

/-- C127 fails for sets: the set [0, 4] ∪ [6, 9] is answered `Unchanged` for instant 1, whose slot is [0, 4]; once [0, 1] ∪ [5, 5] has been
requested, with dates left for both instants, the first set is answered `Propagated`. -/
theorem C127_set_violated : ∃ (g : Graph) (s s' s'' : Sched) (P : (Nat → Int) → Prop) (q : TSet), Valid g ∧ Minimal g ∧ Canon q ∧
    Planned false g s P ∧ (Req.retain 1 (.set q)).run false s = .ok (s, .unchanged) ∧ Later false g.size s s' ∧
    (∀ i, i < g.size → ∃ t, Slot s' i t) ∧ (Req.retain 1 (.set q)).run false s' = .ok (s'', .propagated) := by
  have hv : Valid (Graph.mk 2 [0, -INF, 0, -INF]) := by decide
  refine ⟨⟨2, [0, -INF, 0, -INF]⟩, ⟨⟨2, [0, -INF, 0, -INF]⟩, [[⟨-INF, INF⟩], [⟨0, 4⟩]]⟩,
    ⟨⟨2, [0, -INF, 0, -INF]⟩, [[⟨-INF, INF⟩], [⟨0, 1⟩, ⟨5, 4⟩]]⟩, _, _, [⟨0, 4⟩, ⟨6, 9⟩], hv, ?_, by decide,
    Planned.new.accepted (r := .retain 1 (.conv (.iv ⟨0, 4⟩))) (o := .propagated) (by unfold Req.Proper; decide)
      (by unfold Req.run; decide +kernel) (Or.inr rfl), by unfold Req.run; decide +kernel,
    Later.now.request (r := .retain 1 (.set [⟨0, 1⟩, ⟨5, 5⟩])) (o := .propagated) (by unfold Req.Proper; decide)
      (by unfold Req.run; decide +kernel), ?_,
    (by unfold Req.run; decide +kernel : _ = Except.ok ((⟨⟨2, [0, -INF, 0, -INF]⟩, [[⟨-INF, INF⟩], [⟨0, 1⟩, ⟨5, 4⟩]]⟩ : Sched), _))⟩
  · rw [minimal_iff hv]
    have d : ∀ i : Fin 2, mat ⟨2, [0, -INF, 0, -INF]⟩ i i = 0 := by decide
    have t : ∀ i k j : Fin 2, mat ⟨2, [0, -INF, 0, -INF]⟩ i k ≠ -INF → mat ⟨2, [0, -INF, 0, -INF]⟩ k j ≠ -INF →
        mat ⟨2, [0, -INF, 0, -INF]⟩ i j ≠ -INF ∧
        mat ⟨2, [0, -INF, 0, -INF]⟩ i k + mat ⟨2, [0, -INF, 0, -INF]⟩ k j ≤ mat ⟨2, [0, -INF, 0, -INF]⟩ i j := by decide
    exact ⟨fun i hi => d ⟨i, hi⟩, fun i hi k hk j hj => t ⟨i, hi⟩ ⟨k, hk⟩ ⟨j, hj⟩⟩
  · intro i hi
    have : i = 0 ∨ i = 1 := by simp only at hi; omega
    rcases this with rfl | rfl
    · exact ⟨0, _, rfl, by decide⟩
    · exact ⟨0, _, rfl, by decide⟩

theorem answers_tight {n : Nat} {W : Int} (hW : 0 ≤ W) (hB : 3 * (n : Int) * W < INF) : ∀ {ks : List Constr} {g : Graph}, Valid g →
    g.size = n → Closed n (mat g) → Tight W n (mat g) → (∀ k ∈ ks, Usable n W k) →
    ∃ h os, answers g ks = .ok (h, os) ∧ os.length = ks.length ∧ Valid h ∧ h.size = n ∧ Closed n (mat h) ∧ Tight W n (mat h) ∧
      ∀ τ, MSat n (mat h) τ → MSat n (mat g) τ
  | [], g, v, s, c, t, _ => ⟨g, [], rfl, rfl, v, s, c, t, fun _ h => h⟩
  | k :: ks, g, v, s, c, t, hk => by
    subst s
    obtain ⟨g1, o, e1, s1, c1, t1, -, nf, r1, a1, u1⟩ := propagate_tight v hW c t hB (hk k (by simp))
    obtain ⟨h, os, x1, x2, x3, x4, x5, x6, x7⟩ := answers_tight hW hB (ks := ks) (s1.valid v) s1.size c1 t1 (fun k' h => hk k' (by simp [h]))
    refine ⟨h, o :: os, ?_, by simp [x2], x3, x4, x5, x6, fun τ ht => ?_⟩
    · unfold answers; rw [e1, ok_bind]; simp only; rw [x1, ok_bind]; rfl
    · have := x7 τ ht
      by_cases hr : o = .recovered
      · rw [(r1 hr).1] at this; exact this
      · exact ((a1 hr τ).1 this).1

theorem answers_append {h1 h2 : Graph} {os2 : List Outcome} : ∀ {ks ks' : List Constr} {g : Graph} {os1 : List Outcome},
    answers g ks = .ok (h1, os1) → answers h1 ks' = .ok (h2, os2) → answers g (ks ++ ks') = .ok (h2, os1 ++ os2)
  | [], ks', g, os1, e1, e2 => by cases e1; exact e2
  | k :: ks, ks', g, os1, e1, e2 => by
    unfold answers at e1
    rw [List.cons_append]
    unfold answers
    cases e : g.propagate k with
    | error => rw [e] at e1; cases e1
    | ok p =>
      rw [e, ok_bind] at e1
      rw [ok_bind]
      simp only at *
      cases e' : answers p.1 ks with
      | error => rw [e'] at e1; cases e1
      | ok q =>
        rw [e', ok_bind] at e1
        cases e1
        rw [answers_append e' e2]
        rfl

theorem propagate_same {g g' : Graph} (hv : Valid g) {W : Int} {k : Constr} (hk : Usable g.size W k)
    (h : g.propagate k = .ok (g', .unchanged)) : g' = g := by
  obtain ⟨hs, hd, hk⟩ := hk
  cases he : k.isEmpty with
  | true => rw [C61_empty_rejected g he] at h; cases h
  | false =>
    rcases propagate_branch hv he hs hd (hk he).1.le with ⟨-, -, e⟩ | ⟨-, -, e⟩ | ⟨-, -, -, e⟩
    · rw [e] at h; cases h; rfl
    · rw [e] at h; cases h
    · exact absurd (e _ _ h) (by decide)

/-- C127 for graphs: in any history of calls of `propagate`, a constraint which has been refused is refused whenever it is given again, and one
which has been accepted is answered `Unchanged`; neither changes anything. -/
theorem C127_graph {n : Nat} (hn : n ≤ 65535) {W : Int} (hW : 0 ≤ W) (hB : 3 * (n : Int) * W < INF) {ks ks' : List Constr} {k : Constr}
    (hk : Usable n W k) (h : ∀ k ∈ ks, Usable n W k) (h' : ∀ k ∈ ks', Usable n W k) :
    ∃ g os o os', (Graph.withSize n >>= fun g => answers g (ks ++ k :: ks')) = .ok (g, os ++ o :: os') ∧ os.length = ks.length ∧
      (o = .recovered → g.propagate k = .ok (g, .recovered)) ∧ (o ≠ .recovered → g.propagate k = .ok (g, .unchanged)) := by
  obtain ⟨g0, e0, n0, v0, -, m0⟩ := withSize_eq hn
  rw [e0]
  simp only [ok_bind]
  obtain ⟨g1, os, a1, a2, a3, a4, a5, a6, -⟩ := answers_tight hW hB v0 n0 (unconstrained_closed m0) (unconstrained_tight m0) h
  subst a4
  obtain ⟨g2, o, b1, b2, b3, b4, -, nf, b5, b6, -⟩ := propagate_tight a3 hW a5 a6 hB hk
  obtain ⟨g3, os', c1, c2, c3, c4, c5, c6, c7⟩ := answers_tight hW hB (b2.valid a3) b2.size b3 b4 h'
  have e : answers g1 (k :: ks') = .ok (g3, o :: os') := by
    unfold answers; rw [b1, ok_bind]; simp only; rw [c1, ok_bind]; rfl
  obtain ⟨g4, o', d1, -, d3, -, -, -, d5, d6, d7⟩ := propagate_tight c3 hW (by rw [c4]; exact c5) (by rw [c4]; exact c6) (by rw [c4]; exact hB)
    (by rw [c4]; exact hk)
  rw [c4] at d3 d5 d6 d7
  refine ⟨g3, os, o, os', answers_append a1 e, a2, fun hr => ?_, fun hr => ?_⟩
  · have : o' = .recovered := Classical.byContradiction fun hn => by
      obtain ⟨τ, ht⟩ := d3.sat
      obtain ⟨x, y⟩ := (d6 hn τ).1 ht
      have x := c7 τ x
      rw [(b5 hr).1] at x
      exact (b5 hr).2 τ x y
    subst this
    rw [d1, (d5 rfl).1]
  · have : o' = .unchanged := d7.2 fun τ ht => ((b6 hr τ).1 (c7 τ ht)).2
    subst this
    rw [d1, propagate_same c3 (W := W) (by rw [c4]; exact hk) d1]

/-- a refused constraint between two others, and an accepted one -/
example : (Graph.withSize 3 >>= fun g => answers g [⟨0, 1, false, 10, 20⟩, ⟨1, 0, false, 0, 3⟩, ⟨1, 2, false, 5, 6⟩, ⟨1, 0, false, 0, 3⟩,
      ⟨0, 1, false, 10, 20⟩]) = .ok (⟨3, [0, -20, 0, 10, -26, -6, 0, 5, 15]⟩, [.propagated, .recovered, .propagated, .recovered, .unchanged]) ∧
    Usable 3 100 ⟨1, 0, false, 0, 3⟩ ∧ Usable 3 100 ⟨0, 1, false, 10, 20⟩ ∧ Usable 3 100 ⟨1, 2, false, 5, 6⟩ ∧
    3 * ((3 : Nat) : Int) * 100 < INF :=
  ⟨by decide +kernel, ⟨by decide, by decide, fun _ => ⟨by constructor <;> decide, by decide⟩⟩,
    ⟨by decide, by decide, fun _ => ⟨by constructor <;> decide, by decide⟩⟩,
    ⟨by decide, by decide, fun _ => ⟨by constructor <;> decide, by decide⟩⟩, by decide⟩

end Chrono
