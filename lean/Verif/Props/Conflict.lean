import Verif.Props.Disjoint
import Verif.Props.Scheduler
import Verif.Props.Release
import Verif.Lemmas.SchedInside

/-!
# C158: asking a scheduler for the dates which are in two intervals at once

and C157 for sets: their intersection with the intersection of two intervals without a common date.
-/

set_option linter.unusedSimpArgs false

namespace Chrono
open Spec

/-- from an instant without date, a propagation takes all the dates of the instants it reaches -/
theorem propagate_empty (dbg : Bool) {i : Nat} : ∀ (ks : List Constr) (sch : List TSet), sch[i]? = some [] →
    (∀ k ∈ ks, k.dst < sch.length) → ∃ sch', ks.foldlM (Sched.propagateOne dbg i) sch = .ok sch' ∧ sch'.length = sch.length ∧
      (∀ j : Nat, sch[j]? = some [] → sch'[j]? = some []) ∧ ∀ k ∈ ks, sch'[k.dst]? = some [] := by
  intro ks
  induction ks with
  | nil => intro sch h _; exact ⟨sch, rfl, rfl, fun _ h => h, by simp⟩
  | cons k ks ih =>
    intro sch h hk
    have hd := hk k (by simp)
    have hj : sch[k.dst]? = some sch[k.dst] := List.getElem?_eq_getElem hd
    have hone : Sched.propagateOne dbg i sch k = .ok (sch.set k.dst []) := by
      have ha : TSet.addSpan dbg [] k.span = .ok [] := rfl
      have hn : TSet.inter sch[k.dst] [] = .ok [] := by
        simp only [TSet.inter]
        cases sch[k.dst] <;> (rw [InterIter.drain_eq]; rfl)
      simp only [Sched.propagateOne, sget, hj, h, ok_bind, ha, hn, sset, if_pos hd]
    have keep : ∀ j : Nat, sch[j]? = some [] → (sch.set k.dst [])[j]? = some [] := by
      intro j h
      rw [List.getElem?_set]
      split
      · first | rfl | rw [if_pos hd]
      · exact h
    obtain ⟨sch', e1, e2, e3, e4⟩ := ih (sch.set k.dst []) (keep i h)
      (by intro k' hk'; rw [List.length_set]; exact hk k' (by simp [hk']))
    refine ⟨sch', by rw [List.foldlM_cons, hone, ok_bind, e1], by rw [e2, List.length_set], fun j h => e3 j (keep j h), fun k' hk' => ?_⟩
    rcases List.mem_cons.1 hk' with rfl | hk'
    · exact e3 _ (List.getElem?_set_self hd)
    · exact e4 k' hk'

/-- bounds in the wrong order leave nothing -/
theorem interAssign_wrong {s : List Iv} (hs : Loose s) {l u : Int} (h : u < l) : TSet.interAssignConvex s (.iv ⟨l, u⟩) = [] := by
  unfold TSet.interAssignConvex
  rw [after_cut (thin_loose hs), before_cut (thin_high (thin_loose hs) _), cutLow, List.map_eq_nil_iff, List.filter_eq_nil_iff]
  intro z hz
  obtain ⟨x, hx, rfl⟩ := List.mem_map.1 hz
  rw [decide_eq_true_eq]
  show ¬ (l ≤ min x.upper u)
  omega

/-- a slot meets both intervals iff it covers what is between them -/
theorem covers_iff {a b x : Iv} (ha : WF a) (hb : WF b) (h : a.upper < b.lower) (hx : WF x) :
    ((∃ t, Date t ∧ InIv t x ∧ InIv t a) ∧ ∃ t, Date t ∧ InIv t x ∧ InIv t b) ↔ b.lower ≤ x.upper ∧ x.lower ≤ a.upper := by
  obtain ⟨a1, a2, a3, a4, a5⟩ := id ha
  obtain ⟨b1, b2, b3, b4, b5⟩ := id hb
  obtain ⟨x1, x2, x3, x4, x5⟩ := id hx
  simp only [InIv]
  constructor
  · rintro ⟨⟨t, -, h1, h2⟩, ⟨t', -, h3, h4⟩⟩
    omega
  · intro c
    exact ⟨⟨a.upper, by ticks, by omega, by omega⟩, ⟨b.lower, by ticks, by omega, by omega⟩⟩

theorem conflict_test {a b : Iv} (ha : WF a) (hb : WF b) (h : a.upper < b.lower) {si : TSet} (hc : Canon si) (hn : si ≠ []) :
    Window.containsSet (.conv (.iv (Iv.inter a (.iv b)))) si = false ∧
    (Window.overlapsSet (.conv (.iv (Iv.inter a (.iv b)))) si = true ↔
      ∃ x ∈ si, (∃ t, Date t ∧ InIv t x ∧ InIv t a) ∧ ∃ t, Date t ∧ InIv t x ∧ InIv t b) ∧
    Window.restrict (.conv (.iv (Iv.inter a (.iv b)))) si = .ok [] := by
  obtain ⟨e, -⟩ := before_inter ha hb h
  rw [e]
  refine ⟨?_, ?_, ?_⟩
  · cases si with
    | nil => exact absurd rfl hn
    | cons x xs =>
      have lx := (hc.wf x (by simp)).le
      have := (loose_bounds hc.loose x (by simp)).2
      simp only [Window.containsSet, Convex.containsSet, Convex.containsBounds, Bool.and_eq_false_iff, decide_eq_false_iff_not]
      show ¬ (b.lower ≤ x.lower) ∨ ¬ (TSet.upperBound (x :: xs) ≤ a.upper)
      omega
  · simp only [Window.overlapsSet, Convex.overlapsSet]
    rw [overlaps_loose_iff hc.loose]
    constructor
    · rintro ⟨x, hx, c⟩
      exact ⟨x, hx, (covers_iff ha hb h (hc.wf x hx)).2 c⟩
    · rintro ⟨x, hx, c⟩
      exact ⟨x, hx, (covers_iff ha hb h (hc.wf x hx)).1 c⟩
  · simp only [Window.restrict, interAssign_wrong hc.loose h]

/-- **C158**, partial: the dates which are in two intervals without a common date, `retain(i, a & b)`, are refused and the schedule is left as it
was, if no slot of the instant has dates of both intervals. Missing: the other slots, see `C158_violated`. -/
theorem C158_refused_partial (dbg : Bool) {s : Sched} {i : Nat} {si : TSet} (hi : s.scheduling i = some si) (hc : Canon si) (hn : si ≠ [])
    {a b : Iv} (ha : WF a) (hb : WF b) (h : a.upper < b.lower) :
    s.retain dbg i (.conv (.iv (Iv.inter a (.iv b)))) = .ok (s, .recovered) ↔
      ¬ ∃ x ∈ si, (∃ t, Date t ∧ InIv t x ∧ InIv t a) ∧ ∃ t, Date t ∧ InIv t x ∧ InIv t b := by
  obtain ⟨c1, c2, c3⟩ := conflict_test ha hb h hc hn
  rw [retain_test dbg hi, c1, ← c2]
  cases Window.overlapsSet (.conv (.iv (Iv.inter a (.iv b)))) si with
  | false => simp
  | true =>
    simp only [Bool.false_eq_true, if_false, Bool.not_true, c3, ok_bind, not_true_eq_false, iff_false]
    intro e
    obtain ⟨x, -, e⟩ := bind_inv e
    cases e

/-- **C158** is violated on every slot which has dates of both intervals, the slots of every new scheduler among them: the request is accepted,
`Ok(Propagated)`, the instant and all those whose delay from it is bounded have no date left, and every later request on them is answered
`Ok(Unchanged)`. -/
theorem C158_violated (dbg : Bool) {s : Sched} (hv : Valid s.graph) (hcs : CanonSched s) {i : Nat} (hl : i < s.graph.size) {si : TSet}
    (hi : s.scheduling i = some si) {a b : Iv} (ha : WF a) (hb : WF b) (h : a.upper < b.lower)
    (hx : ∃ x ∈ si, (∃ t, Date t ∧ InIv t x ∧ InIv t a) ∧ ∃ t, Date t ∧ InIv t x ∧ InIv t b) :
    ∃ s', s.retain dbg i (.conv (.iv (Iv.inter a (.iv b)))) = .ok (s', .propagated) ∧ s'.graph = s.graph ∧
      ∀ j, (j = i ∨ j < s.graph.size ∧ ∃ sp, s.graph.timespan i j = .ok sp ∧ sp ≠ ⟨-INF, INF⟩) →
        s'.scheduling j = some [] ∧ ∀ w, Proper w → s'.retain dbg j (.conv w) = .ok (s', .unchanged) := by
  have hc : Canon si := hcs.2 si (List.mem_of_getElem? hi)
  obtain ⟨c1, c2, c3⟩ := conflict_test ha hb h hc (by obtain ⟨x, hx, -⟩ := hx; intro e; rw [e] at hx; simp at hx)
  obtain ⟨ks, k1, -, k2, k3⟩ := C72_from_partial hv hl
  have hle : i < s.schedule.length := by rw [hcs.1]; exact hl
  obtain ⟨sch', e1, e2, e3, e4⟩ := propagate_empty dbg ks (s.schedule.set i []) (i := i) (List.getElem?_set_self hle)
    (by intro k hk; rw [List.length_set, hcs.1]; exact (k2 k hk).2.1)
  refine ⟨⟨s.graph, sch'⟩, ?_, rfl, fun j hj => ?_⟩
  · rw [retain_test dbg hi, c1, c2.2 hx, c3]
    simp only [Bool.false_eq_true, if_false, Bool.not_true, ok_bind, Sched.propagateScheduling, k1, e1]
    rfl
  · have e : sch'[j]? = some [] := by
      by_cases c : j = i
      · rw [c]; exact e3 i (List.getElem?_set_self hle)
      · obtain ⟨hj, sp, e, hs⟩ := hj.resolve_left c
        obtain ⟨k, hk, rfl⟩ := k3 j hj c sp e hs
        exact e4 k hk
    refine ⟨e, fun w hw => ?_⟩
    have : Window.containsSet (.conv w) [] = true := by
      simp only [Window.containsSet, Convex.containsSet, Convex.containsBounds, Bool.and_eq_true, decide_eq_true_eq]
      show w.lower ≤ INF ∧ -INF ≤ w.upper
      rcases hw.cases with ⟨-, f1, f2, -⟩ | ⟨-, f, -⟩
      · rw [f1, f2]; exact ⟨Int.le_refl _, Int.le_refl _⟩
      · obtain ⟨f1, f2, f3, f4, f5⟩ := id f
        simp only at f1 f2 f3 f4 f5
        omega
    rw [retain_test (s := ⟨s.graph, sch'⟩) dbg e, this, if_pos rfl]

/-- what the intersection with bounds in the wrong order goes through -/
theorem drain_wrong {l u : Int} (hl : Date l) (hu : Date u) (h : u < l) : ∀ s : List Iv, Canon s →
    (InterIter.mk s [] .waitI ⟨l, u⟩).drain = if ∃ x ∈ s, l ≤ x.upper + 1 ∧ x.lower ≤ u + 1 then [⟨l, u⟩] else [] := by
  intro s
  induction s with
  | nil => intro _; rw [InterIter.drain_waitI_nil, if_neg (by simp)]
  | cons x xs ih =>
    intro hc
    obtain ⟨hx, hg, hxs⟩ := Canon_cons.1 hc
    obtain ⟨x1, x2, x3, x4, x5⟩ := id hx
    have lo : l < INF := by ticks
    have hi : -INF < u := by ticks
    have far : ∀ y ∈ xs, x.upper + 1 < y.lower := hg
    rw [InterIter.drain_eq]
    simp only [InterIter.step, lt_justBefore hx.lt_hi lo, lt_justBefore hi hx.lo_lt]
    by_cases c1 : x.upper + 1 < l
    · simp only [c1, if_true]
      rw [ih hxs]
      congr 1
      simp only [List.mem_cons, exists_eq_or_imp, eq_iff_iff]
      constructor
      · exact Or.inr
      · rintro (c | c)
        · omega
        · exact c
    · by_cases c2 : u + 1 < x.lower
      · simp only [c1, c2, if_true, if_false]
        rw [InterIter.drain_waitJ_nil, if_neg]
        rintro ⟨y, hy, c⟩
        rcases List.mem_cons.1 hy with rfl | hy
        · omega
        · have := far y hy; omega
      · have yes : ∃ y ∈ x :: xs, l ≤ y.upper + 1 ∧ y.lower ≤ u + 1 := ⟨x, by simp, by omega, by omega⟩
        rw [if_pos yes]
        by_cases c3 : x.upper ≤ u
        · simp only [c1, c2, c3, if_true, if_false]
          have no : ¬ ∃ y ∈ xs, l ≤ y.upper + 1 ∧ y.lower ≤ u + 1 := by
            rintro ⟨y, hy, c⟩
            have := far y hy
            omega
          rw [ih hxs, if_neg no, List.cons.injEq, Iv.mk.injEq]
          refine ⟨⟨?_, by omega⟩, rfl⟩
          split <;> omega
        · simp only [c1, c2, c3, if_true, if_false]
          rw [InterIter.drain_waitJ_nil, List.cons.injEq, Iv.mk.injEq]
          refine ⟨⟨?_, rfl⟩, rfl⟩
          split <;> omega

theorem drain_wrong_init {l u : Int} (hl : Date l) (hu : Date u) (h : u < l) {s : List Iv} (hs : Canon s) :
    (InterIter.new s [⟨l, u⟩]).drain = (InterIter.mk s [] .waitI ⟨l, u⟩).drain := by
  cases s with
  | nil => rw [InterIter.new, InterIter.drain_init_nilI, InterIter.drain_waitI_nil]
  | cons x xs =>
    obtain ⟨hx, hg, hxs⟩ := Canon_cons.1 hs
    obtain ⟨x1, x2, x3, x4, x5⟩ := id hx
    have lo : l < INF := by ticks
    have hi : -INF < u := by ticks
    rw [InterIter.drain_eq, InterIter.drain_eq (InterIter.mk (x :: xs) [] .waitI ⟨l, u⟩)]
    simp only [InterIter.new, InterIter.step, lt_justBefore hx.lt_hi lo, lt_justBefore hi hx.lo_lt]

theorem inter_wrong {l u : Int} (hl : Date l) (hu : Date u) (h : u < l) {s : List Iv} (hs : Canon s) :
    TSet.interConvex s (.iv ⟨l, u⟩) = .ok (if ∃ x ∈ s, l ≤ x.upper + 1 ∧ x.lower ≤ u + 1 then [⟨l, u⟩] else []) := by
  have ne : (⟨l, u⟩ : Iv).isEmpty = false := by
    rw [← Bool.not_eq_true, Iv.isEmpty_iff]; ticks
  have it : (Convex.iv (Convex.iv (⟨l, u⟩ : Iv)).into).iter = [⟨l, u⟩] := by
    simp only [Convex.iter, Convex.into, Convex.isEmpty, ne, Bool.false_eq_true, if_false]; rfl
  rw [TSet.interConvex, it, drain_wrong_init hl hu h hs, drain_wrong hl hu h s hs]
  split
  · simp only [TSet.fromIter, TSet.fromIterFuel, List.foldlM_nil, TSet.ofConvex, Convex.isEmpty, ne, Bool.false_eq_true, if_false]; rfl
  · rfl

/-- **C157** for sets: the intersection of a set with `a & b`, when these two have no common date, never panics and has no date; in place, it is the
empty set. -/
theorem C157_sets {i j : Iv} (hi : WF i) (hj : WF j) (h : ¬ ∃ t, Date t ∧ InIv t i ∧ InIv t j) {s : TSet} (hs : Canon s) :
    TSet.interAssignConvex s (.iv (Iv.inter i (.iv j))) = [] ∧
    ∃ r, TSet.interConvex s (.iv (Iv.inter i (.iv j))) = .ok r ∧ ∀ t, Date t → ¬ InSet t r := by
  obtain ⟨l, u, e, hl, hu, hlu⟩ := disjoint_inter hi hj h
  rw [e]
  refine ⟨interAssign_wrong hs.loose hlu, _, inter_wrong hl hu hlu hs, fun t _ => ?_⟩
  split
  · rintro ⟨x, hx, c⟩
    rw [List.mem_singleton] at hx
    rw [hx] at c
    simp only [InIv] at c
    omega
  · simp [InSet]

/-- **C157** is violated for sets: `s & (a & b)` is not said to be empty, whereas `s &= a & b` leaves the empty set, as soon as an interval of the set
has dates of both. -/
theorem C157_sets_violated {i j : Iv} (hi : WF i) (hj : WF j) (h : i.upper < j.lower) {s : TSet} (hs : Canon s)
    (hx : ∃ x ∈ s, (∃ t, Date t ∧ InIv t x ∧ InIv t i) ∧ ∃ t, Date t ∧ InIv t x ∧ InIv t j) :
    ∃ r, TSet.interConvex s (.iv (Iv.inter i (.iv j))) = .ok r ∧ (∀ t, Date t → ¬ InSet t r) ∧ TSet.isEmpty r = false ∧ ¬ Canon r ∧
      TSet.interAssignConvex s (.iv (Iv.inter i (.iv j))) ≠ r := by
  obtain ⟨e, d1, d2, no⟩ := before_inter hi hj h
  obtain ⟨e1, r, e2, e3⟩ := C157_sets hi hj no hs
  refine ⟨r, e2, e3, ?_⟩
  rw [e1]
  rw [e, inter_wrong d1 d2 h hs, if_pos] at e2
  · cases e2
    refine ⟨rfl, fun c => ?_, by simp⟩
    exact absurd (show j.lower ≤ i.upper from (c.wf _ (List.mem_singleton.2 rfl)).le) (by omega)
  · obtain ⟨x, hx, c⟩ := hx
    have := (covers_iff hi hj h (hs.wf x hx)).1 c
    exact ⟨x, hx, by omega, by omega⟩

/-! ## Examples -/

example : Canon [⟨-5, 2⟩, ⟨4, 25⟩, ⟨30, 40⟩] ∧ WF ⟨0, 4⟩ ∧ WF ⟨10, 20⟩ ∧
    (∃ x ∈ [(⟨-5, 2⟩ : Iv), ⟨4, 25⟩, ⟨30, 40⟩], (∃ t, Date t ∧ InIv t x ∧ InIv t ⟨0, 4⟩) ∧ ∃ t, Date t ∧ InIv t x ∧ InIv t ⟨10, 20⟩) ∧
    TSet.interConvex [⟨-5, 2⟩, ⟨4, 25⟩, ⟨30, 40⟩] (.iv (Iv.inter ⟨0, 4⟩ (.iv ⟨10, 20⟩))) = .ok [⟨10, 4⟩] := by
  refine ⟨by decide, by decide, by decide, ⟨⟨4, 25⟩, by decide, ⟨4, by decide, by decide, by decide⟩, ⟨10, by decide, by decide, by decide⟩⟩,
    by decide +kernel⟩

example : Valid exGraph ∧ CanonSched (Sched.new exGraph) ∧ (Sched.new exGraph).scheduling 1 = some [⟨-INF, INF⟩] ∧ WF ⟨0, 4⟩ ∧ WF ⟨10, 20⟩ ∧
    (∃ x ∈ [(⟨-INF, INF⟩ : Iv)], (∃ t, Date t ∧ InIv t x ∧ InIv t ⟨0, 4⟩) ∧ ∃ t, Date t ∧ InIv t x ∧ InIv t ⟨10, 20⟩) ∧
    (Sched.new exGraph).retain true 1 (.conv (.iv (Iv.inter ⟨0, 4⟩ (.iv ⟨10, 20⟩)))) = .ok (⟨exGraph, [[], [], []]⟩, .propagated) ∧
    (⟨exGraph, [[⟨0, 7⟩], [⟨0, 7⟩, ⟨12, 30⟩], [⟨15, 35⟩]]⟩ : Sched).retain true 1 (.conv (.iv (Iv.inter ⟨0, 4⟩ (.iv ⟨10, 20⟩)))) =
      .ok (⟨exGraph, [[⟨0, 7⟩], [⟨0, 7⟩, ⟨12, 30⟩], [⟨15, 35⟩]]⟩, .recovered) := by
  refine ⟨by decide, ⟨by decide, by decide⟩, by decide, by decide, by decide, ⟨_, List.mem_singleton.2 rfl, ⟨0, by decide, by decide, by decide⟩,
    ⟨10, by decide, by decide, by decide⟩⟩, by decide +kernel, by decide +kernel⟩

end Chrono
