import Verif.Props.Conflict

/-!
# C160: removing from an instant the dates which are in two intervals at once
-/

set_option linter.unusedSimpArgs false

namespace Chrono
open Spec

theorem wf_loose {x : Iv} (h : WF x) : LooseIv x := ⟨by have := h.le; omega, h.lo, h.hi, h.lo_lt, h.lt_hi⟩

/-- the intervals which are before the end of the first part are kept -/
theorem drain_low {c : Int} (h1 : -INF < c) (h2 : c ≤ INF) (j R : List Iv) : ∀ A : List Iv, (∀ x ∈ A, WF x ∧ x.upper ≤ c) →
    (InterIter.mk (A ++ R) j .waitI ⟨-INF, c⟩).drain = A ++ (InterIter.mk R j .waitI ⟨-INF, c⟩).drain := by
  intro A
  induction A with
  | nil => intro _; rfl
  | cons x xs ih =>
    intro h
    obtain ⟨hx, hu⟩ := h x (by simp)
    obtain ⟨x1, x2, x3, x4, x5⟩ := id hx
    rw [List.cons_append, InterIter.drain_waitI_cons _ _ (wf_loose hx) ⟨by ticks, by ticks, h2, by ticks, h1⟩]
    simp only []
    rw [if_neg (by omega), if_neg (by omega), if_pos hu, ih (fun y hy => h y (by simp [hy])), List.cons_append]
    congr 1
    cases x
    simp only [InterIter.meet] at *
    congr 1 <;> omega

/-- and those after the beginning of the last one -/
theorem drain_high {c : Int} (h1 : -INF ≤ c) (h2 : c < INF) : ∀ B : List Iv, (∀ x ∈ B, WF x ∧ c ≤ x.lower) →
    (InterIter.mk B [] .waitI ⟨c, INF⟩).drain = B := by
  intro B
  induction B with
  | nil => intro _; rw [InterIter.drain_waitI_nil]
  | cons x xs ih =>
    intro h
    obtain ⟨hx, hu⟩ := h x (by simp)
    obtain ⟨x1, x2, x3, x4, x5⟩ := id hx
    rw [InterIter.drain_waitI_cons _ _ (wf_loose hx) ⟨by ticks, h1, by ticks, h2, by ticks⟩]
    simp only []
    rw [if_neg (by omega), if_neg (by omega), if_pos x3, ih (fun y hy => h y (by simp [hy]))]
    congr 1
    cases x
    simp only [InterIter.meet] at *
    congr 1 <;> omega

/-- a set cut in two parts which overlap, and put together again -/
theorem inter_overlapping {l u : Int} (hl : Date l) (hu : Date u) (h : u < l) {s : List Iv} (hs : Canon s)
    (hx : ∃ x ∈ s, x.lower < l ∧ l ≤ x.upper) : TSet.inter s [⟨-INF, l - 1⟩, ⟨u + 1, INF⟩] = .ok s := by
  obtain ⟨x, hx, c1, c2⟩ := hx
  obtain ⟨A, B, rfl⟩ := List.append_of_mem hx
  have hg := hs.gap
  have hw := hs.wf
  simp only [Gap, List.pairwise_append, List.pairwise_cons] at hg
  obtain ⟨gA, ⟨gx, gB⟩, gAx⟩ := hg
  have wx := hw x (by simp)
  obtain ⟨x1, x2, x3, x4, x5⟩ := id wx
  have lA : ∀ y ∈ A, WF y ∧ y.upper + 1 < x.lower := fun y hy => ⟨hw y (by simp [hy]), gAx y hy x (by simp)⟩
  have lB : ∀ y ∈ B, WF y ∧ x.upper + 1 < y.lower := fun y hy => ⟨hw y (by simp [hy]), gx y hy⟩
  have L1 : LooseIv ⟨-INF, l - 1⟩ := by constructor <;> ticks
  have L2 : LooseIv ⟨u + 1, INF⟩ := by constructor <;> ticks
  have e0 : (InterIter.new (A ++ x :: B) [⟨-INF, l - 1⟩, ⟨u + 1, INF⟩]).drain =
      (InterIter.mk (A ++ x :: B) [⟨u + 1, INF⟩] .waitI ⟨-INF, l - 1⟩).drain := by
    cases A with
    | nil => exact InterIter.drain_init_waitI _ _ _ (wf_loose wx) L1
    | cons y ys => exact InterIter.drain_init_waitI _ _ _ (wf_loose (lA y (by simp)).1) L1
  have e : (InterIter.new (A ++ x :: B) [⟨-INF, l - 1⟩, ⟨u + 1, INF⟩]).drain =
      A ++ ⟨x.lower, l - 1⟩ :: ⟨max (u + 1) x.lower, x.upper⟩ :: B := by
    rw [e0, drain_low (by ticks) (by ticks) _ _ A (fun y hy => ⟨(lA y hy).1, by have := (lA y hy).2; omega⟩)]
    congr 1
    rw [InterIter.drain_waitI_cons _ _ (wf_loose wx) L1]
    simp only []
    rw [if_neg (by omega), if_neg (by omega), if_neg (by omega), InterIter.drain_waitJ_cons _ _ L2 (wf_loose wx)]
    simp only []
    rw [if_neg (by omega), if_neg (by omega)]
    have m1 : InterIter.meet x ⟨-INF, l - 1⟩ = ⟨x.lower, l - 1⟩ := by simp only [InterIter.meet]; congr 1 <;> omega
    have m2 : InterIter.meet ⟨u + 1, INF⟩ x = ⟨max (u + 1) x.lower, x.upper⟩ := by simp only [InterIter.meet]; congr 1 <;> omega
    rw [m1, m2]
    split
    · rw [InterIter.drain_waitJ_nil]
      cases B with
      | nil => rfl
      | cons y ys =>
        have := (lB y (by simp)).2
        have := (lB y (by simp)).1.lo_lt
        omega
    · rw [drain_high (by ticks) (by ticks) B (fun y hy => ⟨(lB y hy).1, by have := (lB y hy).2; omega⟩)]
  rw [TSet.inter, e]
  obtain ⟨r, r1, r2, r3⟩ := TSet.fromIter_collect (l := A ++ ⟨x.lower, l - 1⟩ :: ⟨max (u + 1) x.lower, x.upper⟩ :: B) (by
      intro y hy
      simp only [List.mem_append, List.mem_cons] at hy
      rcases hy with hy | rfl | rfl | hy
      · exact (lA y hy).1
      · constructor <;> ticks
      · constructor <;> ticks
      · exact (lB y hy).1) (by
      simp only [List.pairwise_append, List.pairwise_cons, List.mem_cons]
      refine ⟨gA.imp_of_mem (fun {a b} ha hb c => ?_), ⟨?_, ?_, gB.imp_of_mem (fun {a b} ha hb c => ?_)⟩, ?_⟩
      · have := (lA a ha).1.le; have := (lA b hb).1.le; omega
      · rintro b (rfl | hb)
        · simp only []; omega
        · have := (lB b hb).1.le; have := (lB b hb).2; omega
      · intro b hb
        have := (lB b hb).1.le; have := (lB b hb).2; ticks
      · have := (lB a ha).1.le; have := (lB b hb).1.le; omega
      · rintro a ha b (rfl | rfl | hb)
        all_goals have := (lA a ha).1.le; have := (lA a ha).2
        · simp only []; omega
        · simp only []; omega
        · have := (lB b hb).1.le; have := (lB b hb).2; omega)
  rw [r1]
  congr 1
  refine canon_ext r2 hs (fun t => ?_)
  rw [r3]
  simp only [InSet_append, InSet_cons, InIv]
  by_cases a : InSet t A <;> by_cases b : InSet t B <;> simp only [a, b, true_or, or_true, false_or, or_false]
  omega

theorem compl_wrong {l u : Int} (hl : Date l) (hu : Date u) (h : u < l) : Iv.compl ⟨l, u⟩ = [⟨-INF, l - 1⟩, ⟨u + 1, INF⟩] := by
  have ne : (⟨l, u⟩ : Iv).isEmpty = false := by
    rw [← Bool.not_eq_true, Iv.isEmpty_iff]; ticks
  have c1 : justBefore l = l - 1 := by rw [justBefore_eq]; ticks
  have c2 : justAfter u = u + 1 := by rw [justAfter_eq]; ticks
  have f1 : isPastInfinite (l - 1) = false := by
    simp only [isPastInfinite, beq_eq_false_iff_ne, ne_eq]; clear c1 c2; ticks
  have f2 : isFutureInfinite (u + 1) = false := by
    simp only [isFutureInfinite, beq_eq_false_iff_ne, ne_eq]; clear c1 c2 f1; ticks
  simp only [Iv.compl, ne, Bool.false_eq_true, if_false, c1, c2, f1, f2]

theorem kept_test {l u : Int} (hl : Date l) (hu : Date u) (h : u < l) {s : List Iv} (hs : Canon s) :
    (TSet.containsSet [⟨-INF, l - 1⟩, ⟨u + 1, INF⟩] s = true ↔ ¬ ∃ x ∈ s, x.lower < l ∧ l ≤ x.upper) ∧
    (s ≠ [] → TSet.overlapsSet [⟨-INF, l - 1⟩, ⟨u + 1, INF⟩] s = true) := by
  constructor
  · simp only [TSet.containsSet, List.all_eq_true]
    have one : ∀ x ∈ s, TSet.contains [⟨-INF, l - 1⟩, ⟨u + 1, INF⟩] (.iv x) = true ↔ ¬ (x.lower < l ∧ l ≤ x.upper) := by
      intro x hx
      obtain ⟨x1, x2, x3, x4, x5⟩ := hs.wf x hx
      simp only [TSet.contains, List.find?_cons, show (Convex.iv x).lower = x.lower from rfl]
      by_cases c : l - 1 ≥ x.lower
      · simp only [c, decide_true, Convex.contains, Convex.containsBounds, Bool.and_eq_true, decide_eq_true_eq]
        show -INF ≤ x.lower ∧ x.upper ≤ l - 1 ↔ _
        omega
      · have c' : INF ≥ x.lower := by omega
        simp only [c, c', decide_true, decide_false, Convex.contains, Convex.containsBounds, Bool.and_eq_true, decide_eq_true_eq]
        show u + 1 ≤ x.lower ∧ x.upper ≤ INF ↔ _
        omega
    constructor
    · rintro a ⟨x, hx, c⟩
      exact (one x hx).1 (a x hx) c
    · intro a x hx
      exact (one x hx).2 (fun c => a ⟨x, hx, c⟩)
  · intro hn
    cases s with
    | nil => exact absurd rfl hn
    | cons x xs =>
      obtain ⟨x1, x2, x3, x4, x5⟩ := hs.wf x (by simp)
      simp only [TSet.overlapsSet, List.any_cons, Bool.or_eq_true]
      left
      simp only [TSet.overlaps, List.find?_cons, show (Convex.iv x).lower = x.lower from rfl]
      by_cases c : l - 1 ≥ x.lower
      · simp only [c, decide_true, decide_eq_true_eq]
        show -INF ≤ x.upper
        omega
      · have c' : INF ≥ x.lower := by omega
        simp only [c, c', decide_true, decide_false, decide_eq_true_eq]
        show u + 1 ≤ x.upper
        omega

/-- **C160**, partial: `remove(i, a & b)`, when `a` is before `b`, is answered `Ok(Unchanged)` and the schedule is left as it was, if no slot of the
instant goes on across the beginning of `b`. Missing: the other slots, see `C160_violated`. -/
theorem C160_unchanged_partial (dbg : Bool) {s : Sched} {i : Nat} {si : TSet} (hi : s.scheduling i = some si) (hc : Canon si)
    {a b : Iv} (ha : WF a) (hb : WF b) (h : a.upper < b.lower) :
    ((∃ s', s.remove dbg i (.iv (Iv.inter a (.iv b))) = .ok (s', .unchanged)) ↔ ¬ ∃ x ∈ si, x.lower < b.lower ∧ b.lower ≤ x.upper) ∧
    ((¬ ∃ x ∈ si, x.lower < b.lower ∧ b.lower ≤ x.upper) → s.remove dbg i (.iv (Iv.inter a (.iv b))) = .ok (s, .unchanged)) ∧
    ∀ s', s.remove dbg i (.iv (Iv.inter a (.iv b))) ≠ .ok (s', .recovered) := by
  obtain ⟨e, d1, d2, -⟩ := before_inter ha hb h
  obtain ⟨k1, k2⟩ := kept_test d1 d2 h hc
  rw [e]
  have t : s.remove dbg i (.iv ⟨b.lower, a.upper⟩) = s.retain dbg i (.set [⟨-INF, b.lower - 1⟩, ⟨a.upper + 1, INF⟩]) := by
    rw [Sched.remove, Negatable.not, compl_wrong d1 d2 h]
  rw [t, retain_test dbg hi]
  simp only [Window.containsSet, Window.overlapsSet]
  by_cases c : ∃ x ∈ si, x.lower < b.lower ∧ b.lower ≤ x.upper
  · have n : TSet.containsSet [⟨-INF, b.lower - 1⟩, ⟨a.upper + 1, INF⟩] si = false := by
      rw [← Bool.not_eq_true, k1]; exact fun f => f c
    have hn : si ≠ [] := by obtain ⟨x, hx, -⟩ := c; rintro rfl; simp at hx
    simp only [n, k2 hn, Bool.false_eq_true, if_false, Bool.not_true, c, not_true_eq_false, iff_false, false_imp_iff, true_and]
    refine ⟨?_, ?_⟩
    · rintro ⟨s', f⟩
      obtain ⟨r, -, f⟩ := bind_inv f
      obtain ⟨r, -, f⟩ := bind_inv f
      cases f
    · intro s' f
      obtain ⟨r, -, f⟩ := bind_inv f
      obtain ⟨r, -, f⟩ := bind_inv f
      cases f
  · have y : TSet.containsSet [⟨-INF, b.lower - 1⟩, ⟨a.upper + 1, INF⟩] si = true := k1.2 c
    simp [c, y]

/-- **C160** is violated by every slot which goes on across the beginning of `b`: no date of the instant is removed, no assignment of dates is lost,
and the answer is `Ok(Propagated)`. -/
theorem C160_violated (dbg : Bool) {s : Sched} (hv : Valid s.graph) (hz : ZeroDiag s.graph) (hs : Spanned s.graph) (hcs : CanonSched s)
    {B W : Int} (hg : Within B s.graph) (hw : WithinSched W s) (hW : W + B < INF) {i : Nat} (hl : i < s.graph.size) {si : TSet}
    (hi : s.scheduling i = some si) {a b : Iv} (ha : WF a) (hb : WF b) (h : a.upper < b.lower)
    (hx : ∃ x ∈ si, x.lower < b.lower ∧ b.lower ≤ x.upper) :
    ∃ s', s.remove dbg i (.iv (Iv.inter a (.iv b))) = .ok (s', .propagated) ∧ s'.graph = s.graph ∧ s'.scheduling i = some si ∧
      ∀ τ, Feasible τ s' ↔ Feasible τ s := by
  have hc : Canon si := hcs.2 si (List.mem_of_getElem? hi)
  obtain ⟨e, d1, d2, -⟩ := before_inter ha hb h
  obtain ⟨k1, k2⟩ := kept_test d1 d2 h hc
  have hn : si ≠ [] := by obtain ⟨x, hx, -⟩ := hx; rintro rfl; simp at hx
  have n : TSet.containsSet [⟨-INF, b.lower - 1⟩, ⟨a.upper + 1, INF⟩] si = false := by
    rw [← Bool.not_eq_true, k1]; exact fun f => f hx
  have same : ({ graph := s.graph, schedule := s.schedule.set i si } : Sched) = s := by
    have : s.schedule.set i si = s.schedule := by
      have hi' : s.schedule[i]? = some si := hi
      apply List.ext_getElem?
      intro j
      rw [List.getElem?_set]
      split
      · subst_vars; rw [hi']; split <;> first | rfl | (exfalso; rw [hcs.1] at *; omega)
      · rfl
    rw [this]
  obtain ⟨s', p1, p2, p3, p4, p5⟩ := propagateScheduling_ext dbg hv hz hs hcs.1 hcs.2 hl hi hn (fun x hx j hj sp hsp =>
    fits_of_within hW (hw si (List.mem_of_getElem? hi) x hx) (hg i j hl hj sp hsp))
  refine ⟨s', ?_, p2, p4, fun τ => ?_⟩
  · rw [e, Sched.remove, Negatable.not, compl_wrong d1 d2 h, retain_test dbg hi]
    simp only [Window.containsSet, Window.overlapsSet, Window.restrict, n, k2 hn, Bool.false_eq_true, if_false, Bool.not_true,
      inter_overlapping d1 d2 h hc hx, ok_bind, same, p1]
    rfl
  · simp only [Feasible, p2]
    refine and_congr_right (fun sat => ?_)
    have ti : Slot s i (τ i) ↔ InExtSet (τ i) si := by simp only [Slot, hi, Option.some.injEq, exists_eq_left']
    have ti' : Slot s' i (τ i) ↔ InExtSet (τ i) si := by
      show (∃ w, s'.schedule[i]? = some w ∧ _) ↔ _
      simp only [p4, Option.some.injEq, exists_eq_left']
    constructor <;> intro f j hj <;> by_cases c : j = i
    · subst c; exact ti.2 (ti'.1 (f j hj))
    · obtain ⟨w, w', sp, q1, q2, q3, q4⟩ := p5 j hj c
      obtain ⟨v, hv, g⟩ := f j hj
      have : some w' = some v := q2.symm.trans hv
      cases this
      exact ⟨w, q1, ((q4.pts _).1 g).1⟩
    · subst c; exact ti'.2 (ti.1 (f j hj))
    · obtain ⟨w, w', sp, q1, q2, q3, q4⟩ := p5 j hj c
      obtain ⟨v, hv, g⟩ := f j hj
      have : some w = some v := q1.symm.trans hv
      cases this
      obtain ⟨sp', z1, z2⟩ := sat i j hl hj
      rw [q3] at z1
      cases z1
      exact ⟨w', q2, (q4.pts _).2 ⟨g, τ i, ti.1 (f i hl), z2⟩⟩

/-! ## Examples -/

example : CanonSched ⟨exGraph, [[⟨0, 7⟩], [⟨0, 7⟩, ⟨12, 30⟩], [⟨15, 35⟩]]⟩ ∧ WF ⟨0, 14⟩ ∧ WF ⟨20, 25⟩ ∧
    (∃ x ∈ [(⟨0, 7⟩ : Iv), ⟨12, 30⟩], x.lower < 20 ∧ 20 ≤ x.upper) ∧
    (⟨exGraph, [[⟨0, 7⟩], [⟨0, 7⟩, ⟨12, 30⟩], [⟨15, 35⟩]]⟩ : Sched).remove true 1 (.iv (Iv.inter ⟨0, 14⟩ (.iv ⟨20, 25⟩))) =
      .ok (⟨exGraph, [[⟨0, 7⟩], [⟨0, 7⟩, ⟨12, 30⟩], [⟨17, 35⟩]]⟩, .propagated) ∧
    (⟨exGraph, [[⟨0, 7⟩], [⟨0, 7⟩, ⟨12, 30⟩], [⟨15, 35⟩]]⟩ : Sched).remove true 1 (.iv (Iv.inter ⟨0, 4⟩ (.iv ⟨10, 25⟩))) =
      .ok (⟨exGraph, [[⟨0, 7⟩], [⟨0, 7⟩, ⟨12, 30⟩], [⟨15, 35⟩]]⟩, .unchanged) := by
  refine ⟨by decide, by decide, by decide, ⟨⟨12, 30⟩, by decide, by decide, by decide⟩, by decide +kernel, by decide +kernel⟩

example : Valid exGraph ∧ ZeroDiag exGraph ∧ Spanned exGraph ∧ Within 26 exGraph ∧ CanonSched (Sched.new exGraph) ∧
    WithinSched 0 (Sched.new exGraph) ∧ (Sched.new exGraph).scheduling 1 = some [⟨-INF, INF⟩] :=
  ⟨exGraph_valid, zeroDiag_of_minimal exGraph_valid exGraph_minimal,
    spanned_of_sat exGraph_minimal.1 (by decide) exGraph_within, exGraph_within, ⟨by decide, by decide⟩, new_within _ _, by decide⟩

end Chrono
