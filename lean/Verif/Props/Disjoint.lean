import Verif.Props.Interval
import Verif.Props.SetRel
import Verif.Lemmas.ShiftSched

/-!
# C157: the intersection of two intervals which have no date in common
-/

set_option linter.unusedSimpArgs false

namespace Chrono
open Spec

/-- its bounds are dates, in the wrong order -/
theorem disjoint_inter {i j : Iv} (hi : WF i) (hj : WF j) (h : ¬ ∃ t, Date t ∧ InIv t i ∧ InIv t j) :
    ∃ l u, Iv.inter i (.iv j) = ⟨l, u⟩ ∧ Date l ∧ Date u ∧ u < l := by
  obtain ⟨h1, h2, h3, h4, h5⟩ := id hi
  obtain ⟨g1, g2, g3, g4, g5⟩ := id hj
  refine ⟨_, _, rfl, ?_⟩
  simp only [Convex.into]
  by_cases c : max i.lower j.lower ≤ min i.upper j.upper
  · exfalso
    refine h ⟨if max i.lower j.lower = -INF then min 0 (min i.upper j.upper) else max i.lower j.lower, ?_⟩
    simp only [InIv]
    split <;> ticks
  · ticks

/-- **C157.** The intersection of two intervals without a common date has no date, and neither has what `&`, a truncation or a negation makes
of it; `|` with a window on either side gives exactly the dates of the window, `!` gives all the dates; its duration is zero. -/
theorem C157_dates {i j : Iv} (hi : WF i) (hj : WF j) (h : ¬ ∃ t, Date t ∧ InIv t i ∧ InIv t j) {w : Convex} (hw : Proper w)
    {k : Iv} (hk : WF k) (c : Int) {t : Int} (ht : Date t) :
    ¬ InIv t (Iv.inter i (.iv j)) ∧ ¬ InIv t (Iv.inter (Iv.inter i (.iv j)) w) ∧ ¬ InIv t (Iv.inter k (.iv (Iv.inter i (.iv j)))) ∧
    ¬ InIv t ((Iv.inter i (.iv j)).truncateBefore c).1 ∧ ¬ InIv t ((Iv.inter i (.iv j)).truncateAfter c).1 ∧
    ¬ InIv t (Iv.inter i (.iv j)).neg ∧
    (InSet t (Iv.union (Iv.inter i (.iv j)) w) ↔ InConvex t w) ∧ (InSet t (Iv.union k (.iv (Iv.inter i (.iv j)))) ↔ InIv t k) ∧
    InSet t (Iv.compl (Iv.inter i (.iv j))) ∧ (Iv.inter i (.iv j)).duration = .ok 0 := by
  obtain ⟨l, u, e, hl, hu, hlu⟩ := disjoint_inter hi hj h
  rw [e]
  have ne : (⟨l, u⟩ : Iv).isEmpty = false := by
    rw [← Bool.not_eq_true, Iv.isEmpty_iff]; ticks
  refine ⟨?_, ?_, ?_, ?_, ?_, ?_, ?_, ?_, ?_, ?_⟩
  · simp only [InIv]; omega
  · simp only [InIv, Iv.inter]; omega
  · simp only [InIv, Iv.inter, Convex.into]; omega
  · simp only [Iv.truncateBefore]
    (repeat' split) <;> simp only [InIv, Iv.empty] <;> ticks
  · simp only [Iv.truncateAfter]
    (repeat' split) <;> simp only [InIv, Iv.empty] <;> ticks
  · simp only [InIv, Iv.neg]; omega
  · simp only [Iv.union, ne, Bool.false_eq_true, if_false]
    rcases hw.cases with ⟨e1, -, -, -, e5⟩ | ⟨e1, e2, e3, e4⟩
    · rw [if_pos e1]
      simp only [InSet, List.mem_singleton, exists_eq_left, InIv, e5 t ht, iff_false]
      omega
    · obtain ⟨g1, g2, g3, g4, g5⟩ := id e2
      simp only [e1, Bool.false_eq_true, if_false, e3, e4 t ht, justBefore_eq]
      simp only at g1 g2 g3 g4 g5
      generalize w.lower = a at *
      generalize w.upper = b at *
      (repeat' split) <;> simp only [InSet, List.mem_cons, List.not_mem_nil, or_false, exists_eq_or_imp, exists_eq_left, InIv] <;> ticks
  · obtain ⟨g1, g2, g3, g4, g5⟩ := id hk
    have nk : k.isEmpty = false := hk.not_isEmpty
    simp only [Iv.union, nk, Convex.isEmpty, ne, Bool.false_eq_true, if_false, justBefore_eq, Convex.into, Convex.lower, Convex.upper]
    (repeat' split) <;> simp only [InSet, List.mem_cons, List.not_mem_nil, or_false, exists_eq_or_imp, exists_eq_left, InIv] <;> ticks
  · simp only [Iv.compl, ne, Bool.false_eq_true, if_false]
    split <;> rename_i c1 c2 <;>
      (first
        | rw [isPastInfinite_iff] at c1
        | (rw [← Bool.not_eq_true, isPastInfinite_iff] at c1)) <;>
      (first
        | rw [isFutureInfinite_iff] at c2
        | (rw [← Bool.not_eq_true, isFutureInfinite_iff] at c2)) <;>
      rw [justBefore_eq] at c1 <;> rw [justAfter_eq] at c2 <;>
      simp only [InSet, List.mem_cons, List.not_mem_nil, or_false, exists_eq_or_imp, exists_eq_left, InIv, justBefore_eq, justAfter_eq,
        false_and, exists_false] <;>
      ((repeat' split at c1) <;> (repeat' split at c2) <;> (repeat' split) <;> ticks)
  · simp only [Iv.duration]
    rw [if_pos (by omega)]

/-- **C157.** It contains a window only if the window is the empty one. -/
theorem C157_contains {i j : Iv} (hi : WF i) (hj : WF j) (h : ¬ ∃ t, Date t ∧ InIv t i ∧ InIv t j) {w : Convex} (hw : Proper w) :
    (Convex.iv (Iv.inter i (.iv j))).contains w = true ↔ ∀ t, Date t → ¬ InConvex t w := by
  obtain ⟨l, u, e, hl, hu, hlu⟩ := disjoint_inter hi hj h
  rw [e]
  simp only [Convex.contains, Convex.containsBounds, Bool.and_eq_true, decide_eq_true_eq]
  show (l ≤ w.lower ∧ w.upper ≤ u) ↔ _
  rcases hw.cases with ⟨-, e2, e3, -, e5⟩ | ⟨-, e2, -, e4⟩
  · rw [e2, e3]
    exact ⟨fun _ t ht => e5 t ht, fun _ => by ticks⟩
  · obtain ⟨g1, g2, g3, g4, g5⟩ := id e2
    simp only at g1 g2 g3 g4 g5
    constructor
    · intro c; omega
    · intro c
      exfalso
      have ht : Date (if w.lower = -INF then min 0 w.upper else w.lower) := by split <;> ticks
      refine c _ ht ((e4 _ ht).2 ?_)
      split <;> ticks

/-- the first interval is before the second one -/
theorem before_inter {i j : Iv} (hi : WF i) (hj : WF j) (h : i.upper < j.lower) :
    Iv.inter i (.iv j) = ⟨j.lower, i.upper⟩ ∧ Date j.lower ∧ Date i.upper ∧ ¬ ∃ t, Date t ∧ InIv t i ∧ InIv t j := by
  obtain ⟨h1, h2, h3, h4, h5⟩ := id hi
  obtain ⟨g1, g2, g3, g4, g5⟩ := id hj
  refine ⟨?_, by ticks, by ticks, ?_⟩
  · simp only [Iv.inter, Convex.into, Iv.mk.injEq]; omega
  · rintro ⟨t, -, a, b⟩
    simp only [InIv] at a b
    omega

/-- **C157** is violated: the intersection of two intervals, the first one before the second one, is said to overlap every window which has
dates of both, and a window which ends before the end of both is said not to contain it, although it has no date. -/
theorem C157_relations_violated {i j : Iv} (hi : WF i) (hj : WF j) (h : i.upper < j.lower) {w : Convex} (hw : Proper w) :
    (¬ ∃ t, Date t ∧ InIv t (Iv.inter i (.iv j))) ∧
    ((Convex.iv (Iv.inter i (.iv j))).overlaps w = true ↔
      (∃ t, Date t ∧ InIv t i ∧ InConvex t w) ∧ ∃ t, Date t ∧ InIv t j ∧ InConvex t w) ∧
    (w.upper < i.upper → w.contains (.iv (Iv.inter i (.iv j))) = false) := by
  obtain ⟨e, d1, d2, no⟩ := before_inter hi hj h
  obtain ⟨h1, h2, h3, h4, h5⟩ := id hi
  obtain ⟨g1, g2, g3, g4, g5⟩ := id hj
  rw [e]
  refine ⟨?_, ?_, fun c => ?_⟩
  · rintro ⟨t, -, a⟩
    simp only [InIv] at a
    omega
  · simp only [Convex.overlaps, Bool.and_eq_true, decide_eq_true_eq]
    show (j.lower ≤ w.upper ∧ w.lower ≤ i.upper) ↔ _
    rcases hw.cases with ⟨-, e2, e3, -, e5⟩ | ⟨-, e2, -, e4⟩
    · rw [e2, e3]
      constructor
      · intro c; exfalso; ticks
      · rintro ⟨⟨t, a, -, b⟩, -⟩
        exact absurd b (e5 t a)
    · obtain ⟨k1, k2, k3, k4, k5⟩ := id e2
      simp only at k1 k2 k3 k4 k5
      constructor
      · intro c
        exact ⟨⟨i.upper, d2, by simp only [InIv]; omega, (e4 _ d2).2 (by omega)⟩, ⟨j.lower, d1, by simp only [InIv]; omega, (e4 _ d1).2 (by omega)⟩⟩
      · rintro ⟨⟨t, a, b, c⟩, ⟨t', a', b', c'⟩⟩
        rw [e4 _ a] at c
        rw [e4 _ a'] at c'
        simp only [InIv] at b b'
        omega
  · simp only [Convex.contains, Convex.containsBounds, Bool.and_eq_false_iff, decide_eq_false_iff_not]
    show ¬ (w.lower ≤ j.lower) ∨ ¬ (i.upper ≤ w.upper)
    omega

/-- **C157** is violated: what `!` makes of it is not a canonical set, and neither is its union with an interval which is away from both. -/
theorem C157_canonical_violated {i j : Iv} (hi : WF i) (hj : WF j) (h : i.upper < j.lower) :
    ¬ Canon (Iv.compl (Iv.inter i (.iv j))) ∧
    ∀ k, WF k → k.upper < i.lower - 1 → Iv.union (Iv.inter i (.iv j)) (.iv k) = [k, ⟨j.lower, i.upper⟩] ∧ ¬ Canon [k, ⟨j.lower, i.upper⟩] := by
  obtain ⟨e, d1, d2, no⟩ := before_inter hi hj h
  obtain ⟨h1, h2, h3, h4, h5⟩ := id hi
  obtain ⟨g1, g2, g3, g4, g5⟩ := id hj
  rw [e]
  have ne : (⟨j.lower, i.upper⟩ : Iv).isEmpty = false := by
    rw [← Bool.not_eq_true, Iv.isEmpty_iff]; ticks
  refine ⟨fun c => ?_, fun k hk hl => ⟨?_, fun c => ?_⟩⟩
  · have p1 : isPastInfinite (j.lower - 1) = false := by
      rw [← Bool.not_eq_true, isPastInfinite_iff]; ticks
    have p2 : isFutureInfinite (i.upper + 1) = false := by
      rw [← Bool.not_eq_true, isFutureInfinite_iff]; ticks
    simp only [Iv.compl, ne, Bool.false_eq_true, if_false, justBefore_date d1, justAfter_date d2, p1, p2] at c
    have := c.gap
    simp only [List.pairwise_cons, List.mem_cons, List.not_mem_nil, or_false, forall_eq] at this
    have := this.1
    omega
  · obtain ⟨k1, k2, k3, k4, k5⟩ := id hk
    have nk : k.isEmpty = false := hk.not_isEmpty
    simp only [Iv.union, ne, Convex.isEmpty, nk, Bool.false_eq_true, if_false, Convex.upper, justBefore_date d1, Convex.into]
    rw [if_pos (by omega)]
  · have := (c.1 ⟨j.lower, i.upper⟩ (by simp)).le
    exact absurd (show j.lower ≤ i.upper from this) (by omega)

/-- **C157** is violated: adding a span at least as long as the gap between the intervals gives dates to the intersection, and adding a duration
panics in a debug build. -/
theorem C157_translate_violated {i j sp : Iv} (hi : WF i) (hj : WF j) (h : i.upper < j.lower) (hsp : WF sp)
    (hl : -INF < sp.lower) (hu : sp.upper < INF) (gap : j.lower + sp.lower < i.upper + sp.upper)
    (h1 : -INF < j.lower + sp.lower) (h2 : i.upper + sp.upper < INF) :
    (∀ dbg, Iv.addSpan dbg (Iv.inter i (.iv j)) sp = .ok ⟨j.lower + sp.lower, i.upper + sp.upper⟩) ∧
    (∃ t, Date t ∧ InIv t ⟨j.lower + sp.lower, i.upper + sp.upper⟩) ∧
    ∀ d, -INF < d → d < INF → -INF < i.upper + d → j.lower + d < INF →
      Iv.addTv true (Iv.inter i (.iv j)) d = .error .debugAssert := by
  obtain ⟨e, d1, d2, no⟩ := before_inter hi hj h
  rw [e]
  have hs := hsp.le
  refine ⟨fun dbg => ?_, ⟨j.lower + sp.lower, by ticks, by simp only [InIv]; omega⟩, fun d a b c f => ?_⟩
  · have a1 : tvAdd j.lower sp.lower = .ok (j.lower + sp.lower) := tvAdd_plain d1 ⟨by omega, by omega⟩ ⟨by omega, by omega⟩
    have a2 : tvAdd i.upper sp.upper = .ok (i.upper + sp.upper) := tvAdd_plain d2 ⟨by omega, by omega⟩ ⟨by omega, by omega⟩
    simp only [Iv.addSpan, a1, a2, ok_bind]
    rw [Iv.new, if_pos gap]
    simp only [Iv.debugNonEmpty]
    rw [if_neg]
    simp only [Bool.and_eq_true, Iv.isEmpty_iff]
    ticks
  · have a1 : tvAdd j.lower d = .ok (j.lower + d) := tvAdd_plain d1 ⟨by omega, by omega⟩ ⟨by omega, by omega⟩
    have a2 : tvAdd i.upper d = .ok (i.upper + d) := tvAdd_plain d2 ⟨by omega, by omega⟩ ⟨by omega, by omega⟩
    simp only [Iv.addTv, a1, a2, ok_bind]
    rw [Iv.new, if_neg (by omega), if_neg (by omega)]
    rfl

/-! ## Examples -/

example : WF ⟨0, 4⟩ ∧ WF ⟨10, 20⟩ ∧ Iv.inter ⟨0, 4⟩ (.iv ⟨10, 20⟩) = ⟨10, 4⟩ ∧ (⟨10, 4⟩ : Iv).isEmpty = false ∧
    (Convex.iv ⟨10, 4⟩).overlaps (.iv ⟨2, 12⟩) = true ∧ (Convex.iv ⟨-9, -5⟩).contains (.iv ⟨10, 4⟩) = false ∧
    Iv.compl ⟨10, 4⟩ = [⟨-INF, 9⟩, ⟨5, INF⟩] ∧ Iv.addSpan true ⟨10, 4⟩ ⟨0, 8⟩ = .ok ⟨10, 12⟩ ∧
    Iv.addTv true ⟨10, 4⟩ 1 = .error .debugAssert := by decide

end Chrono
