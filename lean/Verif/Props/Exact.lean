import Verif.Props.SetRel
import Verif.Props.Interval

/-!
# Predicates decided outright, the corners of the infinities included
-/

namespace Chrono
open Spec

/-! ## C16 emptiness of ranges -/

/-- The ranges and points without any date which are not reported empty. -/
def Spec.UnseenEmpty (w : Convex) : Prop :=
  w = .point (-INF) ∨ w = .point INF ∨ w = .range (-INF) (-INF + 1) ∨ w = .rangeFrom INF ∨ w = .rangeIncl (-INF) (-INF) ∨
  w = .rangeIncl INF INF ∨ w = .rangeTo (-INF) ∨ w = .rangeTo (-INF + 1) ∨ w = .rangeToIncl (-INF)

/-- C16 decided outright: whatever the bounds, `is_empty` of a range or a point is true iff it has no date, except for nine windows
which touch an infinity and are not reported empty. -/
theorem C16_is_empty_exact (w : Convex) (hiv : ∀ i, w ≠ .iv i) (h : LegalBounds w) :
    w.isEmpty = true ↔ (¬ ∃ t, Date t ∧ InConvex t w) ∧ ¬ UnseenEmpty w := by
  cases w with
  | iv i => exact absurd rfl (hiv i)
  | point p =>
    simp only [LegalBounds, Legal] at h
    simp only [Convex.isEmpty, UnseenEmpty, InConvex, Convex.point.injEq, reduceCtorEq, or_false, false_or, false_iff, Bool.false_eq_true]
    rintro ⟨h1, h2⟩
    exact h1 ⟨p, ⟨by omega, by omega⟩, rfl⟩
  | range a b =>
    simp only [LegalBounds, Legal] at h
    simp only [Convex.isEmpty, UnseenEmpty, InConvex, Convex.range.injEq, reduceCtorEq, or_false, false_or, Bool.not_eq_true', decide_eq_false_iff_not]
    constructor
    · intro hab
      exact ⟨fun ⟨t, _, h1, h2⟩ => by omega, by omega⟩
    · rintro ⟨h1, h2⟩ hab
      by_cases c : a = -INF
      · exact h1 ⟨-INF + 1, by decide, by omega, by omega⟩
      · exact h1 ⟨a, ⟨by omega, by omega⟩, by omega, by omega⟩
  | rangeFrom a =>
    simp only [LegalBounds, Legal] at h
    simp only [Convex.isEmpty, UnseenEmpty, InConvex, Convex.rangeFrom.injEq, reduceCtorEq, or_false, false_or, false_iff, Bool.false_eq_true]
    rintro ⟨h1, h2⟩
    exact h1 ⟨INF - 1, by decide, by omega⟩
  | rangeIncl a b =>
    simp only [LegalBounds, Legal] at h
    simp only [Convex.isEmpty, UnseenEmpty, InConvex, Convex.rangeIncl.injEq, reduceCtorEq, or_false, false_or, Bool.not_eq_true', decide_eq_false_iff_not]
    constructor
    · intro hab
      exact ⟨fun ⟨t, _, h1, h2⟩ => by omega, by omega⟩
    · rintro ⟨h1, h2⟩ hab
      by_cases c : a = -INF
      · exact h1 ⟨-INF + 1, by decide, by omega, by omega⟩
      · exact h1 ⟨a, ⟨by omega, by omega⟩, by omega, by omega⟩
  | rangeTo b =>
    simp only [LegalBounds, Legal] at h
    simp only [Convex.isEmpty, UnseenEmpty, InConvex, Convex.rangeTo.injEq, reduceCtorEq, or_false, false_or, false_iff, Bool.false_eq_true]
    rintro ⟨h1, h2⟩
    exact h1 ⟨-INF + 1, by decide, by omega⟩
  | rangeToIncl b =>
    simp only [LegalBounds, Legal] at h
    simp only [Convex.isEmpty, UnseenEmpty, InConvex, Convex.rangeToIncl.injEq, reduceCtorEq, or_false, false_or, false_iff, Bool.false_eq_true]
    rintro ⟨h1, h2⟩
    exact h1 ⟨-INF + 1, by decide, by omega⟩

example : LegalBounds (.range 5 3) ∧ (Convex.range 5 3).isEmpty = true ∧ LegalBounds (.rangeTo (-INF)) ∧
    (Convex.rangeTo (-INF)).isEmpty = false := by decide

/-! ## C97 empty sets -/

/-- C97. A set converted from a date or a range, with any legal bounds, or built by `convex(a,b)`, is empty iff it has no date, except for the
windows without date which do not know they are empty (`UnseenEmpty`, see C16): the set converted from these is not empty, and not canonical. -/
theorem C97_empty_exact (w : Convex) (hiv : ∀ i, w ≠ .iv i) (h : LegalBounds w) (a b : Int) (ha : Legal a) (hb : Legal b) :
    (TSet.isEmpty (TSet.ofConvex w) = true ↔ (¬ ∃ t, Date t ∧ InConvex t w) ∧ ¬ UnseenEmpty w) ∧
    (TSet.isEmpty (TSet.convex a b) = true ↔ ¬ ∃ t, Date t ∧ a ≤ t ∧ t ≤ b) ∧
    (UnseenEmpty w → TSet.ofConvex w ≠ TSet.empty ∧ ¬ Canon (TSet.ofConvex w) ∧ ∀ t, Date t → ¬ InSet t (TSet.ofConvex w)) := by
  have e := C16_is_empty_exact w hiv h
  refine ⟨?_, ?_, ?_⟩
  · rw [← e, TSet.ofConvex]
    cases w.isEmpty <;> simp [TSet.isEmpty]
  · have c : TSet.isEmpty (TSet.convex a b) = (Iv.new a b).isEmpty := by
      rw [TSet.convex]
      cases hc : (Iv.new a b).isEmpty <;> simp [TSet.isEmpty]
    rw [c, C15_is_empty _ (C15_wellformed a b ha hb _ (by simp))]
    constructor
    · rintro hn ⟨t, ht, h1⟩
      exact hn ⟨t, ht, (C15_dates a b t ha hb ht).1.2 h1⟩
    · rintro hn ⟨t, ht, h1⟩
      exact hn ⟨t, ht, (C15_dates a b t ha hb ht).1.1 h1⟩
  · intro hu
    have hf : w.isEmpty = false := by
      cases hc : w.isEmpty with
      | false => rfl
      | true => exact absurd hu (e.1 hc).2
    have he : TSet.ofConvex w = [⟨w.lower, w.upper⟩] := by rw [TSet.ofConvex, hf]; rfl
    have hd : ∀ t, Date t → ¬ InIv t ⟨w.lower, w.upper⟩ := by
      intro t ht hin
      have e1 : justBefore (-INF + 1) = -INF := by decide
      have e2 : justBefore (-INF) = -INF := by decide
      rcases hu with rfl | rfl | rfl | rfl | rfl | rfl | rfl | rfl | rfl <;>
        simp only [InIv, Convex.lower, Convex.upper, e1, e2] at hin <;> ticks
    rw [he]
    refine ⟨by simp [TSet.empty], fun hcn => ?_, fun t ht hin => hd t ht (InSet_singleton.1 hin)⟩
    obtain ⟨t, ht, hi⟩ := (hcn.wf ⟨w.lower, w.upper⟩ (by simp)).exists_date
    exact hd t ht hi

example : LegalBounds (.point INF) ∧ UnseenEmpty (.point INF) ∧ TSet.ofConvex (.point INF) = [⟨INF, INF⟩] ∧
    LegalBounds (.range 5 3) ∧ TSet.ofConvex (.range 5 3) = [] := by unfold UnseenEmpty; decide

/-! ## C23 intervals without date -/

/-- C23 is violated in general: the intersection of any two disjoint well-formed intervals has no date and reports being bounded on
both sides. -/
theorem C23_disjoint_violated (i j : Iv) (hi : WF i) (hj : WF j) (hdis : ¬ ∃ t, Date t ∧ InIv t i ∧ InIv t j) :
    (Iv.inter i (.iv j)).isBounded = true ∧ (Iv.inter i (.iv j)).isLowBounded = true ∧ (Iv.inter i (.iv j)).isUpBounded = true ∧
    ¬ ∃ t, Date t ∧ InIv t (Iv.inter i (.iv j)) := by
  obtain ⟨g1, g2, g3, g4, g5⟩ := hi
  obtain ⟨k1, k2, k3, k4, k5⟩ := hj
  have hn : ∀ t, Date t → i.lower ≤ t → t ≤ i.upper → j.lower ≤ t → t ≤ j.upper → False :=
    fun t ht h1 h2 h3 h4 => hdis ⟨t, ht, ⟨h1, h2⟩, ⟨h3, h4⟩⟩
  have hlt : max i.lower j.lower > min i.upper j.upper := by
    refine Int.not_le.1 fun c => ?_
    by_cases e : max i.lower j.lower = -INF
    · exact hn (-INF + 1) (by decide) (by omega) (by omega) (by omega) (by omega)
    · exact hn (max i.lower j.lower) ⟨by omega, by omega⟩ (by omega) (by omega) (by omega) (by omega)
  have h1 : (Iv.inter i (.iv j)).isLowBounded = true := by
    simp only [Iv.inter, Convex.into, Iv.isLowBounded, isPastInfinite, Bool.not_eq_true', beq_eq_false_iff_ne, ne_eq]
    omega
  have h2 : (Iv.inter i (.iv j)).isUpBounded = true := by
    simp only [Iv.inter, Convex.into, Iv.isUpBounded, isFutureInfinite, Bool.not_eq_true', beq_eq_false_iff_ne, ne_eq]
    omega
  refine ⟨by rw [Iv.isBounded, h1, h2]; rfl, h1, h2, ?_⟩
  rintro ⟨t, -, h3, h4⟩
  simp only [Iv.inter, Convex.into] at h3 h4
  omega

example : WF ⟨0, 3⟩ ∧ WF ⟨7, INF⟩ ∧ Iv.inter ⟨0, 3⟩ (.iv ⟨7, INF⟩) = ⟨7, 3⟩ := by decide

/-! ## C25 convex windows -/

/-- C25 decided outright: `a.contains(b)` iff every date of `b` is in `a` and `a` is unbounded on each side where `b` is. -/
theorem C25_contains_exact (a b : Convex) (ha : Proper a) (hb : Proper b) :
    a.contains b = true ↔ (∀ t, Date t → InConvex t b → InConvex t a) ∧ (b.lower = -INF → a.lower = -INF) ∧
      (b.upper = INF → a.upper = INF) := by
  by_cases c : (b.lower = -INF → a.lower ≠ -INF + 1) ∧ (b.upper = INF → a.upper ≠ INF - 1)
  · rw [C25_contains_partial a b ha hb c.1 c.2]
    constructor
    · intro h
      have h' := (C25_contains_partial a b ha hb c.1 c.2).2 h
      simp only [Convex.contains, Convex.containsBounds, Bool.and_eq_true, decide_eq_true_eq] at h'
      refine ⟨h, ?_⟩
      rcases ha.cases with ⟨f1, f2, f3, _, f5⟩ | ⟨f1, f2, f3, f4⟩
      · rw [f2, f3] at h'; rw [f2, f3]
        ticks
      · obtain ⟨k1, k2, k3, k4, k5⟩ := f2
        simp only at k1 k2 k3 k4 k5
        omega
    · exact fun h => h.1
  · constructor
    · intro h
      simp only [Convex.contains, Convex.containsBounds, Bool.and_eq_true, decide_eq_true_eq] at h
      exfalso; apply c
      constructor <;> intro h' <;> ticks
    · rintro ⟨-, h1, h2⟩
      exfalso; apply c
      constructor <;> intro h'
      · have := h1 h'; ticks
      · have := h2 h'; ticks

/-- C25 decided outright: `a.overlaps(b)` iff they have a common date, or one is empty and the other unbounded on both sides. -/
theorem C25_overlaps_exact (a b : Convex) (ha : Proper a) (hb : Proper b) :
    a.overlaps b = true ↔ (∃ t, Date t ∧ InConvex t a ∧ InConvex t b) ∨
      (a.isEmpty = true ∧ b.lower = -INF ∧ b.upper = INF) ∨ (b.isEmpty = true ∧ a.lower = -INF ∧ a.upper = INF) := by
  by_cases c1 : a.isEmpty = true ∧ b.lower = -INF ∧ b.upper = INF
  · refine ⟨fun _ => .inr (.inl c1), fun _ => ?_⟩
    rcases ha.cases with ⟨f1, f2, f3, _, f5⟩ | ⟨f1, f2, f3, f4⟩
    · rw [Convex.overlaps, f2, f3, c1.2.1, c1.2.2]; decide
    · rw [f1] at c1; simp at c1
  · by_cases c2 : b.isEmpty = true ∧ a.lower = -INF ∧ a.upper = INF
    · refine ⟨fun _ => .inr (.inr c2), fun _ => ?_⟩
      rcases hb.cases with ⟨f1, f2, f3, _, f5⟩ | ⟨f1, f2, f3, f4⟩
      · rw [Convex.overlaps, f2, f3, c2.2.1, c2.2.2]; decide
      · rw [f1] at c2; simp at c2
    · rw [C25_overlaps_partial a b ha hb (fun h => by grind) (fun h => by grind)]
      grind

/-- The corners of `C25_contains_exact` and `C25_overlaps_exact`. -/
example : Proper (.iv ⟨-INF, 5⟩) ∧ Proper (.iv ⟨-INF + 1, 5⟩) ∧ Convex.contains (.iv ⟨-INF + 1, 5⟩) (.iv ⟨-INF, 5⟩) = false ∧
    Convex.contains (.iv ⟨-INF, 5⟩) (.iv ⟨-INF + 1, 5⟩) = true ∧ Proper (.iv Iv.empty) ∧
    Convex.overlaps (.range 7 2) (.iv Iv.all) = true ∧ Convex.overlaps (.range 7 2) (.rangeFrom 0) = false := by decide

/-! ## C35 containment in sets -/

/-- C35 decided outright, for windows with a date: a canonical set contains the window iff every date of the window is in the set, and
the set is unbounded on each side where the window is. -/
theorem C35_contains_exact (s : TSet) (w : Convex) (hs : Canon s) (hw : Proper w) (hne : ∃ t, Date t ∧ InConvex t w) :
    TSet.contains s w = true ↔ (∀ t, Date t → InConvex t w → InSet t s) ∧ (w.lower = -INF → TSet.lowerBound s = -INF) ∧
      (w.upper = INF → TSet.upperBound s = INF) := by
  obtain ⟨t0, ht0, hin0⟩ := hne
  rcases hw.cases with ⟨e1, e2, e3, _, e5⟩ | ⟨e1, e2, e3, e4⟩
  · exact absurd hin0 (e5 t0 ht0)
  · rw [contains_points hs e2]
    obtain ⟨g1, g2, g3, g4, g5⟩ := e2
    simp only at g1 g2 g3 g4 g5
    constructor
    · intro h
      refine ⟨fun t ht hin => h t ((e4 t ht).1 hin).1 ((e4 t ht).1 hin).2, fun hl => ?_, fun hu => ?_⟩
      · obtain ⟨i, hi, h1, h2⟩ := h (-INF) (by omega) (by omega)
        have hne : s ≠ [] := by rintro rfl; cases hi
        obtain ⟨hb, -, -, hall⟩ := canon_bounds hs hne
        have := (hall (-INF) ⟨i, hi, h1, h2⟩).1
        have := hb.lo
        simp only at this
        omega
      · obtain ⟨i, hi, h1, h2⟩ := h INF (by omega) (by omega)
        have hne : s ≠ [] := by rintro rfl; cases hi
        obtain ⟨hb, -, -, hall⟩ := canon_bounds hs hne
        have := (hall INF ⟨i, hi, h1, h2⟩).2
        have := hb.hi
        simp only at this
        omega
    · rintro ⟨h, hlo, hhi⟩ t h1 h2
      have hne : s ≠ [] := by
        rintro rfl
        obtain ⟨i, hi, -⟩ := h t0 ht0 hin0
        cases hi
      obtain ⟨-, k1, k2, -⟩ := canon_bounds hs hne
      by_cases c1 : t = -INF
      · rw [c1, ← hlo (by omega)]; exact k1
      · by_cases c2 : t = INF
        · rw [c2, ← hhi (by omega)]; exact k2
        · exact h t ⟨by omega, by omega⟩ ((e4 t ⟨by omega, by omega⟩).2 ⟨h1, h2⟩)

/-- C35 decided outright, for windows without date: a canonical set contains them iff it is unbounded above. -/
theorem C35_contains_empty_exact (s : TSet) (w : Convex) (hs : Canon s) (hw : Proper w) (hne : ¬ ∃ t, Date t ∧ InConvex t w) :
    TSet.contains s w = true ↔ TSet.upperBound s = INF := by
  rcases hw.cases with ⟨e1, e2, e3, _, e5⟩ | ⟨e1, e2, e3, e4⟩
  · rw [contains_iff hs, e2, e3]
    constructor
    · rintro ⟨i, hi, h1, h2, h3⟩
      have hne : s ≠ [] := by rintro rfl; cases hi
      obtain ⟨hb, -, -, hall⟩ := canon_bounds hs hne
      have := (hall i.upper ⟨i, hi, (hs.wf i hi).le, by omega⟩).2
      have := hb.hi
      simp only at this
      omega
    · intro hu
      have hne : s ≠ [] := by rintro rfl; revert hu; decide
      obtain ⟨-, -, ⟨i, hi, h1, h2⟩, -⟩ := canon_bounds hs hne
      have := hs.wf i hi
      exact ⟨i, hi, by omega, by have := this.lo_lt; omega, by have := this.lt_hi; omega⟩
  · obtain ⟨t, ht, h⟩ := e2.exists_date
    exact absurd ⟨t, ht, (e4 t ht).2 h⟩ hne

/-- The cases of `C35_contains_exact` and `C35_contains_empty_exact`. -/
example : Canon [⟨-INF + 1, 5⟩, ⟨8, INF⟩] ∧ Proper (.rangeToIncl 5) ∧ TSet.contains [⟨-INF + 1, 5⟩, ⟨8, INF⟩] (.rangeToIncl 5) = false ∧
    TSet.contains [⟨-INF + 1, 5⟩, ⟨8, INF⟩] (.rangeFrom 9) = true ∧ TSet.contains [⟨-INF + 1, 5⟩, ⟨8, INF⟩] (.range 3 2) = true ∧
    TSet.contains [⟨-INF + 1, 5⟩] (.range 3 2) = false := by decide

/-- C35 decided outright, for sets. -/
theorem C35_contains_set_exact (s r : TSet) (hs : Canon s) (hr : Canon r) :
    TSet.containsSet s r = true ↔ (∀ t, Date t → InSet t r → InSet t s) ∧ (TSet.lowerBound r = -INF → TSet.lowerBound s = -INF) ∧
      (TSet.upperBound r = INF → TSet.upperBound s = INF) := by
  have key : ∀ i ∈ r, (TSet.contains s (.iv i) = true ↔ (∀ t, Date t → InIv t i → InSet t s) ∧ (i.lower = -INF → TSet.lowerBound s = -INF) ∧
      (i.upper = INF → TSet.upperBound s = INF)) := fun i hi =>
    C35_contains_exact s (.iv i) hs (Or.inl (hr.wf i hi)) (hr.wf i hi).exists_date
  simp only [TSet.containsSet, List.all_eq_true]
  by_cases hne : r = []
  · subst hne
    simp only [List.not_mem_nil, false_implies, implies_true, InSet_nil, true_iff, true_and]
    exact ⟨fun h => absurd h (by decide), fun h => absurd h (by decide)⟩
  · obtain ⟨hb, ⟨i, hi, i1, i2⟩, ⟨j, hj, j1, j2⟩, hall⟩ := canon_bounds hr hne
    have hlo := (hr.wf i hi).lo
    have hhi := (hr.wf j hj).hi
    constructor
    · intro h
      refine ⟨fun t ht ⟨z, hz, hin⟩ => ((key z hz).1 (h z hz)).1 t ht hin, fun hl => ?_, fun hu => ?_⟩
      · exact ((key i hi).1 (h i hi)).2.1 (by omega)
      · exact ((key j hj).1 (h j hj)).2.2 (by omega)
    · rintro ⟨h, hl, hu⟩ z hz
      have hzw := hr.wf z hz
      have h1 := (hall z.lower ⟨z, hz, Int.le_refl _, hzw.le⟩).1
      have h2 := (hall z.upper ⟨z, hz, hzw.le, Int.le_refl _⟩).2
      have b1 := hb.lo
      have b2 := hb.hi
      simp only at b1 b2
      exact (key z hz).2 ⟨fun t ht hin => h t ht ⟨z, hz, hin⟩, fun c => hl (by omega), fun c => hu (by omega)⟩

/-- C35 decided outright, for a set in a convex window. -/
theorem C35_convex_contains_set_exact (w : Convex) (s : TSet) (hw : Proper w) (hs : Canon s) :
    w.containsSet s = true ↔ (∀ t, Date t → InSet t s → InConvex t w) ∧ (TSet.lowerBound s = -INF → w.lower = -INF) ∧
      (TSet.upperBound s = INF → w.upper = INF) := by
  simp only [Convex.containsSet, Convex.containsBounds, Bool.and_eq_true, decide_eq_true_eq]
  by_cases c : s = []
  · subst c
    rcases hw.cases with ⟨e1, e2, e3, _⟩ | ⟨e1, e2, _⟩
    · rw [e2, e3]
      simp only [InSet_nil, false_implies, implies_true, true_and]
      decide
    · obtain ⟨g1, g2, g3, g4, g5⟩ := e2
      simp only [TSet.lowerBound, TSet.upperBound, List.head?_nil, List.getLast?_nil, InSet_nil, false_implies, implies_true, true_and] at *
      exact ⟨fun _ => ⟨fun h => absurd h (by decide), fun h => absurd h (by decide)⟩, fun _ => by omega⟩
  · obtain ⟨hb, hl, hu, hall⟩ := canon_bounds hs c
    obtain ⟨k1, k2, k3, k4, k5⟩ := hb
    simp only at k1 k2 k3 k4 k5
    obtain ⟨tl, htl, hlin, hl'⟩ := canon_date_low hs hl k4
    obtain ⟨tu, htu, huin, hu'⟩ := canon_date_high hs hu k5
    rcases hw.cases with ⟨e1, e2, e3, _, e5⟩ | ⟨e1, e2, e3, e4⟩
    · rw [e2, e3]
      constructor
      · rintro ⟨h1, h2⟩; omega
      · intro h; exact absurd (h.1 tl htl hlin) (e5 tl htl)
    · obtain ⟨g1, g2, g3, g4, g5⟩ := e2
      simp only at g1 g2 g3 g4 g5
      constructor
      · rintro ⟨h1, h2⟩
        refine ⟨fun t ht hin => ?_, fun c => by omega, fun c => by omega⟩
        have := hall t hin
        exact (e4 t ht).2 ⟨by omega, by omega⟩
      · rintro ⟨h, m1, m2⟩
        have h1 := (e4 tl htl).1 (h tl htl hlin)
        have h2 := (e4 tu htu).1 (h tu htu huin)
        omega

example : Canon [⟨-INF, 5⟩, ⟨8, 9⟩] ∧ Convex.containsSet (.iv ⟨-INF + 1, 9⟩) [⟨-INF, 5⟩, ⟨8, 9⟩] = false ∧
    Convex.containsSet (.rangeTo 10) [⟨-INF, 5⟩, ⟨8, 9⟩] = true ∧ TSet.containsSet [⟨-INF + 1, 9⟩] [⟨-INF, 5⟩, ⟨8, 9⟩] = false := by decide

/-! ## C36 overlap of sets -/

/-- C36 decided outright: a canonical set overlaps a proper convex window iff they have a common date, or the window is empty and the set
is the set of all dates. -/
theorem C36_overlaps_exact (s : TSet) (w : Convex) (hs : Canon s) (hw : Proper w) :
    TSet.overlaps s w = true ↔ (∃ t, Date t ∧ InSet t s ∧ InConvex t w) ∨ (w.isEmpty = true ∧ s = TSet.all) := by
  by_cases c : w.isEmpty = true
  · rcases hw.cases with ⟨e1, e2, e3, _, e5⟩ | ⟨e1, e2, e3, e4⟩
    · rw [overlaps_iff hs, e2, e3]
      constructor
      · rintro ⟨i, hi, h1, h2⟩
        refine .inr ⟨c, ?_⟩
        obtain ⟨g1, g2, g3, g4, g5⟩ := hs.wf i hi
        have hi' : i = ⟨-INF, INF⟩ := by cases i; simp only at *; congr 1 <;> omega
        obtain ⟨s1, s2, rfl⟩ := List.append_of_mem hi
        have hp := List.pairwise_append.1 hs.gap
        have hp2 := List.pairwise_cons.1 hp.2.1
        cases s1 with
        | cons z s1 =>
          have := hp.2.2 z (by simp) i (by simp)
          have := (hs.wf z (by simp)).lt_hi
          omega
        | nil =>
          cases s2 with
          | cons z s2 =>
            have := hp2.1 z (by simp)
            have := (hs.wf z (by simp)).lo_lt
            omega
          | nil => rw [hi']; rfl
      · rintro (⟨t, ht, -, h⟩ | ⟨-, rfl⟩)
        · exact absurd h (e5 t ht)
        · exact ⟨⟨-INF, INF⟩, by decide, by decide, by decide⟩
    · rw [e1] at c; cases c
  · rw [(C36_overlaps_partial s w hs hw (by simpa using c)).1]
    simp [c]

example : Canon TSet.all ∧ Proper (.range 3 2) ∧ TSet.overlaps TSet.all (.range 3 2) = true ∧
    TSet.overlaps [⟨-INF, 5⟩, ⟨7, INF⟩] (.range 3 2) = false := by decide

end Chrono
