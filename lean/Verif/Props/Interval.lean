import Verif.Lemmas.Interval

/-!
# Intervals and convex windows: C15 – C26
-/

set_option linter.unusedSimpArgs false

namespace Chrono
open Spec

/-! ## C15 constructors -/

/-- C15. `new(a,b)`, `singleton`, `after`, `before`, `all`, `empty` contain exactly the dates they say. -/
theorem C15_dates (a b t : Int) (ha : Legal a) (hb : Legal b) (ht : Date t) :
    (InIv t (Iv.new a b) ↔ a ≤ t ∧ t ≤ b) ∧ (InIv t (Iv.singleton a) ↔ t = a) ∧
    (InIv t (Iv.after a) ↔ a ≤ t) ∧ (InIv t (Iv.before a) ↔ t ≤ a) ∧
    InIv t Iv.all ∧ ¬ InIv t Iv.empty := by
  refine ⟨?_, ?_, ?_, ?_, ?_, empty_no_date ht⟩
  · rcases Iv.new_cases ha hb with ⟨h1, h2⟩ | ⟨h1, _⟩
    · rw [h1]
      have := empty_no_date ht
      constructor
      · exact fun h => absurd h this
      · intro h; ticks
    · rw [h1]; exact Iff.rfl
  · exact into_dates (w := .point a) ha ht
  · simp only [Iv.after]
    split
    · rename_i h
      rw [isFutureInfinite_iff] at h
      simp only [InIv, Iv.empty]; ticks
    · simp only [InIv]; ticks
  · simp only [Iv.before]
    split
    · rename_i h
      rw [isPastInfinite_iff] at h
      simp only [InIv, Iv.empty]; ticks
    · simp only [InIv]; ticks
  · simp only [InIv, Iv.all]; ticks

/-- C15. Each result is well formed or the canonical empty interval. -/
theorem C15_wellformed (a b : Int) (ha : Legal a) (hb : Legal b) :
    ∀ i ∈ [Iv.new a b, Iv.singleton a, Iv.after a, Iv.before a, Iv.all, Iv.empty],
      WF i ∨ i = ⟨INF, -INF⟩ := by
  intro i hi
  simp only [List.mem_cons, List.not_mem_nil, or_false] at hi
  rcases hi with rfl | rfl | rfl | rfl | rfl | rfl
  · rcases Iv.new_cases ha hb with ⟨h1, _⟩ | ⟨h1, h2⟩
    · right; exact h1
    · left; rw [h1]; exact h2
  · simp only [Iv.singleton]
    split
    · rename_i h; have := isFinite_iff.1 h
      left; constructor <;> simp only <;> ticks
    · right; rfl
  · simp only [Iv.after]
    split
    · right; rfl
    · rename_i h; rw [isFutureInfinite_iff] at h
      left; constructor <;> simp only <;> ticks
  · simp only [Iv.before]
    split
    · right; rfl
    · rename_i h; rw [isPastInfinite_iff] at h
      left; constructor <;> simp only <;> ticks
  · left; decide
  · right; rfl

/-- C15. `is_empty` is right on well-formed intervals and on the canonical empty one. -/
theorem C15_is_empty (i : Iv) (h : WF i ∨ i = ⟨INF, -INF⟩) :
    i.isEmpty = true ↔ ¬ ∃ t, Date t ∧ InIv t i := by
  rcases h with h | rfl
  · simp [h.not_isEmpty, h.exists_date]
  · constructor
    · rintro _ ⟨t, ht, h⟩; exact empty_no_date ht h
    · intro _; rfl

example : Legal 3 ∧ Legal 8 ∧ Iv.new 3 8 = ⟨3, 8⟩ ∧ Iv.new 8 3 = Iv.empty ∧
    Iv.new INF INF = Iv.empty := by decide

/-! ## C16 ranges -/

/-- C16. Every window, converted to an interval, contains exactly its dates (for a range `a..b` those
with `a ≤ t < b`, and so on), whatever its bounds. -/
theorem C16_dates (w : Convex) (h : LegalBounds w) (t : Int) (ht : Date t) :
    InIv t w.into ↔ InConvex t w := into_dates h ht

/-- C16, partial: the predicates agree with the denoted set of dates when the bounds leave room for a
date: `is_empty` iff no date; `is_low_bounded` iff there is a date and `-oo` is not in the window;
`is_up_bounded` iff there is a date and the upper bound is not `+oo`; `is_bounded` iff both.
Missing: bounds at or next to an infinity, where it fails (next theorem). -/
theorem C16_predicates_partial (w : Convex) (hiv : ∀ i, w ≠ .iv i) (h : Proper w) :
    (w.isEmpty = true ↔ ¬ ∃ t, Date t ∧ InConvex t w) ∧
    (w.isLowBounded = true ↔ (∃ t, Date t ∧ InConvex t w) ∧ ¬ InConvex (-INF) w) ∧
    (w.isUpBounded = true ↔ (∃ t, Date t ∧ InConvex t w) ∧ w.upper ≠ INF) ∧
    (w.isBounded = true ↔ w.isLowBounded = true ∧ w.isUpBounded = true) := by
  have hne : (w.isEmpty = true ↔ ¬ ∃ t, Date t ∧ InConvex t w) := by
    rcases h.cases with ⟨h1, _, _, _, h2⟩ | ⟨h1, h2, _, h3⟩
    · constructor
      · rintro _ ⟨t, ht, hw⟩; exact h2 t ht hw
      · intro _; exact h1
    · obtain ⟨t, ht, hw⟩ := h2.exists_date
      constructor
      · intro h; rw [h1] at h; cases h
      · intro h; exact absurd ⟨t, ht, (h3 t ht).2 hw⟩ h
  have hne' : (∃ t, Date t ∧ InConvex t w) ↔ w.isEmpty = false := by
    rw [← Bool.not_eq_true, hne, Classical.not_not]
  rw [hne']
  refine ⟨?_, ?_, ?_, ?_⟩
  · rw [hne, hne']
  · cases w with
    | iv i => exact absurd rfl (hiv i)
    | point p =>
      have h : Date p := h
      simp only [Convex.isLowBounded, Convex.isEmpty, isFinite_iff, InConvex, true_and]; ticks
    | range a b =>
      have h : -INF ≤ a ∧ a < INF ∧ -INF + 1 < b ∧ b ≤ INF := h
      simp only [Convex.isLowBounded, Convex.isEmpty, Convex.lower, Bool.and_eq_true, isFinite_iff,
        InConvex]
      by_cases hab : a < b <;> simp [hab] <;> ticks
    | rangeFrom a =>
      have h : -INF ≤ a ∧ a < INF := h
      simp only [Convex.isLowBounded, Convex.isEmpty, Convex.lower, isFinite_iff, InConvex, true_and]
      ticks
    | rangeIncl a b =>
      have h : -INF ≤ a ∧ a < INF ∧ -INF < b ∧ b ≤ INF := h
      simp only [Convex.isLowBounded, Convex.isEmpty, Convex.lower, Bool.and_eq_true, isFinite_iff,
        InConvex]
      by_cases hab : a ≤ b <;> simp [hab] <;> ticks
    | rangeTo b =>
      have h : -INF + 1 < b ∧ b ≤ INF := h
      simp only [Convex.isLowBounded, Convex.isEmpty, InConvex]; simp; ticks
    | rangeToIncl b =>
      have h : -INF < b ∧ b ≤ INF := h
      simp only [Convex.isLowBounded, Convex.isEmpty, InConvex]; simp; ticks
  · cases w with
    | iv i => exact absurd rfl (hiv i)
    | point p =>
      have h : Date p := h
      simp only [Convex.isUpBounded, Convex.isEmpty, Convex.upper, isFinite_iff, true_and]; ticks
    | range a b =>
      have h : -INF ≤ a ∧ a < INF ∧ -INF + 1 < b ∧ b ≤ INF := h
      simp only [Convex.isUpBounded, Convex.isEmpty, Convex.upper, Bool.and_eq_true, isFinite_iff,
        justBefore_eq]
      by_cases hab : a < b
      · simp only [hab, if_true]; simp only [decide_true, Bool.not_true, Bool.not_false, true_and]
        split <;> ticks
      · simp [hab]
    | rangeFrom a => simp [Convex.isUpBounded, Convex.isEmpty, Convex.upper]
    | rangeIncl a b =>
      have h : -INF ≤ a ∧ a < INF ∧ -INF < b ∧ b ≤ INF := h
      simp only [Convex.isUpBounded, Convex.isEmpty, Convex.upper, Bool.and_eq_true, isFinite_iff]
      by_cases hab : a ≤ b <;> simp [hab] <;> ticks
    | rangeTo b =>
      have h : -INF + 1 < b ∧ b ≤ INF := h
      simp only [Convex.isUpBounded, Convex.isEmpty, Convex.upper, isFinite_iff, justBefore_eq, true_and]
      split <;> ticks
    | rangeToIncl b =>
      have h : -INF < b ∧ b ≤ INF := h
      simp only [Convex.isUpBounded, Convex.isEmpty, Convex.upper, isFinite_iff, true_and]; ticks
  · cases w with
    | iv i => exact absurd rfl (hiv i)
    | point p => simp [Convex.isBounded, Convex.isLowBounded, Convex.isUpBounded]
    | range a b => simp [Convex.isBounded, Convex.isLowBounded, Convex.isUpBounded, and_assoc]; grind
    | rangeFrom a => simp [Convex.isBounded, Convex.isUpBounded]
    | rangeIncl a b => simp [Convex.isBounded, Convex.isLowBounded, Convex.isUpBounded, and_assoc]; grind
    | rangeTo b => simp [Convex.isBounded, Convex.isLowBounded]
    | rangeToIncl b => simp [Convex.isBounded, Convex.isLowBounded]

/-- C16 is violated next to the infinities: `..=-oo`, `-oo..(-oo+1 tick)` and `+oo..` contain no date
but are not `is_empty`. -/
theorem C16_predicates_violated :
    (∀ t, Date t → ¬ InConvex t (.rangeToIncl (-INF))) ∧ (Convex.rangeToIncl (-INF)).isEmpty = false ∧
    (∀ t, Date t → ¬ InConvex t (.range (-INF) (-INF + 1))) ∧
    (Convex.range (-INF) (-INF + 1)).isEmpty = false ∧
    (∀ t, Date t → ¬ InConvex t (.rangeFrom INF)) ∧ (Convex.rangeFrom INF).isEmpty = false := by
  refine ⟨fun t ht h => ?_, rfl, fun t ht h => ?_, by decide, fun t ht h => ?_, rfl⟩ <;>
    simp only [InConvex] at h <;> ticks

example : Proper (.range 3 8) ∧ (∀ i, Convex.range 3 8 ≠ .iv i) ∧ Proper (.range 8 3) ∧
    (Convex.range 8 3).isEmpty = true ∧ (Convex.range 3 8).into = ⟨3, 7⟩ :=
  ⟨by decide, (fun _ h => by cases h), by decide, by decide, by decide⟩

/-! ## C17 intersection -/

/-- C17. `a & b` and `a &= b` contain exactly the common dates, for windows of any kind
(`a.into` is the interval itself, the singleton of a point, or the interval of a range). -/
theorem C17_inter (a b : Convex) (ha : LegalBounds a) (hb : LegalBounds b) (t : Int) (ht : Date t) :
    (InIv t (Iv.inter a.into b) ↔ InConvex t a ∧ InConvex t b) ∧
    (InIv t (Iv.interAssign a.into b) ↔ InConvex t a ∧ InConvex t b) := by
  rw [← into_dates ha ht]
  constructor
  · rw [← into_dates hb ht]
    simp only [InIv, Iv.inter]; omega
  · rw [← bounds_dates hb ht]
    simp only [InIv, Iv.interAssign]
    repeat' split
    all_goals ticks

example : LegalBounds (.range 3 8) ∧ LegalBounds (.rangeFrom 5) ∧
    Iv.inter (Convex.range 3 8).into (.rangeFrom 5) = ⟨5, 7⟩ := by decide

/-! ## C18 emptiness -/

/-- C18, partial: `is_empty` is right for the constructors, and for `i & j` when `i`, `j` have a
common date or one of them is the canonical empty interval. Missing: disjoint `i`, `j`, always wrong. -/
theorem C18_is_empty_partial (i j : Iv) (hi : WF i ∨ i = ⟨INF, -INF⟩) (hj : WF j ∨ j = ⟨INF, -INF⟩)
    (h : (∃ t, Date t ∧ InIv t i ∧ InIv t j) ∨ i = ⟨INF, -INF⟩ ∨ j = ⟨INF, -INF⟩) :
    (Iv.inter i (.iv j)).isEmpty = true ↔ ¬ ∃ t, Date t ∧ InIv t (Iv.inter i (.iv j)) := by
  have hL : ∀ i : Iv, (WF i ∨ i = ⟨INF, -INF⟩) → Legal i.lower ∧ Legal i.upper := by
    rintro i (h | rfl)
    · obtain ⟨h1, h2, h3, h4, h5⟩ := h; constructor <;> ticks
    · decide
  have key : ∀ t, Date t → (InIv t (Iv.inter i (.iv j)) ↔ InIv t i ∧ InIv t j) :=
    fun t ht => (C17_inter (.iv i) (.iv j) (hL i hi) (hL j hj) t ht).1
  rcases h with ⟨t, ht, h1, h2⟩ | h
  · constructor
    · intro he; rw [Iv.isEmpty_iff] at he
      have := ((key t ht).2 ⟨h1, h2⟩).1
      ticks
    · intro hn; exact absurd ⟨t, ht, (key t ht).2 ⟨h1, h2⟩⟩ hn
  · constructor
    · rintro _ ⟨t, ht, h'⟩
      have h' := (key t ht).1 h'
      rcases h with rfl | rfl
      · exact empty_no_date ht h'.1
      · exact empty_no_date ht h'.2
    · intro _
      rw [Iv.isEmpty_iff]
      have := hL i hi; have := hL j hj
      rcases h with rfl | rfl <;> simp only [Iv.inter, Convex.into] <;> ticks

/-- C18 is violated: the intersection of any two disjoint well-formed intervals has no date and is
never `is_empty`. -/
theorem C18_inter_violated (i j : Iv) (hi : WF i) (hj : WF j)
    (hdis : ¬ ∃ t, Date t ∧ InIv t i ∧ InIv t j) :
    (Iv.inter i (.iv j)).isEmpty = false ∧ ¬ ∃ t, Date t ∧ InIv t (Iv.inter i (.iv j)) := by
  obtain ⟨h1, h2, h3, h4, h5⟩ := hi
  obtain ⟨g1, g2, g3, g4, g5⟩ := hj
  constructor
  · rw [← Bool.not_eq_true, Iv.isEmpty_iff]; simp only [Iv.inter, Convex.into]; ticks
  · rintro ⟨t, ht, h⟩
    exact hdis ⟨t, ht, (C17_inter (.iv i) (.iv j) (by constructor <;> ticks)
      (by constructor <;> ticks) t ht).1.1 h⟩

example : WF ⟨0, 4⟩ ∧ WF ⟨10, 12⟩ ∧ Iv.inter ⟨0, 4⟩ (.iv ⟨10, 12⟩) = ⟨10, 4⟩ ∧
    WF ⟨3, 11⟩ ∧ Iv.inter ⟨3, 11⟩ (.iv ⟨10, 12⟩) = ⟨10, 11⟩ := by decide

/-! ## C19 union of two convex windows -/

/-- C19. `a | b` contains exactly the dates of `a` and of `b`, as a canonical set. -/
theorem C19_union (i : Iv) (w : Convex) (hi : WF i ∨ i = ⟨INF, -INF⟩) (hw : Proper w) :
    Canon (Iv.union i w) ∧
    ∀ t, Date t → (InSet t (Iv.union i w) ↔ InIv t i ∨ InConvex t w) := by
  rcases hi with hi | rfl
  · have hie := hi.not_isEmpty
    rcases hw.cases with ⟨e1, e2, e3, e4, e5⟩ | ⟨e1, e2, e3, e4⟩
    · simp only [Iv.union, hie, e1]
      simp only [Bool.false_eq_true, if_false, if_true]
      refine ⟨⟨by simpa using hi, by simp⟩, fun t ht => ?_⟩
      simp [InSet, e5 t ht]
    · simp only [Iv.union, hie, e1, e3]
      simp only [Bool.false_eq_true, if_false]
      obtain ⟨h1, h2, h3, h4, h5⟩ := id hi
      obtain ⟨g1, g2, g3, g4, g5⟩ := id e2
      simp only at g1 g2 g3 g4 g5
      generalize w.lower = l at *
      generalize w.upper = u at *
      split
      · rename_i hlt
        rw [justBefore_eq] at hlt
        refine ⟨⟨by simp [hi, e2], ?_⟩, fun t ht => ?_⟩
        · simp only [List.pairwise_cons, List.mem_cons, List.not_mem_nil, or_false, forall_eq,
            false_imp_iff, implies_true, List.Pairwise.nil, and_true]
          split at hlt <;> ticks
        · simp [InSet, e4 t ht, InIv]; omega
      · split
        · rename_i _ hlt
          rw [justBefore_eq] at hlt
          refine ⟨⟨by simp [hi, e2], ?_⟩, fun t ht => ?_⟩
          · simp only [List.pairwise_cons, List.mem_cons, List.not_mem_nil, or_false, forall_eq,
              false_imp_iff, implies_true, List.Pairwise.nil, and_true]
            split at hlt <;> ticks
          · simp [InSet, e4 t ht, InIv]
        · rename_i hn1 hn2
          rw [justBefore_eq] at hn1 hn2
          refine ⟨⟨?_, by simp⟩, fun t ht => ?_⟩
          · simp only [List.mem_singleton, forall_eq]
            constructor <;> simp only <;> ticks
          · simp only [InSet, List.mem_singleton, exists_eq_left, InIv, e4 t ht]
            split at hn1 <;> split at hn2 <;> ticks
  · have : Iv.union ⟨INF, -INF⟩ w = w.iter := by simp [Iv.union, Iv.isEmpty, isFutureInfinite]
    rw [this]
    rcases hw.cases with ⟨e1, _, _, _, e5⟩ | ⟨e1, e2, e3, e4⟩
    · refine ⟨by simp [Convex.iter, e1]; exact ⟨by simp, by simp⟩, fun t ht => ?_⟩
      have : ¬ InIv t ⟨INF, -INF⟩ := empty_no_date ht
      simp [Convex.iter, e1, InSet, e5 t ht, this]
    · refine ⟨⟨by simpa [Convex.iter, e1] using e2, by simp [Convex.iter, e1]⟩, fun t ht => ?_⟩
      have : ¬ InIv t ⟨INF, -INF⟩ := empty_no_date ht
      simp only [this, false_or]
      simp [Convex.iter, e1, InSet, e4 t ht, InIv]

example : WF ⟨0, 4⟩ ∧ Proper (.range 5 9) ∧ Iv.union ⟨0, 4⟩ (.range 5 9) = [⟨0, 8⟩] ∧
    Iv.union ⟨0, 4⟩ (.range 6 9) = [⟨0, 4⟩, ⟨6, 8⟩] := by decide

/-! ## C20 complement -/

/-- C20. `!i` contains exactly the dates not in `i`, as a canonical set. -/
theorem C20_compl (i : Iv) (hi : WF i ∨ i = ⟨INF, -INF⟩) :
    Canon i.compl ∧ ∀ t, Date t → (InSet t i.compl ↔ ¬ InIv t i) := by
  rcases hi with hi | rfl
  · obtain ⟨h1, h2, h3, h4, h5⟩ := id hi
    simp only [Iv.compl, hi.not_isEmpty, Bool.false_eq_true, if_false]
    split
    all_goals
      rename_i c1 c2
      first
        | rw [isPastInfinite_iff] at c1
        | (rw [← Bool.not_eq_true, isPastInfinite_iff] at c1)
      first
        | rw [isFutureInfinite_iff] at c2
        | (rw [← Bool.not_eq_true, isFutureInfinite_iff] at c2)
      rw [justBefore_eq] at c1
      rw [justAfter_eq] at c2
      try simp only [justBefore_eq, justAfter_eq]
      refine ⟨⟨?_, ?_⟩, fun t ht => ?_⟩
      · simp only [List.mem_cons, List.not_mem_nil, or_false, forall_eq_or_imp, forall_eq,
          false_imp_iff, implies_true]
        (repeat' apply And.intro)
        all_goals constructor
        all_goals
          simp only
          ((repeat' split at c1) <;> (repeat' split at c2) <;> (repeat' split) <;> ticks)
      · simp only [List.pairwise_cons, List.mem_cons, List.not_mem_nil, or_false, forall_eq,
          false_imp_iff, implies_true, List.Pairwise.nil, and_true]
        try ((repeat' split at c1) <;> (repeat' split at c2) <;> (repeat' split) <;> ticks)
      · simp only [InSet, List.mem_cons, List.not_mem_nil, or_false, exists_eq_or_imp, exists_eq_left,
          false_and, exists_false, InIv, false_iff, Classical.not_not]
        ((repeat' split at c1) <;> (repeat' split at c2) <;> (repeat' split) <;> ticks)
  · refine ⟨by decide, fun t ht => ?_⟩
    have h1 : (⟨INF, -INF⟩ : Iv).compl = [Iv.all] := by decide
    have h2 : ¬ InIv t ⟨INF, -INF⟩ := empty_no_date ht
    simp only [h1, h2, not_false_eq_true, iff_true, InSet, List.mem_singleton, exists_eq_left]
    simp only [InIv, Iv.all]; ticks

/-- C20. `!t` contains exactly the dates other than `t`, as a canonical set (also for infinite `t`). -/
theorem C20_point_compl (p : Int) (hp : Legal p) :
    Canon (pointCompl p) ∧ ∀ t, Date t → (InSet t (pointCompl p) ↔ t ≠ p) := by
  by_cases h1 : p = INF
  · subst h1
    refine ⟨by decide, fun t ht => ?_⟩
    have h1 : pointCompl INF = [Iv.all] := by decide
    simp only [h1, InSet, List.mem_singleton, exists_eq_left, InIv, Iv.all]; ticks
  · by_cases h2 : p = -INF
    · subst h2
      refine ⟨by decide, fun t ht => ?_⟩
      have h1 : pointCompl (-INF) = [Iv.all] := by decide
      simp only [h1, InSet, List.mem_singleton, exists_eq_left, InIv, Iv.all]; ticks
    · have hd : Date p := by ticks
      have e : pointCompl p = (⟨p, p⟩ : Iv).compl := by
        have h3 : (⟨p, p⟩ : Iv).isEmpty = false := by
          rw [← Bool.not_eq_true, Iv.isEmpty_iff]; ticks
        simp only [pointCompl, Iv.compl, h3, justBefore_date hd, justAfter_date hd, Iv.before, Iv.after]
        have b1 : Iv.empty.isEmpty = true := rfl
        have b2 : (⟨-INF, p - 1⟩ : Iv).isEmpty = false := rfl
        have b3 : (⟨p + 1, INF⟩ : Iv).isEmpty = isFutureInfinite (p + 1) := rfl
        have b4 : isFutureInfinite (p + 1) = false ∨ isPastInfinite (p - 1) = false := by
          simp only [← Bool.not_eq_true, isFutureInfinite_iff, isPastInfinite_iff]; ticks
        cases hp1 : isPastInfinite (p - 1) <;> cases hf1 : isFutureInfinite (p + 1) <;>
          simp_all
      have hw : WF ⟨p, p⟩ := by constructor <;> simp only <;> ticks
      have := C20_compl ⟨p, p⟩ (Or.inl hw)
      rw [e]
      refine ⟨this.1, fun t ht => ?_⟩
      rw [this.2 t ht]; simp only [InIv]; omega

example : WF ⟨0, INF⟩ ∧ (⟨0, INF⟩ : Iv).compl = [⟨-INF, -1⟩] ∧
    pointCompl 5 = [⟨-INF, 4⟩, ⟨6, INF⟩] := by decide

/-! ## C21 truncation of an interval -/

/-- C21. `truncate_before(l)` / `truncate_after(u)` keep exactly the dates at or after `l` / at or
before `u`, report whether the value changed, and, for a finite cut, leave a well-formed or empty
interval. -/
theorem C21_truncate (i : Iv) (c : Int) (hi : WF i ∨ i = ⟨INF, -INF⟩) (hc : Legal c) :
    (∀ t, Date t → (InIv t (i.truncateBefore c).1 ↔ InIv t i ∧ c ≤ t)) ∧
    (∀ t, Date t → (InIv t (i.truncateAfter c).1 ↔ InIv t i ∧ t ≤ c)) ∧
    ((i.truncateBefore c).2 = true ↔ (i.truncateBefore c).1 ≠ i) ∧
    ((i.truncateAfter c).2 = true ↔ (i.truncateAfter c).1 ≠ i) ∧
    (Date c → (WF (i.truncateBefore c).1 ∨ (i.truncateBefore c).1 = ⟨INF, -INF⟩) ∧
      (WF (i.truncateAfter c).1 ∨ (i.truncateAfter c).1 = ⟨INF, -INF⟩)) := by
  have hL : Legal i.lower ∧ Legal i.upper := by
    rcases hi with h | rfl
    · obtain ⟨h1, h2, h3, h4, h5⟩ := h; constructor <;> ticks
    · decide
  rcases i with ⟨l, u⟩
  simp only at hL
  refine ⟨fun t ht => ?_, fun t ht => ?_, ?_, ?_, fun hcd => ⟨?_, ?_⟩⟩
  · simp only [Iv.truncateBefore, InIv, Iv.empty]
    repeat' split
    all_goals (simp only; ticks)
  · simp only [Iv.truncateAfter, InIv, Iv.empty]
    repeat' split
    all_goals (simp only; ticks)
  · simp only [Iv.truncateBefore, Iv.empty]
    repeat' split
    all_goals simp
    all_goals ticks
  · simp only [Iv.truncateAfter, Iv.empty]
    repeat' split
    all_goals simp
    all_goals ticks
  · simp only [Iv.truncateBefore]
    repeat' split
    · exact hi
    · right; rfl
    · left
      rcases hi with h | h
      · obtain ⟨h1, h2, h3, h4, h5⟩ := h
        constructor <;> simp only at * <;> ticks
      · injection h; constructor <;> simp only at * <;> ticks
  · simp only [Iv.truncateAfter]
    repeat' split
    · exact hi
    · right; rfl
    · left
      rcases hi with h | h
      · obtain ⟨h1, h2, h3, h4, h5⟩ := h
        constructor <;> simp only at * <;> ticks
      · injection h; constructor <;> simp only at * <;> ticks

example : WF ⟨0, 10⟩ ∧ Legal 4 ∧ Date 4 ∧ (⟨0, 10⟩ : Iv).truncateBefore 4 = (⟨4, 10⟩, true) := by decide

/-! ## C22 translation -/

/-- C22. `i + s` is the set of the sums of a point of `i` and a point of the span `s`, well formed and
without panic, when the sums of the finite bounds are representable. Unbounded ends stay unbounded. -/
theorem C22_add_span (dbg : Bool) (i s : Iv) (hi : WF i) (hs : WF s)
    (hl : Date i.lower → Date s.lower → Date (i.lower + s.lower))
    (hu : Date i.upper → Date s.upper → Date (i.upper + s.upper)) :
    ∃ j, i.addSpan dbg s = .ok j ∧ WF j ∧
      (∀ t, InExt t j ↔ ∃ a b, InExt a i ∧ InExt b s ∧ t = a + b) ∧
      (j.lower = -INF ↔ i.lower = -INF ∨ s.lower = -INF) ∧
      (j.upper = INF ↔ i.upper = INF ∨ s.upper = INF) := by
  obtain ⟨j, e, hw, e1, e2⟩ := addSpan_spec dbg hi hs hl hu
  refine ⟨j, e, hw, fun t => ?_, ?_, ?_⟩
  · rcases i with ⟨l1, u1⟩
    rcases s with ⟨l2, u2⟩
    rcases j with ⟨l, u⟩
    obtain ⟨h1, h2, h3, h4, h5⟩ := hi
    obtain ⟨g1, g2, g3, g4, g5⟩ := hs
    simp only at *
    subst e1 e2
    constructor
    · exact minkowski h1 g1 ⟨h2, h4⟩ ⟨g2, g4⟩ ⟨h5, h3⟩ ⟨g5, g3⟩ hl hu
    · rintro ⟨a, b, ha, hb, rfl⟩
      simp only [InExt] at *
      constructor <;> split <;> first | (left; rfl) | ticks
  · rw [e1]
    obtain ⟨h1, h2, h3, h4, h5⟩ := hi
    obtain ⟨g1, g2, g3, g4, g5⟩ := hs
    split
    · simp_all
    · have := hl (by ticks) (by ticks); ticks
  · rw [e2]
    obtain ⟨h1, h2, h3, h4, h5⟩ := hi
    obtain ⟨g1, g2, g3, g4, g5⟩ := hs
    split
    · simp_all
    · have := hu (by ticks) (by ticks); ticks

/-- C22. `-i` contains `t` iff `i` contains `-t`. -/
theorem C22_neg (i : Iv) (t : Int) :
    (InIv t i.neg ↔ InIv (-t) i) ∧ (InExt t i.neg ↔ InExt (-t) i) ∧ (WF i → WF i.neg) :=
  ⟨by simp only [InIv, Iv.neg]; omega, inExt_neg, Spec.WF.neg⟩

/-- C22. `i - s` is the set of the differences of a point of `i` and a point of `s`. -/
theorem C22_sub_span (dbg : Bool) (i s : Iv) (hi : WF i) (hs : WF s)
    (hl : Date i.lower → Date s.upper → Date (i.lower - s.upper))
    (hu : Date i.upper → Date s.lower → Date (i.upper - s.lower)) :
    ∃ j, i.subSpan dbg s = .ok j ∧ WF j ∧
      (∀ t, InExt t j ↔ ∃ a b, InExt a i ∧ InExt b s ∧ t = a - b) := by
  obtain ⟨j, e, hw, h, _⟩ := C22_add_span dbg i s.neg hi hs.neg
    (by simp only [Iv.neg]; intro h1 h2; exact hl h1 (by ticks))
    (by simp only [Iv.neg]; intro h1 h2; exact hu h1 (by ticks))
  refine ⟨j, by rw [subSpan_eq, e], hw, fun t => ?_⟩
  rw [h t]
  constructor
  · rintro ⟨a, b, ha, hb, rfl⟩; exact ⟨a, -b, ha, inExt_neg.1 hb, by omega⟩
  · rintro ⟨a, b, ha, hb, rfl⟩
    exact ⟨a, -b, ha, inExt_neg.2 (by rwa [Int.neg_neg]), by omega⟩

/-- C22. `i + d`, `i - d`, `d - i` for a finite duration (or date) `d`: pointwise translation. -/
theorem C22_translate (dbg : Bool) (i : Iv) (d : Int) (hi : WF i) (hd : Date d) :
    ((Date i.lower → Date (i.lower + d)) → (Date i.upper → Date (i.upper + d)) →
      ∃ j, i.addTv dbg d = .ok j ∧ WF j ∧ ∀ t, InExt t j ↔ InExt (t - d) i) ∧
    ((Date i.lower → Date (i.lower - d)) → (Date i.upper → Date (i.upper - d)) →
      ∃ j, i.subTv dbg d = .ok j ∧ WF j ∧ ∀ t, InExt t j ↔ InExt (t + d) i) ∧
    ((Date i.lower → Date (d - i.lower)) → (Date i.upper → Date (d - i.upper)) →
      ∃ j, Iv.tvSubIv dbg d i = .ok j ∧ WF j ∧ ∀ t, InExt t j ↔ InExt (d - t) i) := by
  have add : ∀ (i : Iv) (d : Int), WF i → Date d → (Date i.lower → Date (i.lower + d)) →
      (Date i.upper → Date (i.upper + d)) →
      ∃ j, i.addTv dbg d = .ok j ∧ WF j ∧ ∀ t, InExt t j ↔ InExt (t - d) i := by
    intro i d hi hd h1 h2
    have hw : WF ⟨d, d⟩ := by constructor <;> simp only <;> ticks
    obtain ⟨j, e, hw, h, _⟩ := C22_add_span dbg i ⟨d, d⟩ hi hw (fun h _ => h1 h) (fun h _ => h2 h)
    refine ⟨j, e, hw, fun t => ?_⟩
    rw [h t]
    constructor
    · rintro ⟨a, b, ha, hb, rfl⟩
      have : b = d := by simp only [InExt] at hb; ticks
      subst this
      rwa [Int.add_sub_cancel]
    · intro h
      exact ⟨t - d, d, h, by simp [InExt], by omega⟩
  refine ⟨add i d hi hd, ?_, ?_⟩
  · intro h1 h2
    obtain ⟨j, e, hw, h⟩ := add i (-d) hi (by ticks) h1 h2
    exact ⟨j, e, hw, fun t => by rw [h t, Int.sub_neg]⟩
  · intro h1 h2
    obtain ⟨j, e, hw, h⟩ := add i.neg d hi.neg hd
      (by
        simp only [Iv.neg]; intro h
        have := h2 (by ticks)
        rwa [Int.sub_eq_add_neg, Int.add_comm] at this)
      (by
        simp only [Iv.neg]; intro h
        have := h1 (by ticks)
        rwa [Int.sub_eq_add_neg, Int.add_comm] at this)
    refine ⟨j, e, hw, fun t => ?_⟩
    rw [h t, inExt_neg]
    have : -(t - d) = d - t := by omega
    rw [this]

/-- C22. The forms with a date on one side are the same functions on a one-date interval. -/
theorem C22_timestamp_forms (dbg : Bool) (t : Int) (i s : Iv) :
    Iv.tsAddSpan dbg t s = Iv.addSpan dbg ⟨t, t⟩ s ∧ Iv.tsSubSpan dbg t s = Iv.subSpan dbg ⟨t, t⟩ s ∧
    Iv.slotSubTs dbg i t = Iv.subTv dbg i t := ⟨rfl, rfl, rfl⟩

example : WF ⟨-INF, 5⟩ ∧ WF ⟨2, 3⟩ ∧ Iv.addSpan true ⟨-INF, 5⟩ ⟨2, 3⟩ = .ok ⟨-INF, 8⟩ ∧
    Iv.subSpan true ⟨4, 9⟩ ⟨2, 3⟩ = .ok ⟨1, 7⟩ ∧ Iv.addTv true ⟨4, 4⟩ 6 = .ok ⟨10, 10⟩ ∧
    Iv.tvSubIv true 10 ⟨4, 9⟩ = .ok ⟨1, 6⟩ := by decide

/-! ## C23 boundedness predicates -/

/-- C23, partial: on well-formed intervals the predicates are right. Missing: empty intervals (they
report being bounded, next theorem). -/
theorem C23_predicates_partial (i : Iv) (h : WF i) :
    (i.isLowBounded = true ↔ (∃ t, Date t ∧ InIv t i) ∧ i.lower ≠ -INF) ∧
    (i.isUpBounded = true ↔ (∃ t, Date t ∧ InIv t i) ∧ i.upper ≠ INF) ∧
    (i.isBounded = true ↔ (∃ t, Date t ∧ InIv t i) ∧ i.lower ≠ -INF ∧ i.upper ≠ INF) ∧
    (i.isSingleton = true ↔ ∃ t, InExt t i ∧ ∀ t', InExt t' i → t' = t) := by
  have he := h.exists_date
  obtain ⟨h1, h2, h3, h4, h5⟩ := id h
  have a1 : i.isLowBounded = true ↔ i.lower ≠ -INF := by
    simp [Iv.isLowBounded, isPastInfinite]
  have a2 : i.isUpBounded = true ↔ i.upper ≠ INF := by
    simp [Iv.isUpBounded, isFutureInfinite]
  refine ⟨by simp [he, a1], by simp [he, a2], by simp [he, Iv.isBounded, a1, a2], ?_⟩
  simp only [Iv.isSingleton, beq_iff_eq]
  constructor
  · intro he
    refine ⟨i.lower, by simp only [InExt]; omega, fun t' ht' => ?_⟩
    simp only [InExt] at ht'; ticks
  · rintro ⟨t, ht, hu⟩
    simp only [InExt] at ht hu
    have a1 := hu (t - 1)
    have a2 := hu (t + 1)
    ticks

/-- C23. Points: always one date. Ranges: `is_singleton` iff exactly one date, when both bounds are
finite; never when unbounded or empty. -/
theorem C23_range_singleton (w : Convex) (hiv : ∀ i, w ≠ .iv i) (h : Proper w) :
    (Date w.lower → Date w.upper → (w.isSingleton = true ↔
      ∃ t, Date t ∧ InConvex t w ∧ ∀ t', Date t' → InConvex t' w → t' = t)) ∧
    ((w.lower = -INF ∨ w.upper = INF ∨ w.isEmpty = true) → w.isSingleton = false) := by
  have hs : w.isEmpty = true → w.isSingleton = false := by
    cases w with
    | iv i => exact absurd rfl (hiv i)
    | point p => intro h; cases h
    | _ => intro h; simp [Convex.isSingleton, h]
  have hs2 : w.isEmpty = false → (w.isSingleton = true ↔ w.lower = w.upper) := by
    cases w with
    | iv i => exact absurd rfl (hiv i)
    | point p => intro _; simp [Convex.isSingleton, Convex.lower, Convex.upper]
    | _ => intro h; simp [Convex.isSingleton, h]
  rcases h.cases with ⟨e1, e2, e3, _, e5⟩ | ⟨e1, e2, e3, e4⟩
  · refine ⟨fun h => ?_, fun _ => hs e1⟩
    rw [e2] at h; ticks
  · obtain ⟨g1, g2, g3, g4, g5⟩ := e2
    simp only at g1 g2 g3 g4 g5
    refine ⟨fun hl hu => ?_, fun h => ?_⟩
    · rw [hs2 e1]
      constructor
      · intro he
        refine ⟨w.lower, hl, (e4 _ hl).2 (by omega), fun t' ht' hw => ?_⟩
        have := (e4 _ ht').1 hw
        omega
      · rintro ⟨t, ht, hw, hq⟩
        have a1 := hq w.lower hl ((e4 _ hl).2 (by omega))
        have a2 := hq w.upper hu ((e4 _ hu).2 (by omega))
        omega
    · rw [e1] at h
      rw [← Bool.not_eq_true, hs2 e1]
      simp at h
      omega

/-- C23 is violated: the empty interval is `is_bounded`; the point `+oo` is a singleton. -/
theorem C23_empty_violated : Iv.empty.isBounded = true ∧ Iv.empty.isLowBounded = true ∧
    Iv.empty.isUpBounded = true ∧ (∀ t, Date t → ¬ InIv t Iv.empty) ∧
    (Convex.point INF).isSingleton = true ∧ (∀ t, Date t → ¬ InConvex t (.point INF)) :=
  ⟨by decide, by decide, by decide, fun _ ht => empty_no_date ht, rfl, fun t ht h => by
    simp only [InConvex] at h; ticks⟩

example : WF ⟨3, 3⟩ ∧ (⟨3, 3⟩ : Iv).isSingleton = true ∧ (⟨3, INF⟩ : Iv).isUpBounded = false ∧
    Proper (.range 3 4) ∧ (Convex.range 3 4).isSingleton = true := by decide

/-- C23, for the ranges: `is_low_bounded`, `is_up_bounded` and `is_bounded` are true iff the range has
a date and is bounded by a date on that side. -/
theorem C23_ranges (w : Convex) (hiv : ∀ i, w ≠ .iv i) (h : Proper w) :
    (w.isLowBounded = true ↔ (∃ t, Date t ∧ InConvex t w) ∧ Date w.lower) ∧
    (w.isUpBounded = true ↔ (∃ t, Date t ∧ InConvex t w) ∧ Date w.upper) ∧
    (w.isBounded = true ↔ (∃ t, Date t ∧ InConvex t w) ∧ Date w.lower ∧ Date w.upper) := by
  have hc := h.cases
  have hf : ∀ t, -INF ≤ t → t ≤ INF → (isFinite t = true ↔ Date t) := by
    intro t h1 h2
    rw [isFinite_iff]; ticks
  have nd : ¬ Date INF := by ticks
  have nd' : ¬ Date (-INF) := by ticks
  rcases hc with ⟨e1, e2, e3, _, e5⟩ | ⟨e1, e2, e3, e4⟩
  · have hno : ¬ ∃ t, Date t ∧ InConvex t w := fun ⟨t, a, b⟩ => e5 t a b
    cases w with
    | iv i => exact absurd rfl (hiv i)
    | point p => cases e1
    | rangeFrom a => cases e1
    | rangeTo a => cases e1
    | rangeToIncl a => cases e1
    | range a b => simp [Convex.isLowBounded, Convex.isUpBounded, Convex.isBounded, e1, hno]
    | rangeIncl a b => simp [Convex.isLowBounded, Convex.isUpBounded, Convex.isBounded, e1, hno]
  · have hyes : ∃ t, Date t ∧ InConvex t w := by
      obtain ⟨t, ht, hi⟩ := e2.exists_date
      exact ⟨t, ht, (e4 t ht).2 hi⟩
    obtain ⟨g1, g2, g3, g4, g5⟩ := e2
    simp only at g1 g2 g3 g4 g5
    have hl := hf w.lower g2 (by omega)
    have hu := hf w.upper (by omega) g3
    cases w with
    | iv i => exact absurd rfl (hiv i)
    | point p =>
      simp only [Convex.lower, Convex.upper] at hl hu ⊢
      simp [Convex.isLowBounded, Convex.isUpBounded, Convex.isBounded, hyes, hl]
    | rangeFrom a =>
      simp [Convex.isLowBounded, Convex.isUpBounded, Convex.isBounded, hyes, hl, Convex.upper, nd]
    | rangeTo a =>
      simp [Convex.isLowBounded, Convex.isUpBounded, Convex.isBounded, hyes, hu, Convex.lower, nd']
    | rangeToIncl a =>
      simp [Convex.isLowBounded, Convex.isUpBounded, Convex.isBounded, hyes, hu, Convex.lower, nd']
    | range a b =>
      simp [Convex.isLowBounded, Convex.isUpBounded, Convex.isBounded, e1, hyes, hl, hu]
    | rangeIncl a b =>
      simp [Convex.isLowBounded, Convex.isUpBounded, Convex.isBounded, e1, hyes, hl, hu]

example : Proper (.rangeTo 7) ∧ (Convex.rangeTo 7).isUpBounded = true ∧
    (Convex.rangeTo 7).isBounded = false ∧ (Convex.rangeIncl 7 3).isBounded = false := by decide

/-! ## C93 The structure of a convex window -/

/-- C93. `convex_count` is 0 for a window without date and 1 otherwise; `iter` yields as many
intervals, well formed, which hold exactly the dates of the window; so does `convex_envelope`. -/
theorem C93_structure (w : Convex) (h : Proper w) :
    (w.convexCount = 0 ↔ ∀ t, Date t → ¬ InConvex t w) ∧
    (w.convexCount = 1 ↔ ∃ t, Date t ∧ InConvex t w) ∧
    w.iter.length = w.convexCount ∧ Canon w.iter ∧
    (∀ t, Date t → (InSet t w.iter ↔ InConvex t w)) ∧
    (∀ t, Date t → (InIv t w.envelope ↔ InConvex t w)) := by
  rcases h.cases with ⟨e1, e2, e3, _, e5⟩ | ⟨e1, e2, e3, e4⟩
  · have hno : ¬ ∃ t, Date t ∧ InConvex t w := fun ⟨t, a, b⟩ => e5 t a b
    refine ⟨by simp [Convex.convexCount, e1]; exact e5, by simp only [Convex.convexCount, e1]; simp; exact e5,
      by simp [Convex.convexCount, Convex.iter, e1], ?_, fun t ht => ?_, fun t ht => ?_⟩
    · simp only [Convex.iter, e1, if_true]
      exact ⟨by simp, List.Pairwise.nil⟩
    · simp [Convex.iter, e1, InSet, e5 t ht]
    · simp only [Convex.envelope, e2, e3, e5 t ht, iff_false]
      exact empty_no_date ht
  · have hyes : ∃ t, Date t ∧ InConvex t w := by
      obtain ⟨t, ht, hi⟩ := e2.exists_date
      exact ⟨t, ht, (e4 t ht).2 hi⟩
    refine ⟨?_, by simp [Convex.convexCount, e1, hyes],
      by simp [Convex.convexCount, Convex.iter, e1], ?_, fun t ht => ?_, fun t ht => ?_⟩
    · simp only [Convex.convexCount, e1]
      obtain ⟨t, a, b⟩ := hyes
      simp; exact ⟨t, a, b⟩
    · simp only [Convex.iter, e1]
      exact ⟨by simpa using e2, by simp⟩
    · simp [Convex.iter, e1, InSet, e4 t ht, InIv]
    · exact (e4 t ht).symm

/-- C93. `is_all` on a window that has a date: true only if every date belongs to it, and true in
that case unless the window is bounded by the first or the last representable date. Missing: windows
without date. -/
theorem C93_is_all_partial (w : Convex) (h : Proper w) (hne : ∃ t, Date t ∧ InConvex t w) :
    (w.isAll = true → ∀ t, Date t → InConvex t w) ∧
    ((∀ t, Date t → InConvex t w) → w.lower ≠ -INF + 1 → w.upper ≠ INF - 1 → w.isAll = true) := by
  rcases h.cases with ⟨e1, e2, e3, _, e5⟩ | ⟨e1, e2, e3, e4⟩
  · obtain ⟨t, a, b⟩ := hne
    exact absurd b (e5 t a)
  · have key : w.isAll = true ↔ w.lower = -INF ∧ w.upper = INF := by
      obtain ⟨g1, g2, g3, g4, g5⟩ := e2
      simp only at g1 g2 g3 g4 g5
      by_cases hiv : ∀ i, w ≠ .iv i
      · obtain ⟨c1, c2, _⟩ := C23_ranges w hiv h
        rw [Convex.isAll, Bool.and_eq_true, Bool.not_eq_true', Bool.not_eq_true', ← Bool.not_eq_true,
          ← Bool.not_eq_true, c1, c2]
        constructor
        · intro ⟨a, b⟩
          have a : ¬ Date w.lower := fun x => a ⟨hne, x⟩
          have b : ¬ Date w.upper := fun x => b ⟨hne, x⟩
          unfold Date at a b; omega
        · rintro ⟨a, b⟩
          exact ⟨fun x => by have := x.2; unfold Date at this; omega,
            fun x => by have := x.2; unfold Date at this; omega⟩
      · cases w with
        | iv i =>
          simp [Convex.isAll, Convex.isLowBounded, Convex.isUpBounded, Iv.isLowBounded,
            Iv.isUpBounded, isPastInfinite, isFutureInfinite, Convex.lower, Convex.upper]
        | _ => exact absurd (fun i h => by cases h) hiv
    obtain ⟨g1, g2, g3, g4, g5⟩ := e2
    simp only at g1 g2 g3 g4 g5
    rw [key]
    refine ⟨fun ⟨a, b⟩ t ht => (e4 t ht).2 (by ticks), fun ha h1 h2 => ?_⟩
    have a1 := (e4 (-INF + 1) (by ticks)).1 (ha _ (by ticks))
    have a2 := (e4 (INF - 1) (by ticks)).1 (ha _ (by ticks))
    omega

/-- C93 is violated: `is_all` is true of every empty range. -/
theorem C93_is_all_violated (a b : Int) :
    (b ≤ a → (Convex.range a b).isAll = true ∧ (Convex.range a b).convexCount = 0 ∧ ∀ t, ¬ InConvex t (.range a b)) ∧
    (b < a → (Convex.rangeIncl a b).isAll = true ∧ (Convex.rangeIncl a b).convexCount = 0 ∧ ∀ t, ¬ InConvex t (.rangeIncl a b)) := by
  constructor
  · intro h
    have e : (Convex.range a b).isEmpty = true := by simp [Convex.isEmpty, Convex.lower, Int.not_lt.mpr h, isFutureInfinite]
    exact ⟨by simp [Convex.isAll, Convex.isLowBounded, Convex.isUpBounded, e], by simp [Convex.convexCount, e],
      fun t h => by simp only [InConvex] at h; omega⟩
  · intro h
    have e : (Convex.rangeIncl a b).isEmpty = true := by simp [Convex.isEmpty, Convex.lower, Int.not_le.mpr h, isFutureInfinite]
    exact ⟨by simp [Convex.isAll, Convex.isLowBounded, Convex.isUpBounded, e], by simp [Convex.convexCount, e],
      fun t h => by simp only [InConvex] at h; omega⟩

example : Proper (.range 3 9) ∧ (Convex.range 3 9).iter = [⟨3, 8⟩] ∧ (Convex.range 9 3).iter = [] ∧
    (Convex.rangeFrom (-INF)).isAll = true ∧ Proper (.rangeFrom (-INF)) ∧ InConvex 0 (.rangeFrom (-INF)) ∧
    (Convex.rangeTo 4).isAll = false := by decide

/-! ## C24 centered and enlarge -/

/-- C24. `centered(o,d)` is `None` iff `d < 0`, otherwise exactly the dates within `d` of `o`. -/
theorem C24_centered (o d : Int) (ho : Date o) (hd : Date d) (h1 : Date (o - d)) (h2 : Date (o + d)) :
    (d < 0 → Iv.centered o d = .ok none) ∧
    (0 ≤ d → ∃ j, Iv.centered o d = .ok (some j) ∧ WF j ∧ ∀ t, InIv t j ↔ (t - o).natAbs ≤ d) ∧
    Iv.centered o INF = .ok (some Iv.all) := by
  have e1 : tvSub o d = .ok (o - d) := by
    exact tvAdd_exact (b := -d) ho (by ticks) (by ticks)
  have e2 : tvAdd o d = .ok (o + d) := tvAdd_exact ho hd h2
  have e : Iv.centered o d = .ok (if isPositive d then some ⟨o - d, o + d⟩ else none) := by
    simp only [Iv.centered, e1, e2]; rfl
  refine ⟨fun h => ?_, fun h => ?_, ?_⟩
  · rw [e, if_neg (by simp [isPositive]; omega)]
  · refine ⟨⟨o - d, o + d⟩, by rw [e, if_pos (by simp [isPositive]; omega)], ?_, fun t => ?_⟩
    · constructor <;> simp only <;> ticks
    · simp only [InIv]; omega
  · have g1 : tvSub o INF = .ok (-INF) := by
      show tvAdd o (-INF) = _
      rw [tvAdd_eq (a := o) (b := -INF) (by ticks) (by decide)]
      repeat' split
      all_goals first | rfl | (exfalso; ticks)
    have g2 : tvAdd o INF = .ok INF := by
      rw [tvAdd_eq (a := o) (b := INF) (by ticks) (by decide)]
      repeat' split
      all_goals first | rfl | (exfalso; ticks)
    simp only [Iv.centered, g1, g2]; rfl

theorem enlarge_eq (i : Iv) (d : Int) (hi : WF i) (hd : Date d)
    (h1 : Date i.lower → Date (i.lower - d)) (h2 : Date i.upper → Date (i.upper + d)) :
    i.enlarge d = .ok (
      let l := if i.lower = -INF then -INF else i.lower - d
      let u := if i.upper = INF then INF else i.upper + d
      if l ≤ u then some ⟨l, u⟩ else none) := by
  obtain ⟨g1, g2, g3, g4, g5⟩ := hi
  have e1 : tvSub i.lower d = .ok (if i.lower = -INF then -INF else i.lower - d) := by
    show tvAdd i.lower (-d) = _
    rw [add_lower (l := i.lower) (d := -d) (by ticks) g4 (by ticks) (by ticks) (fun h _ => h1 h)]
    congr 1
    repeat' split
    all_goals ticks
  have e2 : tvAdd i.upper d = .ok (if i.upper = INF then INF else i.upper + d) := by
    rw [add_upper (l := i.upper) (d := d) (by ticks) g5 (by ticks) (by ticks) (fun h _ => h2 h)]
    congr 1
    repeat' split
    all_goals ticks
  simp only [Iv.enlarge, e1, e2]; rfl

/-- C24. `enlarge(d)` for `d ≥ 0`: exactly the points within `d` of the interval, and enlarging the
result by `-d` gives the interval back. -/
theorem C24_enlarge (i : Iv) (d : Int) (hi : WF i) (hd : Date d) (hd0 : 0 ≤ d)
    (h1 : Date i.lower → Date (i.lower - d)) (h2 : Date i.upper → Date (i.upper + d)) :
    ∃ j, i.enlarge d = .ok (some j) ∧ WF j ∧
      (∀ t, InExt t j ↔ ∃ a, InExt a i ∧ (t - a).natAbs ≤ d) ∧ j.enlarge (-d) = .ok (some i) := by
  have e := enlarge_eq i d hi hd h1 h2
  obtain ⟨g1, g2, g3, g4, g5⟩ := id hi
  simp only at e
  rw [if_pos (by (repeat' split) <;> ticks)] at e
  rcases i with ⟨l, u⟩
  simp only at *
  have hw : WF ⟨if l = -INF then -INF else l - d, if u = INF then INF else u + d⟩ := by
    constructor <;> simp only <;> (repeat' split) <;> ticks
  refine ⟨_, e, hw, fun t => ?_, ?_⟩
  · simp only [InExt]
    constructor
    · intro h
      by_cases c1 : l = -INF <;> by_cases c2 : u = INF <;> simp only [c1, c2, if_true, if_false] at h
      · exact ⟨t, by ticks⟩
      · exact ⟨t - d, by ticks⟩
      · exact ⟨t + d, by ticks⟩
      · exact ⟨max l (min t u), by ticks⟩
    · rintro ⟨a, ha, hta⟩
      constructor <;> split <;> first | (left; rfl) | ticks
  · rw [enlarge_eq _ (-d) hw (by ticks)
      (by simp only; intro h; split at h <;> (try split) <;> ticks)
      (by simp only; intro h; split at h <;> (try split) <;> ticks)]
    simp only
    have c1 : (if (if l = -INF then -INF else l - d) = -INF then -INF else
        (if l = -INF then -INF else l - d) - -d) = l := by
      by_cases c : l = -INF
      · simp [c]
      · have := h1 (by ticks)
        simp only [c, if_false]
        split <;> ticks
    have c2 : (if (if u = INF then INF else u + d) = INF then INF else
        (if u = INF then INF else u + d) + -d) = u := by
      by_cases c : u = INF
      · simp [c]
      · have := h2 (by ticks)
        simp only [c, if_false]
        split <;> ticks
    rw [c1, c2, if_pos g1]

/-- C24. `enlarge(d)` for `d ≤ 0` keeps exactly the points whose `|d|`-neighbourhood lies in the
interval, and is `None` iff there is none. -/
theorem C24_shrink (i : Iv) (d : Int) (hi : WF i) (hd : Date d) (hd0 : d ≤ 0)
    (h1 : Date i.lower → Date (i.lower - d)) (h2 : Date i.upper → Date (i.upper + d)) :
    ∃ o, i.enlarge d = .ok o ∧
      (∀ j, o = some j → ∀ t, InExt t j ↔ ∀ a, (t - a).natAbs ≤ -d → InExt a i) ∧
      (o = none ↔ ¬ ∃ t, ∀ a, (t - a).natAbs ≤ -d → InExt a i) := by
  obtain ⟨g1, g2, g3, g4, g5⟩ := id hi
  have hl : ∃ l, (if i.lower = -INF then -INF else i.lower - d) = l ∧
      ((i.lower = -INF ∧ l = -INF) ∨ (i.lower ≠ -INF ∧ l = i.lower - d ∧ Date l)) := by
    refine ⟨_, rfl, ?_⟩
    split <;> ticks
  have hu : ∃ u, (if i.upper = INF then INF else i.upper + d) = u ∧
      ((i.upper = INF ∧ u = INF) ∨ (i.upper ≠ INF ∧ u = i.upper + d ∧ Date u)) := by
    refine ⟨_, rfl, ?_⟩
    split <;> ticks
  have e := enlarge_eq i d hi hd h1 h2
  obtain ⟨l, el, cl⟩ := hl
  obtain ⟨u, eu, cu⟩ := hu
  simp only [el, eu] at e
  refine ⟨_, e, ?_, ?_⟩
  · intro j hj t
    split at hj
    · injection hj with hj
      subst hj
      simp only [InExt]
      constructor
      · intro h a ha; ticks
      · intro h
        have a1 := h (t + d) (by omega)
        have a2 := h (t - d) (by omega)
        ticks
    · cases hj
  · simp only [InExt]
    split
    · rename_i hle
      simp only [reduceCtorEq, false_iff, Classical.not_not]
      by_cases c1 : i.lower = -INF
      · by_cases c2 : i.upper = INF
        · exact ⟨0, fun a ha => by simp [c1, c2]⟩
        · refine ⟨i.upper + d, fun a ha => ?_⟩
          ticks
      · refine ⟨i.lower - d, fun a ha => ?_⟩
        ticks
    · rename_i hle
      simp only [true_iff]
      rintro ⟨t, h⟩
      have a1 := h (t + d) (by omega)
      have a2 := h (t - d) (by omega)
      ticks

example : WF ⟨3, 9⟩ ∧ Iv.enlarge ⟨3, 9⟩ 2 = .ok (some ⟨1, 11⟩) ∧ Iv.enlarge ⟨3, 9⟩ (-3) = .ok (some ⟨6, 6⟩) ∧
    Iv.enlarge ⟨3, 9⟩ (-4) = .ok none ∧ Iv.centered 10 3 = .ok (some ⟨7, 13⟩) := by decide

/-! ## C25 contains and overlaps -/

/-- C25, partial: `a.contains(b)` iff every date of `b` is in `a`, for proper windows, provided that
where `b` is unbounded `a` is not bounded by the very last representable tick of that side.
Missing: that corner, where the answer is `false` although all dates are contained. -/
theorem C25_contains_partial (a b : Convex) (ha : Proper a) (hb : Proper b)
    (hlo : b.lower = -INF → a.lower ≠ -INF + 1) (hhi : b.upper = INF → a.upper ≠ INF - 1) :
    a.contains b = true ↔ ∀ t, Date t → InConvex t b → InConvex t a := by
  simp only [Convex.contains, Convex.containsBounds, Bool.and_eq_true, decide_eq_true_eq]
  rcases hb.cases with ⟨e1, e2, e3, _, e5⟩ | ⟨e1, e2, e3, e4⟩
  · constructor
    · intro _ t ht h; exact absurd h (e5 t ht)
    · intro _
      rw [e2, e3]
      rcases ha.cases with ⟨f1, f2, f3, _, f5⟩ | ⟨f1, f2, f3, f4⟩
      · rw [f2, f3]; ticks
      · obtain ⟨g1, g2, g3, g4, g5⟩ := f2; simp only at *; omega
  · rcases ha.cases with ⟨f1, f2, f3, _, f5⟩ | ⟨f1, f2, f3, f4⟩
    · obtain ⟨t, ht, hw⟩ := e2.exists_date
      obtain ⟨g1, g2, g3, g4, g5⟩ := e2
      simp only at *
      constructor
      · intro h; omega
      · intro h; exact absurd (h t ht ((e4 t ht).2 hw)) (f5 t ht)
    · obtain ⟨g1, g2, g3, g4, g5⟩ := e2
      obtain ⟨k1, k2, k3, k4, k5⟩ := f2
      simp only at *
      constructor
      · intro h t ht hw
        rw [f4 t ht]; rw [e4 t ht] at hw; omega
      · intro h
        have key : ∀ t, Date t → b.lower ≤ t → t ≤ b.upper → a.lower ≤ t ∧ t ≤ a.upper := by
          intro t ht h1 h2; exact (f4 t ht).1 (h t ht ((e4 t ht).2 ⟨h1, h2⟩))
        constructor
        · by_cases c : b.lower = -INF
          · have := hlo c
            by_cases c2 : a.lower = -INF
            · omega
            · have := key (-INF + 1) (by ticks) (by ticks) (by ticks); ticks
          · have := key b.lower (by ticks) (by ticks) (by ticks); ticks
        · by_cases c : b.upper = INF
          · have := hhi c
            by_cases c2 : a.upper = INF
            · omega
            · have := key (INF - 1) (by ticks) (by ticks) (by ticks); ticks
          · have := key b.upper (by ticks) (by ticks) (by ticks); ticks

/-- C25, partial: `a.overlaps(b)` iff they have a common date, for proper windows, unless one is empty
and the other unbounded on both sides. Missing: that last case, always wrong. -/
theorem C25_overlaps_partial (a b : Convex) (ha : Proper a) (hb : Proper b)
    (hea : a.isEmpty = true → b.lower ≠ -INF ∨ b.upper ≠ INF)
    (heb : b.isEmpty = true → a.lower ≠ -INF ∨ a.upper ≠ INF) :
    a.overlaps b = true ↔ ∃ t, Date t ∧ InConvex t a ∧ InConvex t b := by
  simp only [Convex.overlaps, Bool.and_eq_true, decide_eq_true_eq]
  have hL : ∀ {w : Convex}, Proper w → Legal w.lower ∧ Legal w.upper := by
    intro w hw
    rcases hw.cases with ⟨_, e2, e3, _⟩ | ⟨_, e2, _⟩
    · rw [e2, e3]; decide
    · obtain ⟨g1, g2, g3, g4, g5⟩ := e2; simp only at *; constructor <;> ticks
  have hLa := hL ha
  have hLb := hL hb
  rcases ha.cases with ⟨e1, e2, e3, _, e5⟩ | ⟨e1, e2, e3, e4⟩
  · have := hea e1
    rw [e2, e3]
    constructor
    · intro h; ticks
    · rintro ⟨t, ht, h, _⟩; exact absurd h (e5 t ht)
  · rcases hb.cases with ⟨f1, f2, f3, _, f5⟩ | ⟨f1, f2, f3, f4⟩
    · have := heb f1
      rw [f2, f3]
      constructor
      · intro h; ticks
      · rintro ⟨t, ht, _, h⟩; exact absurd h (f5 t ht)
    · obtain ⟨g1, g2, g3, g4, g5⟩ := e2
      obtain ⟨k1, k2, k3, k4, k5⟩ := f2
      simp only at *
      constructor
      · intro h
        have hw : WF ⟨max a.lower b.lower, min a.upper b.upper⟩ := by
          constructor <;> simp only <;> omega
        obtain ⟨t, ht, hi⟩ := hw.exists_date
        simp only [InIv] at hi
        exact ⟨t, ht, (e4 t ht).2 (by omega), (f4 t ht).2 (by omega)⟩
      · rintro ⟨t, ht, h1, h2⟩
        rw [e4 t ht] at h1; rw [f4 t ht] at h2; omega

/-- C25. Overlap is symmetric, always. -/
theorem C25_overlaps_symm (a b : Convex) : a.overlaps b = b.overlaps a := by
  simp only [Convex.overlaps, Bool.and_comm]

/-- C25 is violated: the empty interval overlaps every window unbounded on both sides; and `]-oo,5]` is
not contained in `[-oo+1 tick, 5]`, which has the same dates. -/
theorem C25_violated :
    Convex.overlaps (.iv Iv.empty) (.iv Iv.all) = true ∧
    Convex.contains (.iv ⟨-INF + 1, 5⟩) (.iv ⟨-INF, 5⟩) = false ∧
    (∀ t, Date t → InIv t ⟨-INF, 5⟩ → InIv t ⟨-INF + 1, 5⟩) := by
  refine ⟨by decide, by decide, fun t ht h => ?_⟩
  simp only [InIv] at *; ticks

example : Proper (.range 3 8) ∧ Proper (.iv ⟨0, 9⟩) ∧ Convex.contains (.iv ⟨0, 9⟩) (.range 3 8) = true ∧
    Convex.contains (.range 3 8) (.iv ⟨0, 9⟩) = false ∧ Convex.overlaps (.range 3 8) (.iv ⟨8, 9⟩) = false ∧
    (Convex.range 3 8).lower ≠ -INF := by decide

/-! ## C26 duration of a slot -/

/-- C26. `duration()` never panics: 0 for empty or one-date slots, `+oo` for unbounded ones, otherwise
`upper - lower`, saturated. -/
theorem C26_duration (i : Iv) (hl : Legal i.lower) (hu : Legal i.upper) :
    i.duration = .ok (
      if i.upper ≤ i.lower then 0
      else if i.lower = -INF ∨ i.upper = INF then INF
      else if i.upper - i.lower ≥ INF then INF else i.upper - i.lower) := by
  simp only [Iv.duration]
  split
  · rfl
  · rename_i h
    show tvAdd i.upper (-i.lower) = _
    rw [tvAdd_eq (b := -i.lower) hu (by ticks)]
    simp only [round]
    repeat' split
    all_goals first | rfl | (exfalso; ticks) | (congr 1; ticks)

example : (⟨3, 10⟩ : Iv).duration = .ok 7 ∧ (⟨3, INF⟩ : Iv).duration = .ok INF ∧
    Iv.empty.duration = .ok 0 ∧ (⟨10, 4⟩ : Iv).duration = .ok 0 := by decide

end Chrono
