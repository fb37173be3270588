import Verif.Lemmas.SetRel
import Verif.Props.Set
import Verif.Props.Interval

set_option linter.unusedSimpArgs false

/-!
# Properties of time sets: containment, overlap, truncation, ordering, bounds, iterator protocol
(C35-C37, C49-C52, C97)
-/

namespace Chrono
open Spec

/-! ## C35 containment -/

theorem contains_points {s : TSet} (hs : Canon s) {w : Convex} (hw : WF ⟨w.lower, w.upper⟩) :
    TSet.contains s w = true ↔ ∀ t, w.lower ≤ t → t ≤ w.upper → InSet t s := by
  have hle := hw.le
  simp only at hle
  rw [contains_iff hs]
  constructor
  · rintro ⟨i, hi, h0, h1, h2⟩ t h3 h4
    exact ⟨i, hi, by omega, by omega⟩
  · intro h
    obtain ⟨i, hi, h1, h2⟩ := run_in_one hs hle h
    exact ⟨i, hi, by omega, h1, h2⟩

/-- C35, partial: a canonical set contains a non-empty convex window iff every date of the window is in
the set, provided that where the window is unbounded no interval of the set is bounded by the very last
representable tick of that side. Missing: that corner, and empty windows (see `C35_violated`). -/
theorem C35_contains_partial (s : TSet) (w : Convex) (hs : Canon s) (hw : Proper w)
    (hne : ∃ t, Date t ∧ InConvex t w)
    (hlo : w.lower = -INF → ∀ i ∈ s, i.lower ≠ -INF + 1)
    (hhi : w.upper = INF → ∀ i ∈ s, i.upper ≠ INF - 1) :
    TSet.contains s w = true ↔ ∀ t, Date t → InConvex t w → InSet t s := by
  obtain ⟨t0, ht0, hin0⟩ := hne
  rcases hw.cases with ⟨e1, e2, e3, _, e5⟩ | ⟨e1, e2, e3, e4⟩
  · exact absurd hin0 (e5 t0 ht0)
  · rw [contains_points hs e2]
    obtain ⟨g1, g2, g3, g4, g5⟩ := e2
    simp only at g1 g2 g3 g4 g5
    constructor
    · intro h t ht hin
      have := (e4 t ht).1 hin
      exact h t this.1 this.2
    · intro h t h1 h2
      by_cases c1 : t = -INF
      · have hl : w.lower = -INF := by omega
        obtain ⟨i, hi, k1, k2⟩ := h (-INF + 1) (by decide) ((e4 _ (by decide)).2 ⟨by omega, by omega⟩)
        have := hlo hl i hi
        have hiw := hs.wf i hi
        have := hiw.lo
        exact ⟨i, hi, by omega, by omega⟩
      · by_cases c2 : t = INF
        · have hl : w.upper = INF := by omega
          obtain ⟨i, hi, k1, k2⟩ := h (INF - 1) (by decide) ((e4 _ (by decide)).2 ⟨by omega, by omega⟩)
          have := hhi hl i hi
          have hiw := hs.wf i hi
          have := hiw.hi
          exact ⟨i, hi, by omega, by omega⟩
        · have hd : Date t := ⟨by omega, by omega⟩
          exact h t hd ((e4 t hd).2 ⟨h1, h2⟩)

/-- C35, partial: a canonical set contains another (possibly empty) one iff every date of the latter is in
the former, under the same restriction. -/
theorem C35_contains_set_partial (s r : TSet) (hs : Canon s) (hr : Canon r)
    (hlo : ∀ i ∈ s, i.lower ≠ -INF + 1) (hhi : ∀ i ∈ s, i.upper ≠ INF - 1) :
    TSet.containsSet s r = true ↔ ∀ t, Date t → InSet t r → InSet t s := by
  simp only [TSet.containsSet, List.all_eq_true]
  constructor
  · rintro h t ht ⟨i, hi, hin⟩
    exact (C35_contains_partial s (.iv i) hs (Or.inl (hr.wf i hi))
      ((hr.wf i hi).exists_date) (fun _ => hlo) (fun _ => hhi)).1 (h i hi) t ht hin
  · intro h i hi
    exact (C35_contains_partial s (.iv i) hs (Or.inl (hr.wf i hi))
      ((hr.wf i hi).exists_date) (fun _ => hlo) (fun _ => hhi)).2
      (fun t ht hin => h t ht ⟨i, hi, hin⟩)

/-- C35, partial: a proper convex window contains a canonical set iff every date of the set is in the
window, under the same restriction. -/
theorem C35_convex_contains_set_partial (w : Convex) (s : TSet) (hw : Proper w) (hs : Canon s)
    (hlo : w.lower ≠ -INF + 1) (hhi : w.upper ≠ INF - 1) :
    w.containsSet s = true ↔ ∀ t, Date t → InSet t s → InConvex t w := by
  simp only [Convex.containsSet, Convex.containsBounds, Bool.and_eq_true, decide_eq_true_eq]
  by_cases c : s = []
  · subst c
    simp only [InSet_nil, false_implies, implies_true, iff_true]
    rcases hw.cases with ⟨e1, e2, e3, _⟩ | ⟨e1, e2, _⟩
    · rw [e2, e3]; decide
    · obtain ⟨g1, g2, g3, g4, g5⟩ := e2
      simp only [TSet.lowerBound, TSet.upperBound, List.head?_nil, List.getLast?_nil] at *
      omega
  · obtain ⟨hb, hl, hu, hall⟩ := canon_bounds hs c
    obtain ⟨k1, k2, k3, k4, k5⟩ := hb
    simp only at k1 k2 k3 k4 k5
    obtain ⟨tl, htl, hlin, hl'⟩ := canon_date_low hs hl k4
    obtain ⟨tu, htu, huin, hu'⟩ := canon_date_high hs hu k5
    rcases hw.cases with ⟨e1, e2, e3, _, e5⟩ | ⟨e1, e2, e3, e4⟩
    · rw [e2, e3]
      constructor
      · rintro ⟨h1, h2⟩; omega
      · intro h; exact absurd (h tl htl hlin) (e5 tl htl)
    · constructor
      · rintro ⟨h1, h2⟩ t ht hin
        have := hall t hin
        exact (e4 t ht).2 ⟨by omega, by omega⟩
      · intro h
        have h1 := (e4 tl htl).1 (h tl htl hlin)
        have h2 := (e4 tu htu).1 (h tu htu huin)
        obtain ⟨g1, g2, g3, g4, g5⟩ := e2
        simp only at g1 g2 g3 g4 g5
        omega

/-- C35 is violated for the empty window, contained in every set but reported as not contained in any set
bounded above, and in the corner of the extreme ticks. -/
theorem C35_violated :
    (∀ s : TSet, Canon s → (∀ i ∈ s, i.upper ≠ INF) → TSet.contains s (.iv Iv.empty) = false) ∧
    (TSet.contains [⟨-INF + 1, 5⟩] (.iv ⟨-INF, 5⟩) = false ∧
      ∀ t, Date t → InIv t ⟨-INF, 5⟩ → InSet t [⟨-INF + 1, 5⟩]) := by
  refine ⟨fun s hs h => ?_, by decide, fun t ht hin => ?_⟩
  · rw [← Bool.not_eq_true, contains_iff hs]
    rintro ⟨i, hi, h1, -⟩
    have := (hs.wf i hi).hi
    have := h i hi
    simp only [Convex.lower, Iv.empty] at h1
    omega
  · simp only [InSet_singleton, InIv] at *; ticks

example : Canon [⟨0, 9⟩, ⟨20, INF⟩] ∧ Proper (.range 3 8) ∧ (∃ t, Date t ∧ InConvex t (.range 3 8)) ∧
    TSet.contains [⟨0, 9⟩, ⟨20, INF⟩] (.range 3 8) = true ∧
    TSet.contains [⟨0, 9⟩, ⟨20, INF⟩] (.iv ⟨3, 25⟩) = false ∧
    TSet.containsSet [⟨0, 9⟩, ⟨20, INF⟩] [⟨1, 2⟩, ⟨30, 40⟩] = true ∧
    (∀ i ∈ ([⟨0, 9⟩, ⟨20, INF⟩] : TSet), i.lower ≠ -INF + 1 ∧ i.upper ≠ INF - 1) :=
  ⟨by decide, by decide, ⟨3, by decide, by decide⟩, by decide, by decide, by decide, by decide⟩

/-! ## C36 overlap -/

theorem overlaps_iv {s : TSet} (hs : Canon s) {l u : Int} (hw : WF ⟨l, u⟩) :
    (∃ i ∈ s, i.upper ≥ l ∧ i.lower ≤ u) ↔ ∃ t, Date t ∧ InSet t s ∧ l ≤ t ∧ t ≤ u := by
  obtain ⟨g1, g2, g3, g4, g5⟩ := hw
  simp only at g1 g2 g3 g4 g5
  constructor
  · rintro ⟨i, hi, h1, h2⟩
    obtain ⟨k1, k2, k3, k4, k5⟩ := hs.wf i hi
    have hwf : WF ⟨max i.lower l, min i.upper u⟩ := by constructor <;> simp only <;> omega
    obtain ⟨t, ht, hin⟩ := hwf.exists_date
    simp only [InIv] at hin
    exact ⟨t, ht, ⟨i, hi, by omega, by omega⟩, by omega, by omega⟩
  · rintro ⟨t, ht, ⟨i, hi, h1, h2⟩, h3, h4⟩
    exact ⟨i, hi, by omega, by omega⟩

/-- C36, partial: a canonical set overlaps a proper non-empty convex window iff they have a common date,
whichever of the two is asked. Missing: empty windows (see `C36_violated`). -/
theorem C36_overlaps_partial (s : TSet) (w : Convex) (hs : Canon s) (hw : Proper w)
    (hne : w.isEmpty = false) :
    (TSet.overlaps s w = true ↔ ∃ t, Date t ∧ InSet t s ∧ InConvex t w) ∧
    w.overlapsSet s = TSet.overlaps s w := by
  refine ⟨?_, rfl⟩
  rcases hw.cases with ⟨e1, -⟩ | ⟨e1, e2, e3, e4⟩
  · rw [e1] at hne; cases hne
  · rw [overlaps_iff hs, overlaps_iv hs e2]
    constructor
    · rintro ⟨t, ht, h1, h2⟩; exact ⟨t, ht, h1, (e4 t ht).2 h2⟩
    · rintro ⟨t, ht, h1, h2⟩; exact ⟨t, ht, h1, (e4 t ht).1 h2⟩

/-- C36. Two canonical sets overlap iff they have a common date; the relation is symmetric. -/
theorem C36_overlaps_set (s r : TSet) (hs : Canon s) (hr : Canon r) :
    (TSet.overlapsSet s r = true ↔ ∃ t, Date t ∧ InSet t s ∧ InSet t r) ∧
    TSet.overlapsSet s r = TSet.overlapsSet r s := by
  have key : ∀ s r : TSet, Canon s → Canon r →
      (TSet.overlapsSet s r = true ↔ ∃ t, Date t ∧ InSet t s ∧ InSet t r) := by
    intro s r hs hr
    simp only [TSet.overlapsSet, List.any_eq_true]
    constructor
    · rintro ⟨i, hi, h⟩
      rw [overlaps_iff hs] at h
      obtain ⟨t, ht, h1, h2⟩ := (overlaps_iv hs (l := i.lower) (u := i.upper) (hr.wf i hi)).1 h
      exact ⟨t, ht, h1, i, hi, h2⟩
    · rintro ⟨t, ht, h1, i, hi, h2⟩
      refine ⟨i, hi, ?_⟩
      rw [overlaps_iff hs]
      exact (overlaps_iv hs (l := i.lower) (u := i.upper) (hr.wf i hi)).2 ⟨t, ht, h1, h2⟩
  refine ⟨key s r hs hr, ?_⟩
  rw [Bool.eq_iff_iff, key s r hs hr, key r s hr hs]
  constructor <;> (rintro ⟨t, ht, h1, h2⟩; exact ⟨t, ht, h2, h1⟩)

/-- C36 is violated: the empty interval is reported as overlapping the set of all dates. -/
theorem C36_violated :
    TSet.overlaps TSet.all (.iv Iv.empty) = true ∧ ∀ t, ¬ InConvex t (.iv Iv.empty) := by
  refine ⟨by decide, fun t => ?_⟩
  simp only [InConvex, InIv, Iv.empty]; ticks

example : Canon [⟨0, 9⟩, ⟨20, INF⟩] ∧ Canon [⟨10, 25⟩] ∧ Proper (.range 10 20) ∧
    (Convex.range 10 20).isEmpty = false ∧
    TSet.overlaps [⟨0, 9⟩, ⟨20, INF⟩] (.range 10 20) = false ∧
    TSet.overlaps [⟨0, 9⟩, ⟨20, INF⟩] (.rangeIncl 10 20) = true ∧
    TSet.overlapsSet [⟨0, 9⟩, ⟨20, INF⟩] [⟨10, 25⟩] = true := by decide

/-! ## C37 truncation -/

/-- C37. `truncate_before(c)` keeps exactly the points not before `c`, keeps the set canonical, and returns
`true` iff the set changed. The cut may be `-oo` or a date. -/
theorem C37_truncate_before (s : TSet) (c : Int) (hs : Canon s) (hc : -INF ≤ c) (hc' : c < INF) :
    Canon (TSet.truncateBefore s c).1 ∧
    (∀ t, InSet t (TSet.truncateBefore s c).1 ↔ InSet t s ∧ c ≤ t) ∧
    ((TSet.truncateBefore s c).2 = true ↔ (TSet.truncateBefore s c).1 ≠ s) :=
  truncateBefore_spec hs hc hc'

/-- C37. `truncate_after(c)` likewise. The cut may be a date or `+oo`. -/
theorem C37_truncate_after (s : TSet) (c : Int) (hs : Canon s) (hc : -INF < c) (hc' : c ≤ INF) :
    Canon (TSet.truncateAfter s c).1 ∧
    (∀ t, InSet t (TSet.truncateAfter s c).1 ↔ InSet t s ∧ t ≤ c) ∧
    ((TSet.truncateAfter s c).2 = true ↔ (TSet.truncateAfter s c).1 ≠ s) :=
  truncateAfter_spec hs hc hc'

/-- C37. `s &= w` keeps exactly the dates of `s` which are in the proper convex window `w` (empty or not),
and keeps the set canonical. -/
theorem C37_inter_assign (s : TSet) (w : Convex) (hs : Canon s) (hw : Proper w) :
    Canon (TSet.interAssignConvex s w) ∧
    ∀ t, Date t → (InSet t (TSet.interAssignConvex s w) ↔ InSet t s ∧ InConvex t w) := by
  rcases hw.cases with ⟨e1, e2, e3, _, e5⟩ | ⟨e1, e2, e3, e4⟩
  · have hnil : TSet.interAssignConvex s w = [] := by
      rw [TSet.interAssignConvex, e2, e3]
      have hlow : ∀ i ∈ (TSet.truncateAfter s (-INF)).1, i.upper ≤ -INF := by
        intro i hi
        unfold TSet.truncateAfter at hi
        cases hf : s.reverse.findIdx? (fun i => decide (i.lower ≤ -INF)) with
        | none =>
          simp only [TSet.rposition, hf, Option.map_none] at hi
          split at hi
          · rename_i h
            simp only [TSet.isEmpty, List.isEmpty_iff] at h
            rw [h] at hi; simp at hi
          · simp at hi
        | some k =>
          obtain ⟨A, x, B, q1, q2, q3, q4⟩ := findIdx_split hf
          have es : s = (B.reverse ++ [x]) ++ A.reverse := by
            have := congrArg List.reverse q1
            simpa using this
          simp only [decide_eq_true_eq] at q3
          have hwx := hs.wf x (by rw [es]; simp)
          have hB : B = [] := by
            cases B with
            | nil => rfl
            | cons b bs =>
              exfalso
              rw [es] at hs
              have := ((canon_append.1 (canon_append.1 hs).1).2.2) b (by simp) x (by simp)
              have hb := (canon_append.1 (canon_append.1 hs).1).1.wf b (by simp)
              have := hb.lt_hi
              omega
          subst hB
          simp only [List.reverse_nil, List.nil_append] at es
          have hx' : (x.truncateAfter (-INF)).1.upper = -INF := by
            obtain ⟨g1, g2, g3, g4, g5⟩ := hwx
            have c1 : ¬ x.upper ≤ -INF := by omega
            have c2 : ¬ -INF < x.lower := by omega
            simp [Iv.truncateAfter, c1, c2]
          have hlen : s.length = 1 + A.length := by rw [es]; simp; omega
          simp only [TSet.rposition, hf, Option.map_some] at hi
          have hpos : s.length - 1 - k = 0 := by omega
          rw [hpos] at hi
          split at hi
          · rename_i h
            have hA : A = [] := by
              cases A with
              | nil => rfl
              | cons _ _ => simp at hlen; omega
            subst hA
            simp only [List.reverse_nil, List.append_nil] at es
            rw [es] at hi
            simp only [List.getLast?_singleton, TSet.mapLast, List.mem_singleton] at hi
            rw [hi, hx']; omega
          · have ht : s.take (0 + 1) = [x] := by rw [es]; rfl
            rw [ht] at hi
            simp only [TSet.mapLast, List.mem_singleton] at hi
            rw [hi, hx']; omega
      generalize (TSet.truncateAfter s (-INF)).1 = r at hlow
      have hf : r.findIdx? (fun i => decide (i.upper ≥ INF)) = none := by
        rw [List.findIdx?_eq_none_iff]
        intro i hi
        have := hlow i hi
        simp only [decide_eq_false_iff_not]
        ticks
      simp only [TSet.truncateBefore, hf]
      split
      · rename_i h; simpa [TSet.isEmpty] using h
      · rfl
    rw [hnil]
    refine ⟨Canon_nil, fun t ht => ?_⟩
    simp only [InSet_nil, false_iff]
    rintro ⟨_, h⟩; exact e5 t ht h
  · obtain ⟨g1, g2, g3, g4, g5⟩ := e2
    simp only at g1 g2 g3 g4 g5
    obtain ⟨a1, a2, -⟩ := truncateAfter_spec hs g5 g3
    obtain ⟨b1, b2, -⟩ := truncateBefore_spec a1 g2 g4
    refine ⟨b1, fun t ht => ?_⟩
    rw [TSet.interAssignConvex, b2, a2, e4 t ht, and_assoc, and_comm (a := t ≤ w.upper)]

/-- The restriction on the cut point matters: `truncate_before(+oo)` of any set unbounded above leaves an interval reduced to `+oo`,
and `truncate_after(-oo)` of any set unbounded below one reduced to `-oo`; neither is canonical nor has any date. -/
theorem C37_truncate_infinite_violated (s : TSet) (hs : Canon s) :
    (TSet.upperBound s = INF → (TSet.truncateBefore s INF).1 = [⟨INF, INF⟩]) ∧
    (TSet.lowerBound s = -INF → (TSet.truncateAfter s (-INF)).1 = [⟨-INF, -INF⟩]) ∧
    ¬ Canon [⟨INF, INF⟩] ∧ ¬ Canon [⟨-INF, -INF⟩] := by
  have fnone : ∀ (p : Iv → Bool) (l : List Iv) (z : Iv), (∀ i ∈ l, p i = false) → p z = true →
      (l ++ [z]).findIdx? p = some l.length := by
    intro p l
    induction l with
    | nil => intro z _ h; simp [h]
    | cons y l ih =>
      intro z h h'
      rw [List.cons_append, List.findIdx?_cons, h y (by simp), ih z (fun i hi => h i (by simp [hi])) h']
      rfl
  refine ⟨fun hu => ?_, fun hl => ?_, by decide, by decide⟩
  · rcases List.eq_nil_or_concat s with rfl | ⟨r, z, e⟩
    · exact absurd hu (by decide)
    · rw [List.concat_eq_append] at e
      subst e
      obtain ⟨hr, hz, hsep⟩ := canon_append.1 hs
      have wz := (Canon_cons.1 hz).1
      have ez : z.upper = INF := by simpa [TSet.upperBound] using hu
      have hf := fnone (fun i => decide (i.upper ≥ INF)) r z (fun i hi => by
        have := hsep i hi z (by simp)
        have := wz.lo_lt
        simp only [decide_eq_false_iff_not]
        omega) (by simp [ez])
      have et : (z.truncateBefore INF).1 = ⟨INF, INF⟩ := by
        have h1 : ¬ INF ≤ z.lower := by have := wz.lo_lt; omega
        simp [Iv.truncateBefore, h1, ez]
      unfold TSet.truncateBefore
      rw [hf]
      cases r with
      | nil => simpa using et
      | cons y r => simp [et]
  · cases s with
    | nil => exact absurd hl (by decide)
    | cons x xs =>
      obtain ⟨wx, hsep, -⟩ := Canon_cons.1 hs
      have ex : x.lower = -INF := by simpa [TSet.lowerBound] using hl
      have hf := fnone (fun i => decide (i.lower ≤ -INF)) xs.reverse x (fun i hi => by
        have := hsep i (by simpa using hi)
        have := wx.lt_hi
        simp only [decide_eq_false_iff_not]
        omega) (by simp [ex])
      have et : (x.truncateAfter (-INF)).1 = ⟨-INF, -INF⟩ := by
        have h1 : ¬ x.upper ≤ -INF := by have := wx.lt_hi; omega
        simp [Iv.truncateAfter, h1, ex]
      have hp : TSet.rposition (fun i => decide (i.lower ≤ -INF)) (x :: xs) = some 0 := by
        unfold TSet.rposition
        rw [List.reverse_cons, hf]
        simp
      unfold TSet.truncateAfter
      rw [hp]
      cases xs with
      | nil => simp [TSet.mapLast, et]
      | cons y ys => simp [TSet.mapLast, et]

example : Canon [⟨-INF, 4⟩, ⟨20, INF⟩] ∧ TSet.upperBound [⟨-INF, 4⟩, ⟨20, INF⟩] = INF ∧
    TSet.truncateBefore [⟨-INF, 4⟩, ⟨20, INF⟩] INF = ([⟨INF, INF⟩], true) ∧
    TSet.truncateAfter [⟨-INF, 4⟩, ⟨20, INF⟩] (-INF) = ([⟨-INF, -INF⟩], true) := by decide

example : Canon [⟨0, 9⟩, ⟨20, INF⟩] ∧ Proper (.range 5 30) ∧
    TSet.truncateBefore [⟨0, 9⟩, ⟨20, INF⟩] 12 = ([⟨20, INF⟩], true) ∧
    TSet.truncateAfter [⟨0, 9⟩, ⟨20, INF⟩] 4 = ([⟨0, 4⟩], true) ∧
    TSet.interAssignConvex [⟨0, 9⟩, ⟨20, INF⟩] (.range 5 30) = [⟨5, 9⟩, ⟨20, 29⟩] := by decide

/-! ## C49 ordering -/

/-- the hull of a non-empty window -/
theorem window_hull {W : Window} (h : NonEmptyWindow W) :
    WF ⟨W.lower, W.upper⟩ ∧ (∀ t, Date t → InWindow t W → W.lower ≤ t ∧ t ≤ W.upper) ∧
    (∃ t, Date t ∧ InWindow t W ∧ (t = W.lower ∨ (W.lower = -INF ∧ t = -INF + 1))) ∧
    (∃ t, Date t ∧ InWindow t W ∧ (t = W.upper ∨ (W.upper = INF ∧ t = INF - 1))) := by
  obtain ⟨hc, hne, e1, e2, e3⟩ := window_canon h
  obtain ⟨hb, hl, hu, hall⟩ := canon_bounds hc hne
  rw [e1, e2] at hb hall
  rw [e1] at hl
  rw [e2] at hu
  refine ⟨hb, fun t ht hin => hall t ((e3 t ht).1 hin), ?_, ?_⟩
  · obtain ⟨t, ht, hin, hh⟩ := canon_date_low hc hl hb.lo_lt
    exact ⟨t, ht, (e3 t ht).2 hin, hh⟩
  · obtain ⟨t, ht, hin, hh⟩ := canon_date_high hc hu hb.lt_hi
    exact ⟨t, ht, (e3 t ht).2 hin, hh⟩

/-- C49. For non-empty windows `a < b` iff every date of `a` precedes every date of `b`, and `a > b` iff
every date of `a` follows every date of `b`. -/
theorem C49_lt (a : LWin) (b : Window) (ha : NonEmptyWindow a.win) (hb : NonEmptyWindow b) :
    (a.lt b = true ↔ ∀ x y, Date x → Date y → InWindow x a.win → InWindow y b → x < y) ∧
    (a.gt b = true ↔ ∀ x y, Date x → Date y → InWindow x a.win → InWindow y b → y < x) := by
  obtain ⟨⟨g1, g2, g3, g4, g5⟩, alla, ⟨la, hla, ina, hla'⟩, ⟨ua, hua, inua, hua'⟩⟩ := window_hull ha
  obtain ⟨⟨k1, k2, k3, k4, k5⟩, allb, ⟨lb, hlb, inb, hlb'⟩, ⟨ub, hub, inub, hub'⟩⟩ := window_hull hb
  simp only at g1 g2 g3 g4 g5 k1 k2 k3 k4 k5
  simp only [LWin.lt, LWin.gt, decide_eq_true_eq]
  constructor
  · constructor
    · intro h x y hx hy h1 h2
      have := alla x hx h1
      have := allb y hy h2
      omega
    · intro h
      have := h ua lb hua hlb inua inb
      obtain ⟨d1, d2⟩ := hua
      obtain ⟨d3, d4⟩ := hlb
      omega
  · constructor
    · intro h x y hx hy h1 h2
      have := alla x hx h1
      have := allb y hy h2
      omega
    · intro h
      have := h la ub hla hub ina inub
      obtain ⟨d1, d2⟩ := hla
      obtain ⟨d3, d4⟩ := hub
      omega

/-- No finite bound of the window is an extreme tick. -/
def Spec.NoExtremeW : Window → Prop
  | .conv w => w.lower ≠ -INF + 1 ∧ w.upper ≠ INF - 1
  | .set s => NoExtreme s

instance (W : Window) : Decidable (NoExtremeW W) := by cases W <;> unfold NoExtremeW <;> infer_instance

/-- Two non-empty windows are `==` iff iterating over them gives the same intervals. -/
theorem win_eq_iter {a : LWin} {b : Window} (ha : NonEmptyWindow a.win) (hb : NonEmptyWindow b) :
    a.eq b = true ↔ a.win.iter = b.iter := by
  cases a with
  | set s => exact eqWin_go
  | iv i =>
    have hi : (LWin.iv i).win.iter = [i] := by
      rcases ha.1 with hw | hw
      · exact TSet.iter_wf hw
      · exfalso
        obtain ⟨t, ht, hin⟩ := ha.2
        subst hw
        simp only [InConvex, InIv] at hin
        ticks
    rw [hi]
    cases b with
    | conv w =>
      obtain ⟨hp, t, ht, hin⟩ := hb
      rcases hp.cases with ⟨e1, e2, e3, e4, e5⟩ | ⟨e1, e2, e3, e4⟩
      · exact absurd hin (e5 t ht)
      · have e : (Window.conv w).iter = [⟨w.lower, w.upper⟩] := by
          simp [Window.iter, Convex.iter, e1]
        rw [e]
        cases i
        simp [LWin.eq, Iv.eqWin, Window.isConvex, Window.lower, Window.upper]
    | set s =>
      cases i
      match s, hb with
      | [], hb => exact absurd rfl hb.2
      | [x], _ =>
        cases x
        simp [LWin.eq, Iv.eqWin, Window.isConvex, Window.lower, Window.upper, TSet.isConvex,
          TSet.convexCount, TSet.lowerBound, TSet.upperBound, Window.iter]
      | x :: y :: r, _ =>
        simp [LWin.eq, Iv.eqWin, Window.isConvex, TSet.isConvex, TSet.convexCount, Window.iter]

/-- C49. For non-empty windows away from the extreme ticks, `a == b` iff they have the same dates;
`<=` is `<` or same dates, `>=` is `>` or same dates. -/
theorem C49_eq (a : LWin) (b : Window) (ha : NonEmptyWindow a.win) (hb : NonEmptyWindow b)
    (ea : NoExtremeW a.win) (eb : NoExtremeW b) :
    (a.eq b = true ↔ ∀ t, Date t → (InWindow t a.win ↔ InWindow t b)) ∧
    (a.le b = true ↔ a.lt b = true ∨ ∀ t, Date t → (InWindow t a.win ↔ InWindow t b)) ∧
    (a.ge b = true ↔ a.gt b = true ∨ ∀ t, Date t → (InWindow t a.win ↔ InWindow t b)) := by
  have key : a.eq b = true ↔ ∀ t, Date t → (InWindow t a.win ↔ InWindow t b) := by
    obtain ⟨hca, hnea, la, ua, pa⟩ := window_canon ha
    obtain ⟨hcb, hneb, lb, ub, pb⟩ := window_canon hb
    have noext : ∀ W : Window, NonEmptyWindow W → NoExtremeW W → NoExtreme W.iter := by
      intro W hW he
      cases W with
      | set s => exact he
      | conv w =>
        obtain ⟨hp, t, ht, hin⟩ := hW
        rcases hp.cases with ⟨e1, e2, e3, e4, e5⟩ | ⟨e1, e2, e3, e4⟩
        · exact absurd hin (e5 t ht)
        · have e : (Window.conv w).iter = [⟨w.lower, w.upper⟩] := by
            simp [Window.iter, Convex.iter, e1]
          rw [e]
          intro i hi
          simp only [List.mem_singleton] at hi
          subst hi; exact he
    rw [win_eq_iter ha hb]
    constructor
    · intro h t ht; rw [pa t ht, pb t ht, h]
    · intro h
      exact canon_ext_dates hca hcb (noext _ ha ea) (noext _ hb eb)
        (fun t ht => by rw [← pa t ht, ← pb t ht]; exact h t ht)
  refine ⟨key, ?_, ?_⟩
  · rw [LWin.le, Bool.or_eq_true, key]
  · rw [LWin.ge, Bool.or_eq_true, key]

/-- C49. `partial_cmp` says `Less` iff every date of `a` precedes every date of `b`, `Greater` iff every one
follows, `Equal` iff they have the same dates, and `None` otherwise. -/
theorem C49_partial_cmp (a : LWin) (b : Window) (ha : NonEmptyWindow a.win) (hb : NonEmptyWindow b)
    (ea : NoExtremeW a.win) (eb : NoExtremeW b) :
    (a.partialCmp b = some .lt ↔
      ∀ x y, Date x → Date y → InWindow x a.win → InWindow y b → x < y) ∧
    (a.partialCmp b = some .gt ↔
      ∀ x y, Date x → Date y → InWindow x a.win → InWindow y b → y < x) ∧
    (a.partialCmp b = some .eq ↔ ∀ t, Date t → (InWindow t a.win ↔ InWindow t b)) := by
  obtain ⟨h1, h2⟩ := C49_lt a b ha hb
  obtain ⟨h3, -, -⟩ := C49_eq a b ha hb ea eb
  rw [← h1, ← h2, ← h3]
  obtain ⟨⟨g1, g2, g3, g4, g5⟩, -, ⟨t, ht, hta, -⟩, -⟩ := window_hull ha
  obtain ⟨⟨k1, k2, k3, k4, k5⟩, -⟩ := window_hull hb
  simp only at g1 g2 g3 g4 g5 k1 k2 k3 k4 k5
  have n1 : a.lt b = true → a.gt b = true → False := by
    simp only [LWin.lt, LWin.gt, decide_eq_true_eq]; omega
  have n2 : a.eq b = true → a.lt b = true → False := by
    intro q1 q2
    have := h1.1 q2 t t ht ht hta ((h3.1 q1 t ht).1 hta)
    omega
  have n3 : a.eq b = true → a.gt b = true → False := by
    intro q1 q2
    have := h2.1 q2 t t ht ht hta ((h3.1 q1 t ht).1 hta)
    omega
  simp only [LWin.partialCmp]
  cases q1 : a.lt b <;> cases q2 : a.gt b <;> cases q3 : a.eq b <;> simp_all

/-- C49. On non-empty windows `<` is a strict partial order. -/
theorem C49_strict_order (a b c : LWin) (ha : NonEmptyWindow a.win) (hb : NonEmptyWindow b.win) :
    a.lt a.win = false ∧ (a.lt b.win = true → b.lt c.win = true → a.lt c.win = true) := by
  obtain ⟨⟨g1, -⟩, -⟩ := window_hull ha
  obtain ⟨⟨k1, -⟩, -⟩ := window_hull hb
  simp only at g1 k1
  simp only [LWin.lt, decide_eq_true_eq, decide_eq_false_iff_not]
  omega

example : NonEmptyWindow (LWin.set [⟨0, 3⟩, ⟨5, 9⟩]).win ∧ NonEmptyWindow (.conv (.rangeFrom 12)) ∧
    NoExtremeW (LWin.set [⟨0, 3⟩, ⟨5, 9⟩]).win ∧ NoExtremeW (.conv (.rangeFrom 12)) ∧
    (LWin.set [⟨0, 3⟩, ⟨5, 9⟩]).partialCmp (.conv (.rangeFrom 12)) = some .lt ∧
    (LWin.set [⟨0, 3⟩, ⟨5, 9⟩]).partialCmp (.conv (.rangeFrom 9)) = none :=
  ⟨⟨by decide, by decide⟩, ⟨by decide, 12, by decide, by decide⟩, by decide, by decide, by decide,
    by decide⟩

/-! ## C50 bounds -/

/-- C50. The bounds of a non-empty canonical set are its least and greatest points, and the envelope is the
smallest interval containing it. -/
theorem C50_bounds (s : TSet) (hs : Canon s) (hne : s ≠ []) :
    (InSet (TSet.lowerBound s) s ∧ ∀ t, InSet t s → TSet.lowerBound s ≤ t) ∧
    (InSet (TSet.upperBound s) s ∧ ∀ t, InSet t s → t ≤ TSet.upperBound s) ∧
    WF (TSet.convexEnvelope s) ∧
    (∀ t, InSet t s → InIv t (TSet.convexEnvelope s)) ∧
    (∀ i : Iv, (∀ t, InSet t s → InIv t i) → ∀ t, InIv t (TSet.convexEnvelope s) → InIv t i) := by
  obtain ⟨hb, hl, hu, hall⟩ := canon_bounds hs hne
  refine ⟨⟨hl, fun t h => (hall t h).1⟩, ⟨hu, fun t h => (hall t h).2⟩, hb, hall, ?_⟩
  intro i h t ht
  have h1 := h _ hl
  have h2 := h _ hu
  simp only [InIv, TSet.convexEnvelope] at *
  omega

/-- C50. `is_empty`, `is_singleton`, `is_low_bounded`, `is_up_bounded`, `is_bounded` mean what they say. -/
theorem C50_predicates (s : TSet) (hs : Canon s) :
    (TSet.isEmpty s = true ↔ ∀ t, Date t → ¬ InSet t s) ∧
    (TSet.isSingleton s = true ↔ ∃ p, Date p ∧ ∀ t, InSet t s ↔ t = p) ∧
    (s ≠ [] → (TSet.isLowBounded s = true ↔ ¬ InSet (-INF) s)) ∧
    (s ≠ [] → (TSet.isUpBounded s = true ↔ ¬ InSet INF s)) ∧
    (s ≠ [] → (TSet.isBounded s = true ↔ ¬ InSet (-INF) s ∧ ¬ InSet INF s)) := by
  have low : s ≠ [] → (TSet.isLowBounded s = true ↔ ¬ InSet (-INF) s) := by
    intro hne
    obtain ⟨hb, hl, hu, hall⟩ := canon_bounds hs hne
    have e : TSet.isLowBounded s = true ↔ TSet.lowerBound s ≠ -INF := by
      cases s with
      | nil => exact absurd rfl hne
      | cons x xs =>
        simp only [TSet.isLowBounded, TSet.lowerBound, List.head?_cons, Iv.isLowBounded, Bool.not_eq_true',
          ← Bool.not_eq_true, isPastInfinite_iff, ne_eq]
    rw [e]
    constructor
    · intro h hin; have := hall _ hin; have := hb.lo; simp only at this; omega
    · intro h e; rw [e] at hl; exact h hl
  have up : s ≠ [] → (TSet.isUpBounded s = true ↔ ¬ InSet INF s) := by
    intro hne
    obtain ⟨hb, hl, hu, hall⟩ := canon_bounds hs hne
    have e : TSet.isUpBounded s = true ↔ TSet.upperBound s ≠ INF := by
      unfold TSet.isUpBounded TSet.upperBound
      cases hg : s.getLast? with
      | none => exact absurd (List.getLast?_eq_none_iff.1 hg) hne
      | some x =>
        simp only [Iv.isUpBounded, Bool.not_eq_true', ← Bool.not_eq_true, isFutureInfinite_iff, ne_eq]
    rw [e]
    constructor
    · intro h hin; have := hall _ hin; have := hb.hi; simp only at this; omega
    · intro h e; rw [e] at hu; exact h hu
  refine ⟨?_, ?_, low, up, ?_⟩
  · cases s with
    | nil => simp [TSet.isEmpty, InSet_nil]
    | cons x xs =>
      simp only [TSet.isEmpty, List.isEmpty_cons, Bool.false_eq_true, false_iff]
      intro h
      obtain ⟨t, ht, hin⟩ := (hs.wf x (by simp)).exists_date
      exact h t ht ⟨x, by simp, hin⟩
  · constructor
    · intro h
      match s, h with
      | [x], h =>
        have hx := hs.wf x (by simp)
        simp only [TSet.isSingleton, Iv.isSingleton, beq_iff_eq] at h
        refine ⟨x.lower, ⟨?_, hx.lo_lt⟩, fun t => ?_⟩
        · have := hx.lt_hi; omega
        · rw [InSet_singleton, InIv]; omega
    · rintro ⟨p, hp, h⟩
      obtain ⟨p1, p2⟩ := hp
      have : s = [⟨p, p⟩] := by
        refine canon_ext hs (Canon_cons.2 ⟨?_, by simp, Canon_nil⟩) (fun t => ?_)
        · constructor <;> simp only <;> omega
        · rw [h, InSet_singleton]; simp only [InIv]; omega
      rw [this]; simp [TSet.isSingleton, Iv.isSingleton]
  · intro hne
    rw [TSet.isBounded, Bool.and_eq_true, low hne, up hne]

/-- C50. `convex_count` is 1 iff the (non-empty) set is an interval, more generally it counts maximal runs:
no canonical set with the same points has another count. -/
theorem C50_convex_count (s : TSet) (hs : Canon s) :
    (∀ r, Canon r → (∀ t, InSet t r ↔ InSet t s) → r.length = TSet.convexCount s) ∧
    (TSet.isConvex s = true ↔ ∀ a b c, InSet a s → InSet c s → a ≤ b → b ≤ c → InSet b s) := by
  refine ⟨fun r hr h => by rw [canon_ext hr hs h]; rfl, ?_⟩
  rw [TSet.isConvex, TSet.convexCount, decide_eq_true_eq]
  match s, hs with
  | [], _ => simp [InSet_nil]
  | [x], _ =>
    rw [List.length_singleton]
    simp only [Nat.le_refl, true_iff, InSet_singleton, InIv]
    intro a b c; omega
  | x :: y :: r, hs =>
    rw [List.length_cons, List.length_cons]
    simp only [show ¬ (r.length + 1 + 1 ≤ 1) by omega, false_iff]
    intro h
    have hx := hs.wf x (by simp)
    have hy := hs.wf y (by simp)
    obtain ⟨i, hi, h1, h2⟩ := h x.lower (x.upper + 1) y.lower
      ⟨x, by simp, Int.le_refl _, hx.le⟩ ⟨y, by simp, Int.le_refl _, hy.le⟩
      (by have := hx.le; omega)
      (by have := (Canon_cons.1 hs).2.1 y (by simp); omega)
    rcases canon_sep hs hi (show x ∈ x :: y :: r by simp) with e | e | e
    · subst e; omega
    · have := (Canon_cons.1 hs).2.1 i
      rcases List.mem_cons.1 hi with e' | e'
      · subst e'; omega
      · have := this e'; have := hx.le; have := (hs.wf i hi).le; omega
    · omega

/-- C50, partial: `is_all` of a non-empty canonical set says whether it contains every date (and the
infinities). Missing: the empty set, see `C50_is_all_violated`. -/
theorem C50_is_all_partial (s : TSet) (hs : Canon s) (hne : s ≠ []) :
    TSet.isAll s = true ↔ ∀ t, Legal t → InSet t s := by
  obtain ⟨-, -, hl, hu, -⟩ := C50_predicates s hs
  have hc := (C50_convex_count s hs).2
  have hl := hl hne
  have hu := hu hne
  simp only [TSet.isAll, Bool.and_eq_true, Bool.not_eq_true', ← Bool.not_eq_true]
  rw [hc, hl, hu, Classical.not_not, Classical.not_not]
  constructor
  · rintro ⟨⟨h1, h2⟩, h3⟩ t ⟨ht1, ht2⟩
    exact h1 _ t _ h2 h3 ht1 ht2
  · intro h
    refine ⟨⟨fun a b c ha hc' h1 h2 => ?_, h _ (by decide)⟩, h _ (by decide)⟩
    obtain ⟨i, hi, q1, q2⟩ := ha
    obtain ⟨j, hj, q3, q4⟩ := hc'
    have := (hs.wf i hi).lo
    have := (hs.wf j hj).hi
    exact h b ⟨by omega, by omega⟩

/-- C50 is violated: the empty set claims to contain every date. -/
theorem C50_is_all_violated : TSet.isAll TSet.empty = true ∧ ∀ t, ¬ InSet t TSet.empty :=
  ⟨by decide, fun _ h => InSet_nil h⟩

example : Canon [⟨0, 9⟩, ⟨20, INF⟩] ∧ TSet.lowerBound [⟨0, 9⟩, ⟨20, INF⟩] = 0 ∧
    TSet.upperBound [⟨0, 9⟩, ⟨20, INF⟩] = INF ∧ TSet.isAll TSet.all = true ∧ Canon TSet.all := by decide

/-! ## C97 constructors of sets -/

/-- C97, partial: `convex(a,b)`, `all()`, `empty()`, `singleton(a)` of a date, and a set converted from an
interval, a date or a range are canonical and hold exactly the dates they say. Missing: `singleton` of an
infinity, see `C97_violated`. -/
theorem C97_sets_partial (a b : Int) (ha : Legal a) (hb : Legal b) (w : Convex) (hw : Proper w) :
    Canon (TSet.convex a b) ∧ Canon TSet.all ∧ Canon TSet.empty ∧ Canon (TSet.ofConvex w) ∧
    (Date a → Canon (TSet.singleton a)) ∧
    (∀ t, Date t → (InSet t (TSet.convex a b) ↔ a ≤ t ∧ t ≤ b) ∧ InSet t TSet.all ∧ ¬ InSet t TSet.empty ∧
      (InSet t (TSet.ofConvex w) ↔ InConvex t w) ∧ (InSet t (TSet.singleton a) ↔ t = a)) := by
  obtain ⟨-, -, -, h4, h5, -⟩ := C93_structure w hw
  have e : TSet.ofConvex w = w.iter := rfl
  have hd := fun t ht => C15_dates a b t ha hb ht
  have c : TSet.convex a b = (Convex.iv (Iv.new a b)).iter := by
    simp only [TSet.convex, Convex.iter, Convex.isEmpty, Convex.lower, Convex.upper]
    rfl
  have p : Proper (.iv (Iv.new a b)) := C15_wellformed a b ha hb _ (by simp)
  obtain ⟨-, -, -, k4, k5, -⟩ := C93_structure _ p
  refine ⟨c ▸ k4, by decide, by decide, e ▸ h4, fun h => ?_, fun t ht => ⟨?_, ?_, InSet_nil, ?_, ?_⟩⟩
  · rw [TSet.singleton, Iv.singleton, if_pos (isFinite_iff.2 (by ticks))]
    exact ⟨by simp; constructor <;> simp only <;> ticks, by simp⟩
  · rw [c, k5 t ht]; exact (hd t ht).1
  · exact InSet_singleton.2 (hd t ht).2.2.2.2.1
  · rw [e]; exact h5 t ht
  · rw [TSet.singleton, InSet_singleton]; exact (hd t ht).2.1

/-- C97 is violated: the singleton of an infinity has no date but says it is not empty, and it is not
equal to the empty set. -/
theorem C97_violated (a : Int) (h : a = INF ∨ a = -INF) :
    TSet.isEmpty (TSet.singleton a) = false ∧ TSet.singleton a ≠ TSet.empty ∧ ∀ t, Date t → ¬ InSet t (TSet.singleton a) := by
  rcases h with rfl | rfl <;>
    exact ⟨by decide, by decide, fun _ ht h => empty_no_date ht (InSet_singleton.1 h)⟩

example : Legal 3 ∧ Legal 8 ∧ Proper (.range 3 9) ∧ TSet.convex 3 8 = [⟨3, 8⟩] ∧ TSet.convex 8 3 = [] ∧
    TSet.ofConvex (.range 3 9) = [⟨3, 8⟩] ∧ TSet.singleton 3 = [⟨3, 3⟩] := by decide

/-! ## C51 termination and fusedness -/

/-- C51. The union iterator, over any lists: the `n`-th call of `next` returns the `n`-th item of a fixed
finite list, of length at most that of the inputs together, and `None` for every `n` beyond it. -/
theorem C51_union_fused (i j : List Iv) :
    ∃ l : List Iv, l.length ≤ i.length + j.length ∧
      ∀ n, ((UnionIter.new i j).after n).next.1 = l[n]? := by
  have key : ∀ n (s : UnionIter), (s.after n).next.1 = s.drain[n]? := by
    intro n
    induction n with
    | zero =>
      intro s
      rw [UnionIter.drain_next]
      rcases h : s.next with ⟨_ | x, s'⟩ <;> simp [UnionIter.after, h]
    | succ n ih =>
      intro s
      rw [UnionIter.after, ih, UnionIter.drain_next s]
      rcases h : s.next with ⟨_ | x, s'⟩
      · have := UnionIter.next_none h
        simp only
        rw [UnionIter.drain_next, this]; simp
      · simp
  exact ⟨_, UnionIter.drain_length _ (UnionIter.new i j) (Nat.le_refl _), fun n => key n _⟩

/-- C51. The intersection iterator likewise. -/
theorem C51_inter_fused (i j : List Iv) :
    ∃ l : List Iv, l.length ≤ i.length + j.length ∧
      ∀ n, ((InterIter.new i j).after n).next.1 = l[n]? := by
  have key : ∀ n (s : InterIter), (s.after n).next.1 = s.drain[n]? := by
    intro n
    induction n with
    | zero =>
      intro s
      rw [InterIter.drain_next]
      rcases h : s.next with ⟨_ | x, s'⟩ <;> simp [InterIter.after, h]
    | succ n ih =>
      intro s
      rw [InterIter.after, ih, InterIter.drain_next s]
      rcases h : s.next with ⟨_ | x, s'⟩
      · have := InterIter.next_none h
        simp only
        rw [InterIter.drain_next, this]; simp
      · simp
  exact ⟨_, InterIter.drain_length _ (InterIter.new i j) (Nat.le_refl _), fun n => key n _⟩

theorem ComplIter.drain_length (n : Nat) : ∀ s : ComplIter, s.size ≤ n → s.drain.length ≤ s.size := by
  induction n with
  | zero =>
    intro s hs
    rw [ComplIter.drain_next]
    rcases h : s.next with ⟨_ | x, s'⟩
    · simp
    · have := ComplIter.next_some_size h; omega
  | succ n ih =>
    intro s hs
    rw [ComplIter.drain_next]
    rcases h : s.next with ⟨_ | x, s'⟩
    · simp
    · have := ComplIter.next_some_size h
      have := ih s' (by omega)
      simp only [List.length_cons]; omega

/-- C51. The complement iterator likewise. -/
theorem C51_compl_fused (i : List Iv) :
    ∃ l : List Iv, l.length ≤ 2 * i.length + 1 ∧
      ∀ n, ((ComplIter.new i).after n).next.1 = l[n]? := by
  have key : ∀ n (s : ComplIter), (s.after n).next.1 = s.drain[n]? := by
    intro n
    induction n with
    | zero =>
      intro s
      rw [ComplIter.drain_next]
      rcases h : s.next with ⟨_ | x, s'⟩ <;> simp [ComplIter.after, h]
    | succ n ih =>
      intro s
      rw [ComplIter.after, ih, ComplIter.drain_next s]
      rcases h : s.next with ⟨_ | x, s'⟩
      · have := ComplIter.next_none h
        simp only
        rw [ComplIter.drain_next, this]; simp
      · simp
  refine ⟨_, Nat.le_trans (ComplIter.drain_length _ (ComplIter.new i) (Nat.le_refl _)) ?_, fun n => key n _⟩
  have h0 : isFutureInfinite (-INF) = false := by decide
  simp only [ComplIter.size, ComplIter.new, h0]
  exact Nat.le_refl _

/-- A concrete case: three calls on a union of two intervals. -/
example : ((UnionIter.new [⟨0, 1⟩] [⟨5, 6⟩]).after 0).next.1 = some ⟨0, 1⟩ := by
  simp (config := {decide := true}) [UnionIter.new, UnionIter.after, UnionIter.next, UnionIter.step]

/-! ## C52 size hints -/

/-- C52. At any point of an intersection (any inputs, any state), the number of items still to come is
within the announced bounds. -/
theorem C52_inter_hint (s : InterIter) :
    s.sizeHint.1 ≤ s.drain.length ∧ ∃ m, s.sizeHint.2 = some m ∧ s.drain.length ≤ m := by
  have h := InterIter.drain_length _ s (Nat.le_refl _)
  rcases s with ⟨i, j, st, tmp⟩
  cases st with
  | done =>
    have : (InterIter.mk i j .done tmp).drain = [] := by rw [InterIter.drain_eq]; rfl
    rw [this]
    exact ⟨Nat.le_refl _, 0, rfl, Nat.le_refl _⟩
  | init => exact ⟨Nat.zero_le _, _, rfl, h⟩
  | waitI => exact ⟨Nat.zero_le _, _, rfl, h⟩
  | waitJ => exact ⟨Nat.zero_le _, _, rfl, h⟩

/-- C52, partial: a union not yet started announces right bounds; at any other point (any state) the lower
bound is right and the upper bound is short by at most one. Missing: the exact upper bound between two
calls, see `C52_union_violated`. -/
theorem C52_union_hint_partial (s : UnionIter) :
    (s.sizeHint.1 ≤ s.drain.length ∧ ∃ m, s.sizeHint.2 = some m ∧ s.drain.length ≤ m + 1) ∧
    ∀ i j, ∃ m, (UnionIter.new i j).sizeHint.2 = some m ∧ (UnionIter.new i j).drain.length ≤ m := by
  constructor
  · have h := UnionIter.drain_length _ s (Nat.le_refl _)
    rcases s with ⟨i, j, st, tmp⟩
    cases st with
    | done =>
      have : (UnionIter.mk i j .done tmp).drain = [] := by rw [UnionIter.drain_eq]; rfl
      rw [this]
      exact ⟨Nat.le_refl _, 0, rfl, by simp⟩
    | onlyI => rw [UnionIter.drain_onlyI]; exact ⟨Nat.le_refl _, _, rfl, Nat.le_succ _⟩
    | onlyJ => rw [UnionIter.drain_onlyJ]; exact ⟨Nat.le_refl _, _, rfl, Nat.le_succ _⟩
    | init => exact ⟨Nat.zero_le _, _, rfl, by simp only [UnionIter.size] at h; simp only; omega⟩
    | waitI => exact ⟨Nat.zero_le _, _, rfl, h⟩
    | waitJ => exact ⟨Nat.zero_le _, _, rfl, h⟩
  · intro i j
    exact ⟨_, rfl, UnionIter.drain_length _ (UnionIter.new i j) (Nat.le_refl _)⟩

/-- C52, partial: a complement not yet started announces right bounds for a canonical set; after any number
of calls the lower bound is right and the upper bound is short by at most one. -/
theorem C52_compl_hint_partial (s : TSet) (hs : Canon s) :
    (∀ k, ((ComplIter.new s).after k).sizeHint.1 ≤ ((ComplIter.new s).after k).drain.length ∧
      ∃ m, ((ComplIter.new s).after k).sizeHint.2 = some m ∧
        ((ComplIter.new s).after k).drain.length ≤ m + 1) ∧
    ∃ m, (ComplIter.new s).sizeHint.2 = some m ∧ (ComplIter.new s).drain.length ≤ m := by
  have hnew : (ComplIter.new s).sizeHint = (s.length - 1, some (s.length + 1)) := by
    have : isFinite (-INF) = false := by decide
    simp only [ComplIter.sizeHint, ComplIter.new, this, Bool.false_eq_true, if_false]
  have hlen : s.length - 1 ≤ (TSet.compl s).length ∧ (TSet.compl s).length ≤ s.length + 1 := by
    cases s with
    | nil => decide
    | cons x xs =>
      have := complTail_length (justAfter x.upper) xs
      simp only [TSet.compl, List.length_cons]
      split <;> (try simp only [List.length_cons]) <;> omega
  constructor
  · intro k
    cases k with
    | zero =>
      simp only [ComplIter.after]
      rw [hnew, ComplIter.drain_new hs]
      exact ⟨hlen.1, _, rfl, by have := hlen.2; omega⟩
    | succ k =>
      simp only [ComplIter.after]
      have hm := ComplIter.after_mid (ComplIter.next_new hs) k
      generalize ComplIter.after k (ComplIter.new s).next.2 = q at hm
      rcases q with ⟨it, lo⟩
      obtain ⟨u, h1, h2, hc, hg, hl⟩ := hm
      simp only at hl hc hg
      subst hl
      rw [ComplIter.drain_mid it u h1 h2 hc hg]
      have := complTail_length (justAfter u) it
      simp only [ComplIter.sizeHint]
      split
      · exact ⟨by simp only; omega, _, rfl, by omega⟩
      · exact ⟨by simp only; omega, _, rfl, by omega⟩
  · rw [hnew, ComplIter.drain_new hs]
    exact ⟨_, rfl, hlen.2⟩

/-- C52 is violated by the union of a lone interval and of any later set: after its first item it announces one interval less than
there are still to come. -/
theorem C52_union_violated (x y : Iv) (s : TSet) (hx : WF x) (hs : Canon (y :: s)) (h : x.upper + 1 < y.lower) :
    ((UnionIter.new [x] (y :: s)).after 1).sizeHint.2 = some s.length ∧
    ((UnionIter.new [x] (y :: s)).after 1).drain.length = s.length + 1 := by
  have hy := (Canon_cons.mp hs).1
  have e : (UnionIter.new [x] (y :: s)).after 1 = ⟨[], s, .waitI, y⟩ := by
    have hlt : x.upper < justBefore y.lower := by
      obtain ⟨p1, p2, p3, p4, p5⟩ := hy
      obtain ⟨r1, r2, r3, r4, r5⟩ := hx
      rw [justBefore_eq]; split <;> ticks
    simp only [UnionIter.after, UnionIter.next_eq, UnionIter.new, UnionIter.step, hlt, if_true]
  rw [e, UnionIter.drain_waitI_nil]
  exact ⟨by simp [UnionIter.sizeHint], by simp⟩

theorem compl_mid_hint (k : Nat) : ∀ (it : List Iv) (u : Int), -INF < u → u < INF - 1 → Canon it →
    (∀ y ∈ it, u + 1 < y.lower) → (∀ y ∈ it, y.upper < INF - 1) → k ≤ it.length →
    ((ComplIter.mk it (justAfter u)).after k).sizeHint.2 = some (it.length - k) ∧
    ((ComplIter.mk it (justAfter u)).after k).drain.length = it.length - k + 1 := by
  induction k with
  | zero =>
    intro it u h1 h2 hc hg hu _
    rw [ComplIter.after, ComplIter.drain_mid it u h1 (by omega) hc hg]
    constructor
    · have : isFinite (justAfter u) = true := by rw [justAfter_eq, isFinite_iff]; split <;> ticks
      simp [ComplIter.sizeHint, this]
    · clear hg
      induction it generalizing u with
      | nil =>
        have : isFutureInfinite (justAfter u) = false := by
          rw [← Bool.not_eq_true, isFutureInfinite_iff, justAfter_eq]; split <;> ticks
        simp [TSet.complTail, this]
      | cons x xs ih =>
        obtain ⟨hw, -, hcx⟩ := Canon_cons.mp hc
        obtain ⟨p1, p2, p3, p4, p5⟩ := hw
        have hxu := hu x (by simp)
        have := ih x.upper (by ticks) hxu hcx (fun y hy => hu y (by simp [hy])) (by simp)
        simp only [TSet.complTail, List.length_cons] at this ⊢
        omega
  | succ k ih =>
    intro it u h1 h2 hc hg hu hk
    cases it with
    | nil => simp at hk
    | cons x xs =>
      obtain ⟨hw, hgx, hcx⟩ := Canon_cons.mp hc
      have hxg := hg x (by simp)
      have hxu := hu x (by simp)
      have e : (ComplIter.mk (x :: xs) (justAfter u)).next.2 = ⟨xs, justAfter x.upper⟩ := by
        have hp : isPastInfinite (justAfter u) = false := by
          rw [← Bool.not_eq_true, isPastInfinite_iff, justAfter_eq]; split <;> ticks
        have hlt : justAfter u < x.lower := by rw [justAfter_eq]; split <;> ticks
        simp [ComplIter.next, hp, ComplIter.scan, hlt]
      rw [ComplIter.after, e]
      obtain ⟨p1, p2, p3, p4, p5⟩ := hw
      have := ih xs x.upper (by ticks) hxu hcx hgx (fun y hy => hu y (by simp [hy])) (by simpa using hk)
      simpa using this

/-- C52 is violated by the complement of every bounded set, at every point after its first item: it announces one interval less than
there are still to come. -/
theorem C52_compl_violated (s : TSet) (hs : Canon s) (hb : ∀ i ∈ s, -INF + 1 < i.lower ∧ i.upper < INF - 1)
    (k : Nat) (h1 : 1 ≤ k) (h2 : k ≤ s.length) :
    ((ComplIter.new s).after k).sizeHint.2 = some (s.length - k) ∧
    ((ComplIter.new s).after k).drain.length = s.length - k + 1 := by
  cases s with
  | nil => simp at h2; omega
  | cons x xs =>
    cases k with
    | zero => omega
    | succ k =>
      obtain ⟨hw, hgx, hcx⟩ := Canon_cons.mp hs
      have hx := hb x (by simp)
      have e : (ComplIter.new (x :: xs)).next.2 = ⟨xs, justAfter x.upper⟩ := by
        have hp : isPastInfinite (-INF) = true := by decide
        have hne : (justBefore x.lower == -INF) = false := by
          rw [beq_eq_false_iff_ne, justBefore_eq]; split <;> ticks
        simp [ComplIter.next, ComplIter.new, hp, hne]
      rw [ComplIter.after, e]
      obtain ⟨p1, p2, p3, p4, p5⟩ := hw
      have := compl_mid_hint k xs x.upper (by ticks) hx.2 hcx hgx (fun y hy => (hb y (by simp [hy])).2) (by simpa using h2)
      simpa using this

example : WF ⟨0, 0⟩ ∧ Canon [⟨5, 5⟩, ⟨7, INF⟩] ∧ (0 : Int) + 1 < 5 ∧
    Canon [⟨0, 0⟩, ⟨4, 9⟩] ∧ ∀ i ∈ ([⟨0, 0⟩, ⟨4, 9⟩] : TSet), -INF + 1 < i.lower ∧ i.upper < INF - 1 := by decide

example : Canon [⟨0, 0⟩, ⟨4, INF⟩] ∧ (ComplIter.new [⟨0, 0⟩, ⟨4, INF⟩]).sizeHint = (1, some 3) := by decide

end Chrono
