import Verif.Lemmas.Set
import Verif.Lemmas.UnionExact

set_option linter.unusedSimpArgs false

/-!
# Properties of time sets: complement, union, intersection, collecting (C27-C34, C38, C46-C48)
-/

namespace Chrono
open Spec

/-! ## C27, C28 complement -/

/-- C27. `!s` contains a date iff `s` does not, and is canonical. -/
theorem C27_compl (s : TSet) (hs : Canon s) :
    Canon (TSet.compl s) ∧ ∀ t, Date t → (InSet t (TSet.compl s) ↔ ¬ InSet t s) :=
  ⟨(compl_spec hs).1, (compl_spec hs).2.2⟩

example : Canon [⟨-INF, 3⟩, ⟨7, 9⟩, ⟨20, 20⟩] ∧
    TSet.compl [⟨-INF, 3⟩, ⟨7, 9⟩, ⟨20, 20⟩] = [⟨4, 6⟩, ⟨10, 19⟩, ⟨21, INF⟩] := by decide

/-- C28. `!!s` has the dates of `s`, and is `s` itself away from the extreme representable ticks. -/
theorem C28_double_compl (s : TSet) (hs : Canon s) :
    (∀ t, Date t → (InSet t (TSet.compl (TSet.compl s)) ↔ InSet t s)) ∧
    (NoExtreme s → TSet.compl (TSet.compl s) = s) := by
  obtain ⟨a1, a2, a3⟩ := compl_spec hs
  obtain ⟨b1, b2, b3⟩ := compl_spec a1
  have h : ∀ t, Date t → (InSet t (TSet.compl (TSet.compl s)) ↔ InSet t s) := by
    intro t ht; rw [b3 t ht, a3 t ht, Classical.not_not]
  exact ⟨h, fun he => canon_ext_dates b1 hs b2 he h⟩

example : Canon [⟨-INF, 3⟩, ⟨7, 9⟩] ∧ NoExtreme [⟨-INF, 3⟩, ⟨7, 9⟩] := by decide

/-! ## C29, C30, C31 union -/

/-- C29. The union of two canonical sets does not panic and contains no other date than theirs; the
iterator likewise. -/
theorem C29_union_sound (a b : TSet) (ha : Canon a) (hb : Canon b) :
    (∃ r, TSet.union a b = .ok r ∧ ∀ t, InSet t r → InSet t a ∨ InSet t b) ∧
    ∀ t, InSet t (UnionIter.new a b).drain → InSet t a ∨ InSet t b :=
  ⟨⟨_, TSet.union_eq ha hb, (UnionIter.good_new ha hb).2⟩, (UnionIter.good_new ha hb).2⟩

/-- C29 for `set | window`. -/
theorem C29_union_convex_sound (a : TSet) (w : Convex) (ha : Canon a) (hw : Proper w) :
    ∃ r, TSet.unionConvex a w = .ok r ∧ ∀ t, Date t → InSet t r → InSet t a ∨ InConvex t w := by
  rcases hw.cases with ⟨e1, e2, e3, e4, e5⟩ | ⟨e1, e2, e3, e4⟩
  · have : (Convex.iv w.into).iter = [] := by rw [e4]; decide
    rw [TSet.unionConvex, this]
    obtain ⟨h1, h2⟩ := UnionIter.good_new ha Canon_nil
    exact ⟨_, TSet.fromIter_canon h1, fun t _ h => by simpa [InSet_nil] using Or.inl (h2 t h)⟩
  · have : (Convex.iv w.into).iter = [⟨w.lower, w.upper⟩] := by rw [e3]; exact TSet.iter_wf e2
    rw [TSet.unionConvex, this]
    obtain ⟨h1, h2⟩ := UnionIter.good_new ha (Canon_cons.2 ⟨e2, by simp, Canon_nil⟩)
    refine ⟨_, TSet.fromIter_canon h1, fun t ht h => ?_⟩
    rcases h2 t h with h | h
    · exact Or.inl h
    · rw [InSet_singleton] at h; exact Or.inr ((e4 t ht).2 h)

example : Canon [⟨0, 1⟩, ⟨10, 11⟩] ∧ Canon [⟨5, 6⟩, ⟨12, 20⟩] ∧
    TSet.union [⟨0, 1⟩, ⟨10, 11⟩] [⟨5, 6⟩, ⟨12, 20⟩] = .ok [⟨0, 1⟩, ⟨5, 6⟩, ⟨10, 20⟩] := by
  refine ⟨by decide, by decide, ?_⟩
  rw [TSet.union_eq (by decide) (by decide)]
  simp (config := {decide := true}) [UnionIter.new, UnionIter.drain_eq, UnionIter.step]

/-- C30, partial: the union loses no date, provided that every interval of `a` but the last ends
before some interval of `b` does (or `b` is empty). Missing: all the other cases; see
`C30_union_violated`. -/
theorem C30_union_complete_partial (a b : TSet) (ha : Canon a) (hb : Canon b)
    (h : b = [] ∨ ∀ x ∈ a.dropLast, ∃ y ∈ b, x.upper < y.upper) :
    ∃ r, TSet.union a b = .ok r ∧ r = (UnionIter.new a b).drain ∧
      ∀ t, InSet t a ∨ InSet t b → InSet t r :=
  ⟨_, TSet.union_eq ha hb, rfl, fun t ht => UnionIter.complete_new ha hb h t ht⟩

example : Canon [⟨0, 1⟩, ⟨10, 11⟩] ∧ Canon [⟨5, 6⟩, ⟨12, 20⟩] ∧
    ∀ x ∈ ([⟨0, 1⟩, ⟨10, 11⟩] : List Iv).dropLast, ∃ y ∈ ([⟨5, 6⟩, ⟨12, 20⟩] : List Iv),
      x.upper < y.upper := by decide

/-- C30 is violated as soon as an interval of `a`, other than the last, ends after the end of a
non-empty `b`: the dates of `a` beyond that interval are all lost. -/
theorem C30_union_violated (a b : TSet) (ha : Canon a) (hb : Canon b) (hne : b ≠ []) (x : Iv)
    (hx : x ∈ a.dropLast) (h : ∀ y ∈ b, y.upper < x.upper) :
    ∃ r, TSet.union a b = .ok r ∧ (∀ t, InSet t r → t ≤ x.upper) ∧
      ∃ t, Date t ∧ InSet t a ∧ ¬ InSet t r := by
  have hmem := (List.dropLast_sublist a).subset hx
  have hs := UnionIter.stop_new ha hb hne hmem h
  have hle : ∀ t, InSet t (UnionIter.new a b).drain → t ≤ x.upper := by
    rintro t ⟨z, hz, h1, h2⟩; have := hs z hz; omega
  refine ⟨_, TSet.union_eq ha hb, hle, ?_⟩
  obtain ⟨l, hl, hlt⟩ := TSet.dropLast_lt ha hx
  obtain ⟨t, ht, h1, h2⟩ := (ha.wf l hl).exists_date
  exact ⟨t, ht, ⟨l, hl, h1, h2⟩, fun hc => by have := hle t hc; omega⟩

/-- C30, exactly what is lost. Let `x` be the first interval of `a` which does not end before the end of `b`. Then `a | b` holds `b` and
the intervals of `a` up to `x`, and nothing else, unless `x` and `b` end together and, walking through the ends of both in increasing order,
`b` is ahead at last (see `Spec.ahead`): then it also holds the interval which follows `x`. -/
theorem C30_union_exact (a1 a2 b : TSet) (x : Iv) (ha : Canon (a1 ++ x :: a2)) (hb : Canon b) (hne : b ≠ [])
    (h1 : ∀ z ∈ a1, ∃ y ∈ b, z.upper < y.upper) (hx : ∀ y ∈ b, y.upper ≤ x.upper) :
    ∃ r, TSet.union (a1 ++ x :: a2) b = .ok r ∧ ∀ t, InSet t r ↔ InSet t a1 ∨ InIv t x ∨ InSet t b ∨
      ((∃ y ∈ b, y.upper = x.upper) ∧ ahead false (a1.map Iv.upper ++ [x.upper]) (b.map Iv.upper) = true ∧
        ∃ z rest, a2 = z :: rest ∧ InIv t z) := by
  obtain ⟨k, hk, hp⟩ := UnionIter.points_exact ha hb hne h1 hx
  refine ⟨_, TSet.union_eq ha hb, fun t => ?_⟩
  rw [hp, hk]
  split
  · next c =>
    simp only [c.1, c.2, true_and]
    cases a2 with
    | nil =>
      simp only [List.take_nil, InSet_append, InSet_cons, InSet_nil]
      grind
    | cons z rest =>
      simp only [List.take_succ_cons, List.take_zero, InSet_append, InSet_cons, InSet_nil, List.cons.injEq]
      grind
  · next c =>
    simp only [List.take_zero, InSet_append, InSet_cons, InSet_nil]
    grind

/-- C30, exactly when nothing is lost: `b` is empty, all of `a` but its last interval ends before the end of `b`, or `b` ends with the last
interval of `a` but one and is ahead there. -/
theorem C30_lossless_exact (a b : TSet) (ha : Canon a) (hb : Canon b) :
    Lossless a b ↔ b = [] ∨ (∀ z ∈ a.dropLast, ∃ y ∈ b, z.upper < y.upper) ∨
      ∃ a1 x z, a = a1 ++ [x, z] ∧ (∀ w ∈ a1, ∃ y ∈ b, w.upper < y.upper) ∧ (∃ y ∈ b, y.upper = x.upper) ∧ (∀ y ∈ b, y.upper ≤ x.upper) ∧
        ahead false (a1.map Iv.upper ++ [x.upper]) (b.map Iv.upper) = true := by
  constructor
  · rintro ⟨r, hr, hall⟩
    refine Classical.byContradiction fun hn => ?_
    simp only [not_or] at hn
    obtain ⟨hne, h2, h3⟩ := hn
    obtain ⟨l1, x, l2, e, hp, hx⟩ := first_split (fun z => ∃ y ∈ b, z.upper < y.upper) a.dropLast
      (Classical.byContradiction fun hc => h2 fun z hz => Classical.byContradiction fun hc' => hc ⟨z, hz, hc'⟩)
    have hane : a ≠ [] := by rintro rfl; simp at e
    obtain ⟨w, ew⟩ : ∃ w, a = l1 ++ x :: (l2 ++ [w]) :=
      ⟨a.getLast hane, by
        have := List.dropLast_concat_getLast hane
        rw [e] at this; rw [← List.cons_append, ← List.append_assoc]; exact this.symm⟩
    subst ew
    have hxb : ∀ y ∈ b, y.upper ≤ x.upper := fun y hy => by
      by_cases h : x.upper < y.upper
      · exact absurd ⟨y, hy, h⟩ hx
      · omega
    obtain ⟨r', hr', hpts⟩ := C30_union_exact l1 (l2 ++ [w]) b x ha hb hne hp hxb
    rw [hr] at hr'; cases hr'
    obtain ⟨t, -, t1, t2⟩ := (ha.wf w (by simp)).exists_date
    have hg := List.pairwise_append.1 ha.gap
    have hg2 := List.pairwise_cons.1 hg.2.1
    have hg3 := List.pairwise_append.1 hg2.2
    have hxw := hg2.1 w (by simp)
    rcases (hpts t).1 (hall t (Or.inl ⟨w, by simp, t1, t2⟩)) with ⟨z, hz, z1, z2⟩ | ⟨z1, z2⟩ | ⟨z, hz, z1, z2⟩ | ⟨c1, c2, z, rest, ez, z1, z2⟩
    · have := hg.2.2 z hz w (by simp); omega
    · omega
    · have := hxb z hz; omega
    · cases l2 with
      | nil => exact h3 ⟨l1, x, w, rfl, hp, c1, hxb, c2⟩
      | cons z' l2 =>
        simp only [List.cons_append, List.cons.injEq] at ez
        have := hg3.2.2 z (by simp [ez.1]) w (by simp)
        omega
  · rintro (h | h | ⟨a1, x, z, rfl, h1, h2, h3, h4⟩)
    · obtain ⟨r, e, -, hh⟩ := C30_union_complete_partial a b ha hb (Or.inl h); exact ⟨r, e, hh⟩
    · obtain ⟨r, e, -, hh⟩ := C30_union_complete_partial a b ha hb (Or.inr h); exact ⟨r, e, hh⟩
    · have hne : b ≠ [] := by rintro rfl; obtain ⟨y, hy, -⟩ := h2; cases hy
      obtain ⟨r, e, hpts⟩ := C30_union_exact a1 [z] b x ha hb hne h1 h3
      refine ⟨r, e, fun t ht => (hpts t).2 ?_⟩
      simp only [InSet_append, InSet_cons, InSet_nil] at ht
      have : ∀ t, InIv t z → ∃ z' rest, [z] = z' :: rest ∧ InIv t z' := fun t h => ⟨z, [], rfl, h⟩
      grind

/-- The three cases of `C30_lossless_exact`. -/
example : Lossless [⟨0, 1⟩, ⟨5, 6⟩] [] ∧ Lossless [⟨0, 1⟩, ⟨5, 6⟩] [⟨1, 3⟩] ∧
    Lossless [⟨5, 10⟩, ⟨20, 21⟩] [⟨0, 10⟩] ∧ ¬ Lossless [⟨5, 10⟩, ⟨20, 21⟩] [⟨0, 1⟩, ⟨3, 10⟩] ∧ ¬ Lossless [⟨0, 1⟩, ⟨5, 6⟩] [⟨-3, 0⟩] := by
  refine ⟨(C30_lossless_exact _ _ (by decide) (by decide)).2 (.inl rfl),
    (C30_lossless_exact _ _ (by decide) (by decide)).2 (.inr (.inl (by decide))),
    (C30_lossless_exact _ _ (by decide) (by decide)).2 (.inr (.inr ⟨[], _, _, rfl, by decide, by decide, by decide, by simp [ahead]⟩)), ?_, ?_⟩
  · rintro ⟨r, hr, h⟩
    have e : TSet.union [⟨5, 10⟩, ⟨20, 21⟩] [⟨0, 1⟩, ⟨3, 10⟩] = .ok [⟨0, 1⟩, ⟨3, 10⟩] := by decide +kernel
    rw [e] at hr; cases hr
    exact absurd (h 20 (.inl (by decide))) (by decide)
  · rintro ⟨r, hr, h⟩
    have e : TSet.union [⟨0, 1⟩, ⟨5, 6⟩] [⟨-3, 0⟩] = .ok [⟨-3, 1⟩] := by decide +kernel
    rw [e] at hr; cases hr
    exact absurd (h 5 (.inl (by decide))) (by decide)

/-- Both cases of `C30_union_exact` when `x` and `b` end together, and the case where `x` ends later. -/
example : TSet.union [⟨5, 10⟩, ⟨20, 21⟩] [⟨0, 1⟩, ⟨3, 10⟩] = .ok [⟨0, 1⟩, ⟨3, 10⟩] ∧
    TSet.union [⟨5, 10⟩, ⟨20, 21⟩, ⟨30, 31⟩] [⟨0, 10⟩] = .ok [⟨0, 10⟩, ⟨20, 21⟩] ∧
    TSet.union [⟨0, 2⟩, ⟨5, 12⟩, ⟨20, 21⟩] [⟨0, 10⟩] = .ok [⟨0, 12⟩] ∧ Canon [⟨0, 2⟩, ⟨5, 12⟩, ⟨20, 21⟩] ∧
    (∀ z ∈ ([⟨0, 2⟩] : List Iv), ∃ y ∈ ([⟨0, 10⟩] : List Iv), z.upper < y.upper) := by
  refine ⟨by decide +kernel, by decide +kernel, by decide +kernel, by decide, by decide⟩

example : Canon [⟨0, 1⟩, ⟨10, 11⟩, ⟨20, 21⟩] ∧ Canon [⟨5, 6⟩] ∧
    (⟨10, 11⟩ : Iv) ∈ ([⟨0, 1⟩, ⟨10, 11⟩, ⟨20, 21⟩] : List Iv).dropLast ∧
    ∀ y ∈ ([⟨5, 6⟩] : List Iv), y.upper < 11 := by decide

/-- C31. The union of two canonical sets is canonical, by operator or iterator. -/
theorem C31_union_canonical (a b : TSet) (ha : Canon a) (hb : Canon b) :
    (∃ r, TSet.union a b = .ok r ∧ Canon r) ∧ Canon (UnionIter.new a b).drain :=
  ⟨⟨_, TSet.union_eq ha hb, (UnionIter.good_new ha hb).1⟩, (UnionIter.good_new ha hb).1⟩

/-- C31 for `set | window`. -/
theorem C31_union_convex_canonical (a : TSet) (w : Convex) (ha : Canon a) (hw : Proper w) :
    ∃ r, TSet.unionConvex a w = .ok r ∧ Canon r := by
  rcases hw.cases with ⟨e1, e2, e3, e4, e5⟩ | ⟨e1, e2, e3, e4⟩
  · have : (Convex.iv w.into).iter = [] := by rw [e4]; decide
    rw [TSet.unionConvex, this]
    obtain ⟨h1, -⟩ := UnionIter.good_new ha Canon_nil
    exact ⟨_, TSet.fromIter_canon h1, h1⟩
  · have : (Convex.iv w.into).iter = [⟨w.lower, w.upper⟩] := by rw [e3]; exact TSet.iter_wf e2
    rw [TSet.unionConvex, this]
    obtain ⟨h1, -⟩ := UnionIter.good_new ha (Canon_cons.2 ⟨e2, by simp, Canon_nil⟩)
    exact ⟨_, TSet.fromIter_canon h1, h1⟩

example : Canon [⟨0, 1⟩, ⟨10, 11⟩] ∧ Proper (.iv ⟨12, 15⟩) ∧ Proper (.iv Iv.empty) ∧
    ∀ x ∈ ([⟨0, 1⟩, ⟨10, 11⟩] : List Iv).dropLast, x.upper < 15 := by decide

/-- C30 for `set | window`, partial: no date is lost if every interval of `a` but the last ends before the
window does (or the window is empty). Missing: the other cases, see `C30_union_violated`. -/
theorem C30_union_convex_partial (a : TSet) (w : Convex) (ha : Canon a) (hw : Proper w) :
    ∃ r, TSet.unionConvex a w = .ok r ∧
      ((∀ t, Date t → ¬ InConvex t w) ∨ (∀ x ∈ a.dropLast, x.upper < w.upper) →
        ∀ t, Date t → InSet t a ∨ InConvex t w → InSet t r) := by
  rcases hw.cases with ⟨e1, e2, e3, e4, e5⟩ | ⟨e1, e2, e3, e4⟩
  · have : (Convex.iv w.into).iter = [] := by rw [e4]; decide
    rw [TSet.unionConvex, this]
    obtain ⟨h1, -⟩ := UnionIter.good_new ha Canon_nil
    refine ⟨_, TSet.fromIter_canon h1, fun _ t ht h => ?_⟩
    refine UnionIter.complete_new ha Canon_nil (Or.inl rfl) t ?_
    rcases h with h | h
    · exact Or.inl h
    · exact absurd h (e5 t ht)
  · have : (Convex.iv w.into).iter = [⟨w.lower, w.upper⟩] := by rw [e3]; exact TSet.iter_wf e2
    rw [TSet.unionConvex, this]
    have hc : Canon [⟨w.lower, w.upper⟩] := Canon_cons.2 ⟨e2, by simp, Canon_nil⟩
    obtain ⟨h1, -⟩ := UnionIter.good_new ha hc
    refine ⟨_, TSet.fromIter_canon h1, fun hh t ht h => ?_⟩
    have hh' : ∀ x ∈ a.dropLast, x.upper < w.upper := by
      rcases hh with hh | hh
      · obtain ⟨t, ht, h⟩ := e2.exists_date
        exact absurd ((e4 t ht).2 h) (hh t ht)
      · exact hh
    refine UnionIter.complete_new ha hc (Or.inr fun x hx => ⟨_, List.mem_singleton.2 rfl, hh' x hx⟩) t ?_
    rcases h with h | h
    · exact Or.inl h
    · exact Or.inr (InSet_singleton.2 ((e4 t ht).1 h))

/-- C31 for `collect` over a sequence of sets: no panic, canonical, no date invented. -/
theorem C31_from_sets_canonical (l : List TSet) (hl : ∀ s ∈ l, Canon s) :
    ∃ r, TSet.fromSets l = .ok r ∧ Canon r ∧ ∀ t, InSet t r → ∃ s ∈ l, InSet t s := by
  cases l with
  | nil => exact ⟨[], rfl, Canon_nil, fun t h => absurd h InSet_nil⟩
  | cons s ss =>
    have key : ∀ (ss : List TSet) (s : TSet), Canon s → (∀ x ∈ ss, Canon x) →
        ∃ r, ss.foldlM TSet.union s = .ok r ∧ Canon r ∧
          ∀ t, InSet t r → InSet t s ∨ ∃ x ∈ ss, InSet t x := by
      intro ss
      induction ss with
      | nil => intro s hs _; exact ⟨s, rfl, hs, fun t h => Or.inl h⟩
      | cons x xs ih =>
        intro s hs hx
        obtain ⟨c, p⟩ := UnionIter.good_new hs (hx x (by simp))
        obtain ⟨r, e, c', p'⟩ := ih _ c (fun y hy => hx y (by simp [hy]))
        refine ⟨r, ?_, c', fun t ht => ?_⟩
        · rw [List.foldlM_cons, TSet.union_eq hs (hx x (by simp))]; exact e
        · rcases p' t ht with h | ⟨y, hy, h⟩
          · rcases p t h with h | h
            · exact Or.inl h
            · exact Or.inr ⟨x, by simp, h⟩
          · exact Or.inr ⟨y, by simp [hy], h⟩
    obtain ⟨r, e, c, p⟩ := key ss s (hl s (by simp)) (fun x hx => hl x (by simp [hx]))
    refine ⟨r, e, c, fun t ht => ?_⟩
    rcases p t ht with h | ⟨x, hx, h⟩
    · exact ⟨s, by simp, h⟩
    · exact ⟨x, by simp [hx], h⟩

example : ∀ s ∈ ([[⟨0, 1⟩, ⟨5, 6⟩], [], [⟨2, 3⟩]] : List TSet), Canon s := by decide

/-! ## C32, C33 intersection -/

/-- C32. A date is in `a & b` iff it is in both, by operator or iterator; no panic. -/
theorem C32_inter (a b : TSet) (ha : Canon a) (hb : Canon b) :
    (∃ r, TSet.inter a b = .ok r ∧ ∀ t, InSet t r ↔ InSet t a ∧ InSet t b) ∧
    ∀ t, InSet t (InterIter.new a b).drain ↔ InSet t a ∧ InSet t b := by
  obtain ⟨_, h⟩ := InterIter.meets_new ha hb
  exact ⟨⟨_, TSet.inter_eq ha hb, h.pts⟩, h.pts⟩

/-- C32 for `set & window`. -/
theorem C32_inter_convex (a : TSet) (w : Convex) (ha : Canon a) (hw : Proper w) :
    ∃ r, TSet.interConvex a w = .ok r ∧ ∀ t, Date t → (InSet t r ↔ InSet t a ∧ InConvex t w) := by
  rcases hw.cases with ⟨e1, e2, e3, e4, e5⟩ | ⟨e1, e2, e3, e4⟩
  · have : (Convex.iv w.into).iter = [] := by rw [e4]; decide
    rw [TSet.interConvex, this]
    refine ⟨_, TSet.inter_eq ha Canon_nil, fun t ht => ?_⟩
    obtain ⟨_, h⟩ := InterIter.meets_new ha Canon_nil
    rw [h.pts]
    simp [InSet_nil, e5 t ht]
  · have : (Convex.iv w.into).iter = [⟨w.lower, w.upper⟩] := by rw [e3]; exact TSet.iter_wf e2
    have hc : Canon [⟨w.lower, w.upper⟩] := Canon_cons.2 ⟨e2, by simp, Canon_nil⟩
    rw [TSet.interConvex, this]
    refine ⟨_, TSet.inter_eq ha hc, fun t ht => ?_⟩
    obtain ⟨_, h⟩ := InterIter.meets_new ha hc
    rw [h.pts, e4 t ht, InSet_singleton]; rfl

example : Canon [⟨0, 8⟩, ⟨10, 14⟩] ∧ Canon [⟨5, 6⟩, ⟨8, 20⟩] ∧
    TSet.inter [⟨0, 8⟩, ⟨10, 14⟩] [⟨5, 6⟩, ⟨8, 20⟩] = .ok [⟨5, 6⟩, ⟨8, 8⟩, ⟨10, 14⟩] := by
  refine ⟨by decide, by decide, ?_⟩
  rw [TSet.inter_eq (by decide) (by decide)]
  simp (config := {decide := true}) [InterIter.new, InterIter.drain_eq, InterIter.step]

/-- C33, partial: the intersection is always sorted with gaps; it is canonical, and empty iff there is
no common date, when no interval of the one starts right after the end of an interval of the other.
Missing: that last case, where a spurious interval without any date is produced. -/
theorem C33_inter_canonical_partial (a b : TSet) (ha : Canon a) (hb : Canon b) :
    ∃ r, TSet.inter a b = .ok r ∧ r = (InterIter.new a b).drain ∧
      r.Pairwise (fun x y => x.upper + 1 < y.lower) ∧
      (NoTouch a b → Canon r ∧ (TSet.isEmpty r = true ↔ ¬ ∃ t, Date t ∧ InSet t a ∧ InSet t b)) := by
  obtain ⟨_, h⟩ := InterIter.meets_new ha hb
  refine ⟨_, TSet.inter_eq ha hb, rfl, h.gap, fun hn => ?_⟩
  have hc : Canon (InterIter.new a b).drain := by
    refine ⟨fun y hy => ?_, h.gap⟩
    obtain ⟨x, hx, z, hz, e, h1, h2⟩ := h.meets y hy
    obtain ⟨g1, g2, g3, g4, g5⟩ := ha.wf x hx
    obtain ⟨k1, k2, k3, k4, k5⟩ := hb.wf z hz
    have := hn x hx z hz
    subst e
    constructor <;> simp only [InterIter.meet] <;> omega
  refine ⟨hc, ?_⟩
  constructor
  · rintro he ⟨t, _, ht⟩
    have := (h.pts t).2 ht
    simp only [TSet.isEmpty, List.isEmpty_iff] at he
    rw [he] at this
    exact InSet_nil this
  · intro hno
    simp only [TSet.isEmpty, List.isEmpty_iff]
    cases hd : (InterIter.new a b).drain with
    | nil => rfl
    | cons x xs =>
      exfalso
      rw [hd] at hc
      obtain ⟨t, ht, hin⟩ := (Canon_cons.1 hc).1.exists_date
      exact hno ⟨t, ht, (h.pts t).1 (by rw [hd]; exact InSet_cons.2 (Or.inl hin))⟩

example : Canon [⟨0, 3⟩, ⟨10, 14⟩] ∧ Canon [⟨5, 8⟩] ∧ NoTouch [⟨0, 3⟩, ⟨10, 14⟩] [⟨5, 8⟩] := by decide

/-- C33 decided outright: the intervals of `a & b` are exactly the common parts of the pairs of intervals which overlap or
touch, so the intersection is canonical iff no interval of the one starts right after the end of an interval of the other,
and it is reported empty iff there is moreover no common date. -/
theorem C33_inter_exact (a b : TSet) (ha : Canon a) (hb : Canon b) :
    ∃ r, TSet.inter a b = .ok r ∧ r = (InterIter.new a b).drain ∧
      (∀ y, y ∈ r ↔ ∃ x ∈ a, ∃ z ∈ b, z.lower ≤ x.upper + 1 ∧ x.lower ≤ z.upper + 1 ∧
        y = ⟨max x.lower z.lower, min x.upper z.upper⟩) ∧
      (Canon r ↔ NoTouch a b) ∧
      (TSet.isEmpty r = true ↔ NoTouch a b ∧ ¬ ∃ t, Date t ∧ InSet t a ∧ InSet t b) := by
  obtain ⟨_, h⟩ := InterIter.meets_new ha hb
  obtain ⟨r, e1, e2, -, h4⟩ := C33_inter_canonical_partial a b ha hb
  subst e2
  have touch : ¬ NoTouch a b → ∃ y ∈ (InterIter.new a b).drain, y.upper < y.lower := by
    intro hn
    simp only [NoTouch] at hn
    obtain ⟨x, hn⟩ := Classical.not_forall.1 hn
    obtain ⟨hx, hn⟩ := Classical.not_forall.1 hn
    obtain ⟨z, hn⟩ := Classical.not_forall.1 hn
    obtain ⟨hz, hn⟩ := Classical.not_forall.1 hn
    have := (ha.wf x hx).le
    have := (hb.wf z hz).le
    refine ⟨_, h.full x hx z hz (by omega) (by omega), ?_⟩
    simp only [InterIter.meet]; omega
  refine ⟨_, e1, rfl, fun y => ?_, ?_, ?_⟩
  · constructor
    · intro hy
      obtain ⟨x, hx, z, hz, e, g1, g2⟩ := h.meets y hy
      exact ⟨x, hx, z, hz, by omega, by omega, e⟩
    · rintro ⟨x, hx, z, hz, g1, g2, rfl⟩
      exact h.full x hx z hz (by omega) (by omega)
  · refine ⟨fun hc => Classical.byContradiction fun hn => ?_, fun hn => (h4 hn).1⟩
    obtain ⟨y, hy, hlt⟩ := touch hn
    have := (hc.wf y hy).le
    omega
  · constructor
    · intro he
      have hn : NoTouch a b := Classical.byContradiction fun hn => by
        obtain ⟨y, hy, -⟩ := touch hn
        simp only [TSet.isEmpty, List.isEmpty_iff] at he
        rw [he] at hy
        simp at hy
      exact ⟨hn, (h4 hn).2.1 he⟩
    · rintro ⟨hn, hd⟩
      exact (h4 hn).2.2 hd

example : Canon [⟨0, 3⟩, ⟨10, 14⟩] ∧ Canon [⟨4, 11⟩] ∧ ¬ NoTouch [⟨0, 3⟩, ⟨10, 14⟩] [⟨4, 11⟩] := by decide

/-- C33 is violated: `[0,4] & [5,9]` is not empty, it holds the ill-formed interval `{5,4}`. -/
theorem C33_inter_violated :
    Canon [⟨0, 4⟩] ∧ Canon [⟨5, 9⟩] ∧ TSet.inter [⟨0, 4⟩] [⟨5, 9⟩] = .ok [⟨5, 4⟩] ∧
    TSet.isEmpty [⟨5, 4⟩] = false ∧ ¬ Canon [⟨5, 4⟩] ∧
    ¬ ∃ t, InSet t [⟨0, 4⟩] ∧ InSet t [⟨5, 9⟩] := by
  refine ⟨by decide, by decide, ?_, by decide, by decide, ?_⟩
  · rw [TSet.inter_eq (by decide) (by decide)]
    simp (config := {decide := true}) [InterIter.new, InterIter.drain_eq, InterIter.step]
  · simp only [InSet_singleton, InIv]; omega

/-- C33 is violated in general: whenever two one-interval sets touch, their intersection is reported
non-empty. -/
theorem C33_inter_touch_violated (i j : Iv) (hi : WF i) (hj : WF j) (h : i.upper + 1 = j.lower) :
    TSet.inter [i] [j] = .ok [⟨j.lower, i.upper⟩] ∧ TSet.isEmpty [⟨j.lower, i.upper⟩] = false ∧
    ¬ ∃ t, InSet t [i] ∧ InSet t [j] := by
  have ci : Canon [i] := Canon_cons.2 ⟨hi, by simp, Canon_nil⟩
  have cj : Canon [j] := Canon_cons.2 ⟨hj, by simp, Canon_nil⟩
  have h1 := hi.le
  have h2 := hj.le
  refine ⟨?_, rfl, ?_⟩
  · rw [TSet.inter_eq ci cj, InterIter.new, InterIter.drain_init_waitI _ _ _ hi.loose hj.loose,
      InterIter.drain_waitI_cons _ _ hi.loose hj.loose, if_neg (by omega), if_neg (by omega), if_pos (by omega),
      InterIter.drain_waitI_nil]
    simp only [InterIter.meet]
    congr 3 <;> omega
  · simp only [InSet_singleton, InIv]; omega

/-! ## C34 equality -/

theorem eqWin_iv {i j : Iv} : i.eqWin (.conv (.iv j)) = true ↔ i = j := by
  cases i; cases j
  simp [Iv.eqWin, Window.isConvex, Window.lower, Window.upper, Convex.lower, Convex.upper]

theorem eqWin_go {a b : List Iv} : TSet.eqWin.go a b = true ↔ a = b := by
  induction a generalizing b with
  | nil => cases b <;> simp [TSet.eqWin.go]
  | cons x xs ih => cases b <;> simp [TSet.eqWin.go, eqWin_iv, ih]

/-- C34. Canonical sets are `==` iff they contain the same points; it is enough that they contain the
same dates away from the extreme ticks. -/
theorem C34_set_eq (a b : TSet) (ha : Canon a) (hb : Canon b) :
    (TSet.eqWin a (.set b) = true ↔ ∀ t, InSet t a ↔ InSet t b) ∧
    (NoExtreme a → NoExtreme b →
      (TSet.eqWin a (.set b) = true ↔ ∀ t, Date t → (InSet t a ↔ InSet t b))) := by
  have e : TSet.eqWin a (.set b) = true ↔ a = b := eqWin_go
  rw [e]
  refine ⟨⟨fun h => by simp [h], canon_ext ha hb⟩, fun h1 h2 => ⟨fun h => by simp [h],
    canon_ext_dates ha hb h1 h2⟩⟩

/-- C34. An interval and a set, either way round, are `==` iff they contain the same points. -/
theorem C34_iv_set_eq (i : Iv) (s : TSet) (hi : WF i) (hs : Canon s) :
    (i.eqWin (.set s) = true ↔ ∀ t, InIv t i ↔ InSet t s) ∧
    (TSet.eqWin s (.conv (.iv i)) = true ↔ ∀ t, InIv t i ↔ InSet t s) := by
  have key : (∀ t, InIv t i ↔ InSet t s) ↔ s = [i] := by
    constructor
    · intro h
      exact canon_ext hs (Canon_cons.2 ⟨hi, by simp, Canon_nil⟩)
        (fun t => by rw [← h t, InSet_singleton])
    · rintro rfl t; rw [InSet_singleton]
  have hle := hi.le
  rw [key]
  constructor
  · simp only [Iv.eqWin, Window.isConvex, TSet.isConvex, TSet.convexCount, Window.lower, Window.upper,
      Bool.and_eq_true, decide_eq_true_eq, beq_iff_eq]
    match s, hs with
    | [], _ =>
      have := hi.lo_lt
      simp [TSet.lowerBound]; omega
    | [x], _ =>
      cases i; cases x
      simp [TSet.lowerBound, TSet.upperBound]
      omega
    | x :: y :: r, _ => simp
  · show TSet.eqWin.go s (Convex.iv i).iter = true ↔ _
    rw [eqWin_go, TSet.iter_wf hi]

example : Canon [⟨0, 3⟩, ⟨10, INF⟩] ∧ NoExtreme [⟨0, 3⟩, ⟨10, INF⟩] ∧ WF ⟨10, INF⟩ ∧
    Iv.eqWin ⟨10, INF⟩ (.set [⟨10, INF⟩]) = true := by decide

/-! ## C38 collecting -/

/-- C38, partial: collecting well-formed intervals gives the canonical set of their dates, provided no
interval ends before an earlier one starts (in particular when they come sorted by lower bound, or by
upper bound). Missing: the other orders, and empty intervals. -/
theorem C38_collect_partial (l : List Iv) (hwf : ∀ i ∈ l, WF i)
    (ho : l.Pairwise (fun a b => a.lower ≤ b.upper)) :
    ∃ r, TSet.fromIter l = .ok r ∧ Canon r ∧ ∀ t, InSet t r ↔ InSet t l :=
  TSet.fromIter_collect hwf ho

example : (∀ i ∈ ([⟨5, 9⟩, ⟨3, 6⟩, ⟨20, 30⟩, ⟨8, 25⟩] : List Iv), WF i) ∧
    ([⟨5, 9⟩, ⟨3, 6⟩, ⟨20, 30⟩, ⟨8, 25⟩] : List Iv).Pairwise (fun a b => a.lower ≤ b.upper) := by decide

/-- C38, partial, for `collect` over a sequence of sets: no date is lost if each set is empty or ends after the
previous ones. Missing: the other cases, see `C38_collect_sets_violated`. -/
theorem C38_collect_sets_partial (l : List TSet) (hl : ∀ s ∈ l, Canon s)
    (ho : l.Pairwise (fun a b => b = [] ∨ ∀ x ∈ a, ∃ y ∈ b, x.upper < y.upper)) :
    ∃ r, TSet.fromSets l = .ok r ∧ Canon r ∧ ∀ t, InSet t r ↔ ∃ s ∈ l, InSet t s := by
  cases l with
  | nil => exact ⟨[], rfl, Canon_nil, fun t => ⟨fun h => absurd h InSet_nil, fun ⟨_, h, _⟩ => by cases h⟩⟩
  | cons s ss =>
    have key : ∀ (ss : List TSet) (s : TSet), Canon s → (∀ x ∈ ss, Canon x) →
        (s :: ss).Pairwise (fun a b => b = [] ∨ ∀ x ∈ a, ∃ y ∈ b, x.upper < y.upper) →
        ∃ r, ss.foldlM TSet.union s = .ok r ∧ Canon r ∧
          ∀ t, InSet t r ↔ InSet t s ∨ ∃ x ∈ ss, InSet t x := by
      intro ss
      induction ss with
      | nil => intro s hs _ _; exact ⟨s, rfl, hs, fun t => by simp⟩
      | cons x xs ih =>
        intro s hs hx hp
        rw [List.pairwise_cons, List.pairwise_cons] at hp
        obtain ⟨p1, p2, p3⟩ := hp
        obtain ⟨c, p⟩ := UnionIter.good_new hs (hx x (by simp))
        have hcomp := UnionIter.complete_new hs (hx x (by simp)) (by
          rcases p1 x (by simp) with h | h
          · exact Or.inl h
          · exact Or.inr fun z hz => h z ((List.dropLast_sublist s).subset hz))
        obtain ⟨r, e, c', p'⟩ := ih _ c (fun y hy => hx y (by simp [hy])) (by
          rw [List.pairwise_cons]
          refine ⟨fun y hy => ?_, p3⟩
          by_cases hy0 : y = []
          · exact Or.inl hy0
          right
          intro z hz
          have hzw := c.wf z hz
          obtain hm | hm := p z.upper ⟨z, hz, hzw.le, Int.le_refl _⟩
          · obtain ⟨i, hi, h1, h2⟩ := hm
            rcases p1 y (by simp [hy]) with h | h
            · exact absurd h hy0
            · obtain ⟨y', hy', h'⟩ := h i hi
              exact ⟨y', hy', by omega⟩
          · obtain ⟨i, hi, h1, h2⟩ := hm
            rcases p2 y hy with h | h
            · exact absurd h hy0
            · obtain ⟨y', hy', h'⟩ := h i hi
              exact ⟨y', hy', by omega⟩)
        refine ⟨r, ?_, c', fun t => ?_⟩
        · rw [List.foldlM_cons, TSet.union_eq hs (hx x (by simp)), ok_bind]; exact e
        · rw [p' t]
          constructor
          · rintro (h | ⟨y, hy, h⟩)
            · rcases p t h with h | h
              · exact Or.inl h
              · exact Or.inr ⟨x, by simp, h⟩
            · exact Or.inr ⟨y, by simp [hy], h⟩
          · rintro (h | ⟨y, hy, h⟩)
            · exact Or.inl (hcomp t (Or.inl h))
            · rcases List.mem_cons.1 hy with rfl | hy
              · exact Or.inl (hcomp t (Or.inr h))
              · exact Or.inr ⟨y, hy, h⟩
    obtain ⟨r, e, c, p⟩ := key ss s (hl s (by simp)) (fun y hy => hl y (by simp [hy])) ho
    exact ⟨r, e, c, fun t => by rw [p t]; simp⟩

example : (∀ s ∈ ([[⟨0, 1⟩, ⟨10, 11⟩], [⟨5, 6⟩, ⟨12, 20⟩], [], [⟨-4, 30⟩]] : List TSet), Canon s) ∧
    ([[⟨0, 1⟩, ⟨10, 11⟩], [⟨5, 6⟩, ⟨12, 20⟩], [], [⟨-4, 30⟩]] : List TSet).Pairwise
      (fun a b => b = [] ∨ ∀ x ∈ a, ∃ y ∈ b, x.upper < y.upper) := by decide

/-! ## C46, C47, C48 lazy iterators -/

/-- C46. The complement iterator yields exactly the intervals of `!s`. -/
theorem C46_compl_iter (s : TSet) (hs : Canon s) : (ComplIter.new s).drain = TSet.compl s :=
  ComplIter.drain_new hs

example : Canon [⟨-INF, 3⟩, ⟨7, 9⟩] ∧ TSet.compl [⟨-INF, 3⟩, ⟨7, 9⟩] = [⟨4, 6⟩, ⟨10, INF⟩] := by decide

/-- C47. `a.exclusion(b)` contains a date iff `a` does and `b` does not. -/
theorem C47_exclusion (a b : TSet) (ha : Canon a) (hb : Canon b) (t : Int) (ht : Date t) :
    InSet t (TSet.exclusion a b).drain ↔ InSet t a ∧ ¬ InSet t b := by
  rw [TSet.exclusion, ComplIter.drain_new hb]
  obtain ⟨_, h⟩ := InterIter.meets_new ha (compl_spec hb).1
  rw [h.pts, (compl_spec hb).2.2 t ht]

example : Canon [⟨0, 9⟩] ∧ Canon [⟨3, 4⟩] ∧ InSet 2 [⟨0, 9⟩] ∧ ¬ InSet 2 [⟨3, 4⟩] ∧ Date 2 := by decide

/-- C48. Collecting a lazy union, a lazy intersection, or the chain `i.union(j).intersection(k)` gives
what the operators give, and the union chained first is the set itself. -/
theorem C48_chain (i j k : TSet) (hi : Canon i) (hj : Canon j) (hk : Canon k) :
    TSet.fromIter (UnionIter.new i j).drain = TSet.union i j ∧
    TSet.fromIter (InterIter.new i j).drain = TSet.inter i j ∧
    TSet.fromIter (InterIter.new (UnionIter.new i j).drain k).drain =
      (do let u ← TSet.union i j; TSet.inter u k) ∧
    ∃ r, TSet.fromIter (InterIter.new (UnionIter.new i j).drain k).drain = .ok r ∧
      r = (InterIter.new (UnionIter.new i j).drain k).drain := by
  have hu := (UnionIter.good_new hi hj).1
  refine ⟨rfl, rfl, ?_, ?_⟩
  · rw [TSet.union_eq hi hj]; rfl
  · exact ⟨_, TSet.inter_eq hu hk, rfl⟩

example : Canon [⟨0, 4⟩] ∧ Canon [⟨7, 9⟩] ∧ Canon [⟨3, 8⟩] := by decide

end Chrono
