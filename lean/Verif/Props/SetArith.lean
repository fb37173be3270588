import Verif.Lemmas.SetArith

set_option linter.unusedSimpArgs false

/-!
# Properties of time sets: negation, translation, scaling (C39-C45, C83, C85), and what remains true of
collecting in any order (C38)
-/

namespace Chrono
open Spec

/-! ## C38 collecting, soundness -/

/-- C38. Collecting well-formed intervals in any order never panics, gives a canonical set, and adds no
point. (It may lose some: `C38_collect_violated`.) -/
theorem C38_collect_sound_partial (l : List Iv) (h : ∀ i ∈ l, WF i) :
    ∃ r, TSet.fromIter l = .ok r ∧ Canon r ∧ ∀ t, InSet t r → InSet t l := TSet.fromIter_sound h

example : ∀ i ∈ ([⟨10, 12⟩, ⟨0, 3⟩, ⟨5, 11⟩] : List Iv), WF i := by decide

/-! ## C39 negation -/

/-- C39. `-s` contains `t` iff `s` contains `-t`; it is canonical; `-(-s) = s`. -/
theorem C39_neg (s : TSet) (hs : Canon s) :
    Canon (TSet.neg s) ∧ (∀ t, InSet t (TSet.neg s) ↔ InSet (-t) s) ∧ TSet.neg (TSet.neg s) = s := by
  refine ⟨canon_neg hs, fun t => ?_, neg_neg s⟩
  constructor
  · rintro ⟨i, hi, h⟩
    obtain ⟨j, hj, rfl⟩ := mem_neg.1 hi
    exact ⟨j, hj, by simp only [InIv, Iv.neg] at *; omega⟩
  · rintro ⟨j, hj, h⟩
    exact ⟨j.neg, mem_neg.2 ⟨j, hj, rfl⟩, by simp only [InIv, Iv.neg] at *; omega⟩

example : Canon [⟨-INF, 3⟩, ⟨7, 9⟩] ∧ TSet.neg [⟨-INF, 3⟩, ⟨7, 9⟩] = [⟨-9, -7⟩, ⟨-3, INF⟩] := by decide

/-! ## C40 set and duration -/

theorem addTv_map (dbg : Bool) {s : TSet} {d : Int} (hs : Canon s) (hd : Date d)
    (hf : ∀ i ∈ s, FitsSum i ⟨d, d⟩) : TSet.addTv dbg s d = .ok (s.map (fun i => sumIv i ⟨d, d⟩)) :=
  mapM_ok (fun i hi => (addSpan_sum dbg (hs.wf i hi) (wf_point hd) (hf i hi)).1)

/-- C40. Without overflow, `s + d` never panics, is canonical, contains `t` iff `s` contains `t - d`, and
`(s + d) - d = s`. -/
theorem C40_add (dbg : Bool) (s : TSet) (d : Int) (hs : Canon s) (hd : Date d)
    (hf : ∀ i ∈ s, FitsSum i ⟨d, d⟩) :
    ∃ r, TSet.addTv dbg s d = .ok r ∧ Canon r ∧ (∀ t, InExtSet t r ↔ InExtSet (t - d) s) ∧
      TSet.subTv dbg r d = .ok s := by
  refine ⟨_, addTv_map dbg hs hd hf, canon_shift hs hd hf, fun t => ?_, ?_⟩
  · rw [InExtSet_map]
    constructor
    · rintro ⟨i, hi, h⟩; exact ⟨i, hi, (inExt_shift (hs.wf i hi) hd (hf i hi)).1 h⟩
    · rintro ⟨i, hi, h⟩; exact ⟨i, hi, (inExt_shift (hs.wf i hi) hd (hf i hi)).2 h⟩
  · have hd' : Date (-d) := by ticks
    have e : TSet.subTv dbg (s.map (fun i => sumIv i ⟨d, d⟩)) d =
        TSet.addTv dbg (s.map (fun i => sumIv i ⟨d, d⟩)) (-d) := rfl
    rw [e, addTv_map dbg (canon_shift hs hd hf) hd']
    · congr 1
      rw [List.map_map]
      have : s = s.map id := by simp
      conv => rhs; rw [this]
      apply List.map_congr_left
      intro i hi
      exact (shift_back (hs.wf i hi) hd (hf i hi)).1
    · intro i hi
      obtain ⟨j, hj, rfl⟩ := List.mem_map.1 hi
      exact (shift_back (hs.wf j hj) hd (hf j hj)).2

/-- C40. `s - d` is `s + (-d)`: it contains `t` iff `s` contains `t + d`, and `(s - d) + d = s`. -/
theorem C40_sub (dbg : Bool) (s : TSet) (d : Int) (hs : Canon s) (hd : Date d)
    (hf : ∀ i ∈ s, FitsDiff i ⟨d, d⟩) :
    ∃ r, TSet.subTv dbg s d = .ok r ∧ Canon r ∧ (∀ t, InExtSet t r ↔ InExtSet (t + d) s) ∧
      TSet.addTv dbg r d = .ok s := by
  have hd' : Date (-d) := by ticks
  have hf' : ∀ i ∈ s, FitsSum i ⟨-d, -d⟩ := fun i hi => fitsDiff (hf i hi)
  obtain ⟨r, h1, h2, h3, h4⟩ := C40_add dbg s (-d) hs hd' hf'
  refine ⟨r, h1, h2, fun t => by rw [h3, Int.sub_neg], ?_⟩
  have e : TSet.subTv dbg r (-d) = TSet.addTv dbg r (- -d) := rfl
  rw [e, Int.neg_neg] at h4
  exact h4

/-- C40. A set of durations and a timestamp: `s + t0` (and `t0 + s`), `s - t0`, `t0 - s`, without overflow,
never panic and are the canonical sets of the sums and differences. -/
theorem C40_timestamp (dbg : Bool) (s : TSet) (t0 : Int) (hs : Canon s) (h0 : Date t0) :
    ((∀ i ∈ s, FitsSum i ⟨t0, t0⟩) →
      ∃ r, TSet.addTs dbg s t0 = .ok r ∧ Canon r ∧ ∀ t, InExtSet t r ↔ InExtSet (t - t0) s) ∧
    ((∀ i ∈ s, FitsDiff i ⟨t0, t0⟩) →
      ∃ r, TSet.subTs dbg s t0 = .ok r ∧ Canon r ∧ ∀ t, InExtSet t r ↔ InExtSet (t + t0) s) ∧
    ((∀ i ∈ s, FitsDiff ⟨t0, t0⟩ i) →
      ∃ r, TSet.tsSub dbg t0 s = .ok r ∧ Canon r ∧ ∀ t, InExtSet t r ↔ InExtSet (t0 - t) s) := by
  have add : ∀ (s : TSet) (t0 : Int), Canon s → Date t0 → (∀ i ∈ s, FitsSum i ⟨t0, t0⟩) →
      ∃ r, TSet.addTs dbg s t0 = .ok r ∧ Canon r ∧ ∀ t, InExtSet t r ↔ InExtSet (t - t0) s := by
    intro s t0 hs h0 hf
    obtain ⟨r, h1, h2, h3, -⟩ := C40_add dbg s t0 hs h0 hf
    refine ⟨r, ?_, h2, h3⟩
    rw [addTv_map dbg hs h0 hf] at h1
    rw [← h1]
    refine mapM_ok (fun i hi => ?_)
    have hf' : FitsSum ⟨t0, t0⟩ i := by
      obtain ⟨f1, f2⟩ := hf i hi
      constructor
      · intro a b; simp only at *; rw [Int.add_comm]; exact f1 b a
      · intro a b; simp only at *; rw [Int.add_comm]; exact f2 b a
    rw [sumIv_comm]
    exact (addSpan_sum dbg (wf_point h0) (hs.wf i hi) hf').1
  refine ⟨add s t0 hs h0, fun hf => ?_, fun hf => ?_⟩
  · obtain ⟨r, h1, h2, h3⟩ := add s (-t0) hs (by ticks) (fun i hi => fitsDiff (hf i hi))
    exact ⟨r, h1, h2, fun t => by rw [h3, Int.sub_neg]⟩
  · have hfn : ∀ i ∈ TSet.neg s, FitsSum i ⟨t0, t0⟩ := by
      intro i hi
      obtain ⟨j, hj, rfl⟩ := mem_neg.1 hi
      obtain ⟨f1, f2⟩ := hf j hj
      constructor
      · simp only [Iv.neg] at *
        intro a b
        have := f1 b (by ticks)
        ticks
      · simp only [Iv.neg] at *
        intro a b
        have := f2 b (by ticks)
        ticks
    obtain ⟨r, h1, h2, h3⟩ := add (TSet.neg s) t0 (canon_neg hs) h0 hfn
    refine ⟨r, ?_, h2, fun t => ?_⟩
    · rw [← h1]
      simp only [TSet.tsSub, TSet.addTs, TSet.neg]
      have : ∀ l : List Iv, l.mapM (fun i => Iv.tsSubSpan dbg t0 i) =
          (l.map Iv.neg).mapM (fun tw => Iv.tsAddSpan dbg t0 tw) := by
        intro l
        induction l with
        | nil => rfl
        | cons x xs ih => rw [List.mapM_cons, List.map_cons, List.mapM_cons, ih]; rfl
      exact this _
    · rw [h3]
      constructor
      · rintro ⟨i, hi, h⟩
        obtain ⟨j, hj, rfl⟩ := mem_neg.1 hi
        rw [inExt_neg] at h
        exact ⟨j, hj, by rwa [show t0 - t = -(t - t0) by omega]⟩
      · rintro ⟨j, hj, h⟩
        refine ⟨j.neg, mem_neg.2 ⟨j, hj, rfl⟩, ?_⟩
        rw [inExt_neg]
        rwa [show t0 - t = -(t - t0) by omega] at h

example : Canon [⟨-INF, 3⟩, ⟨7, 9⟩] ∧ Date 10 ∧ (∀ i ∈ ([⟨-INF, 3⟩, ⟨7, 9⟩] : TSet), FitsSum i ⟨10, 10⟩) ∧
    (∀ i ∈ ([⟨-INF, 3⟩, ⟨7, 9⟩] : TSet), FitsDiff i ⟨10, 10⟩ ∧ FitsDiff ⟨10, 10⟩ i) ∧
    TSet.addTv true [⟨-INF, 3⟩, ⟨7, 9⟩] 10 = .ok [⟨-INF, 13⟩, ⟨17, 19⟩] ∧
    TSet.tsSub true 10 [⟨-INF, 3⟩, ⟨7, 9⟩] = .ok [⟨1, 3⟩, ⟨7, INF⟩] := by decide

/-! ## C41 set and span -/

theorem inExtSet_congr {r l : List Iv} (hr : Canon r) (hl : ∀ i ∈ l, WF i)
    (h : ∀ t, InSet t r ↔ InSet t l) (t : Int) : InExtSet t r ↔ InExtSet t l := by
  rw [inExtSet_iff hr.wf, inExtSet_iff hl, h]

theorem addSpan_collect (dbg : Bool) {s : TSet} {sp : Iv} (hs : Canon s) (hsp : WF sp)
    (hf : ∀ i ∈ s, FitsSum i sp) :
    ∃ r, TSet.addSpan dbg s sp = .ok r ∧ Canon r ∧
      ∀ t, InExtSet t r ↔ ∃ a b, InExtSet a s ∧ InExt b sp ∧ t = a + b := by
  have hwf : ∀ y ∈ s.map (fun i => sumIv i sp), WF y := by
    intro y hy
    obtain ⟨i, hi, rfl⟩ := List.mem_map.1 hy
    exact (addSpan_sum dbg (hs.wf i hi) hsp (hf i hi)).2.1
  have hpw : (s.map (fun i => sumIv i sp)).Pairwise (fun a b => a.lower ≤ b.upper) := by
    rw [List.pairwise_map]
    have : s.Pairwise (fun a b => (a.upper + 1 < b.lower ∧ WF a ∧ WF b) ∧ FitsSum a sp ∧ FitsSum b sp) := by
      refine List.Pairwise.imp_of_mem ?_ (canon_pair hs)
      intro a b ha hb h
      exact ⟨h, hf a ha, hf b hb⟩
    refine this.imp ?_
    rintro a b ⟨⟨h1, ha, hb⟩, fa, fb⟩
    have wa := (addSpan_sum dbg ha hsp fa).2.1
    have wb := (addSpan_sum dbg hb hsp fb).2.1
    obtain ⟨a1, a2, a3, a4, a5⟩ := ha
    obtain ⟨b1, b2, b3, b4, b5⟩ := hb
    obtain ⟨s1, s2, s3, s4, s5⟩ := hsp
    have := wb.lt_hi
    have := wa.lo_lt
    simp only [sumIv] at *
    repeat' split
    all_goals ticks
  have e : TSet.addSpan dbg s sp = (s.map (fun i => sumIv i sp)).foldlM
      (fun r i => TSet.unionConvex r (.iv i)) [] :=
    foldlM_map_ok (F := fun r i => TSet.unionConvex r (.iv i)) (h := fun i => sumIv i sp)
      (fun i hi => (addSpan_sum dbg (hs.wf i hi) hsp (hf i hi)).1) []
  obtain ⟨r, h1, h2, h3⟩ := TSet.foldlM_collect (fun r i => TSet.unionConvex r (.iv i))
    (fun r i hr hi h => TSet.unionConvex_step hr hi h) (s.map (fun i => sumIv i sp)) [] []
    Canon_nil (fun t => Iff.rfl) (by simp) hpw hwf
  refine ⟨r, by rw [e, h1], h2, fun t => ?_⟩
  rw [inExtSet_congr h2 hwf (fun t => by rw [h3]; simp [InSet_nil]), InExtSet_map]
  constructor
  · rintro ⟨i, hi, h⟩
    obtain ⟨a, b, ha, hb, e⟩ := ((addSpan_sum dbg (hs.wf i hi) hsp (hf i hi)).2.2 t).1 h
    exact ⟨a, b, ⟨i, hi, ha⟩, hb, e⟩
  · rintro ⟨a, b, ⟨i, hi, ha⟩, hb, e⟩
    exact ⟨i, hi, ((addSpan_sum dbg (hs.wf i hi) hsp (hf i hi)).2.2 t).2 ⟨a, b, ha, hb, e⟩⟩

/-- C41. Without overflow, `s + span` (and `+=`, and `s.translation(&span)`, the same code) never panics,
is canonical, and contains `t` iff `t = a + b` with `a` in `s` and `b` in `span`. -/
theorem C41_add_span (dbg : Bool) (s : TSet) (sp : Iv) (hs : Canon s) (hsp : WF sp)
    (hf : ∀ i ∈ s, FitsSum i sp) :
    ∃ r, TSet.addSpan dbg s sp = .ok r ∧ Canon r ∧
      ∀ t, InExtSet t r ↔ ∃ a b, InExtSet a s ∧ InExt b sp ∧ t = a + b :=
  addSpan_collect dbg hs hsp hf

/-- C41. `s - span` likewise, with differences. -/
theorem C41_sub_span (dbg : Bool) (s : TSet) (sp : Iv) (hs : Canon s) (hsp : WF sp)
    (hf : ∀ i ∈ s, FitsDiff i sp) :
    ∃ r, TSet.subSpan dbg s sp = .ok r ∧ Canon r ∧
      ∀ t, InExtSet t r ↔ ∃ a b, InExtSet a s ∧ InExt b sp ∧ t = a - b := by
  obtain ⟨r, h1, h2, h3⟩ := addSpan_collect dbg hs hsp.neg (fun i hi => fitsDiff (hf i hi))
  refine ⟨r, h1, h2, fun t => ?_⟩
  rw [h3]
  constructor
  · rintro ⟨a, b, ha, hb, e⟩
    exact ⟨a, -b, ha, inExt_neg.1 hb, by omega⟩
  · rintro ⟨a, b, ha, hb, e⟩
    exact ⟨a, -b, ha, by rw [inExt_neg, Int.neg_neg]; exact hb, by omega⟩

example : Canon [⟨0, 1⟩, ⟨5, 6⟩] ∧ WF ⟨0, 3⟩ ∧ (∀ i ∈ ([⟨0, 1⟩, ⟨5, 6⟩] : TSet), FitsSum i ⟨0, 3⟩) ∧
    (∀ i ∈ ([⟨0, 1⟩, ⟨5, 6⟩] : TSet), FitsDiff i ⟨0, 3⟩) := by decide

/-! ## C42 set and set of spans -/

theorem pairs_collect (dbg : Bool) {s sp : TSet} (hs : Canon s) (hsp : Canon sp)
    (hf : ∀ i ∈ s, ∀ j ∈ sp, FitsSum i j) :
    TSet.addSpans dbg s sp = TSet.fromIter ((TSet.pairs s sp).map (fun p => sumIv p.1 p.2)) ∧
    (∀ y ∈ (TSet.pairs s sp).map (fun p => sumIv p.1 p.2), WF y) ∧
    ∀ t, InExtSet t ((TSet.pairs s sp).map (fun p => sumIv p.1 p.2)) ↔
      ∃ a b, InExtSet a s ∧ InExtSet b sp ∧ t = a + b := by
  have mem : ∀ p : Iv × Iv, p ∈ TSet.pairs s sp ↔ p.1 ∈ s ∧ p.2 ∈ sp := by
    rintro ⟨i, j⟩
    simp only [TSet.pairs, List.mem_flatMap, List.mem_map, Prod.mk.injEq]
    constructor
    · rintro ⟨i', hi, j', hj, rfl, rfl⟩; exact ⟨hi, hj⟩
    · rintro ⟨hi, hj⟩; exact ⟨i, hi, j, hj, rfl, rfl⟩
  have sum : ∀ p ∈ TSet.pairs s sp, p.1.addSpan dbg p.2 = .ok (sumIv p.1 p.2) ∧ WF (sumIv p.1 p.2) ∧
      ∀ t, InExt t (sumIv p.1 p.2) ↔ ∃ a b, InExt a p.1 ∧ InExt b p.2 ∧ t = a + b := by
    intro p hp
    obtain ⟨h1, h2⟩ := (mem p).1 hp
    exact addSpan_sum dbg (hs.wf _ h1) (hsp.wf _ h2) (hf _ h1 _ h2)
  refine ⟨?_, ?_, ?_⟩
  · rw [TSet.addSpans, mapM_ok (fun p hp => (sum p hp).1)]; rfl
  · intro y hy
    obtain ⟨p, hp, rfl⟩ := List.mem_map.1 hy
    exact (sum p hp).2.1
  · intro t
    constructor
    · rintro ⟨y, hy, h⟩
      obtain ⟨p, hp, rfl⟩ := List.mem_map.1 hy
      obtain ⟨a, b, h1, h2, e⟩ := ((sum p hp).2.2 t).1 h
      exact ⟨a, b, ⟨p.1, ((mem p).1 hp).1, h1⟩, ⟨p.2, ((mem p).1 hp).2, h2⟩, e⟩
    · rintro ⟨a, b, ⟨i, hi, h1⟩, ⟨j, hj, h2⟩, e⟩
      have hp := (mem (i, j)).2 ⟨hi, hj⟩
      exact ⟨_, List.mem_map.2 ⟨(i, j), hp, rfl⟩, ((sum _ hp).2.2 t).2 ⟨a, b, h1, h2, e⟩⟩

/-- C42, partial (1): without overflow, `s + spans` never panics, is canonical, and contains only sums of a
point of `s` and a point of `spans`. -/
theorem C42_add_spans_sound_partial (dbg : Bool) (s sp : TSet) (hs : Canon s) (hsp : Canon sp)
    (hf : ∀ i ∈ s, ∀ j ∈ sp, FitsSum i j) :
    ∃ r, TSet.addSpans dbg s sp = .ok r ∧ Canon r ∧
      ∀ t, InExtSet t r → ∃ a b, InExtSet a s ∧ InExtSet b sp ∧ t = a + b := by
  obtain ⟨e, hw, hp⟩ := pairs_collect dbg hs hsp hf
  obtain ⟨r, h1, h2, h3⟩ := TSet.fromIter_sound hw
  refine ⟨r, by rw [e, h1], h2, fun t ht => ?_⟩
  rw [← hp, inExtSet_iff hw]
  rw [inExtSet_iff h2.wf] at ht
  exact h3 _ ht

/-- C42, partial (2): it contains all of them provided that the sums made from an interval of `s` do not end
before those made from an earlier interval of `s` start; in particular (next theorem) if one of the two
operands is convex. Missing: the other cases, where points may be lost (`C42_violated`). -/
theorem C42_add_spans_partial (dbg : Bool) (s sp : TSet) (hs : Canon s) (hsp : Canon sp)
    (hf : ∀ i ∈ s, ∀ j ∈ sp, FitsSum i j)
    (ho : ∀ i ∈ s, ∀ i' ∈ s, i.upper < i'.lower → ∀ j ∈ sp, ∀ j' ∈ sp,
      j.lower = -INF ∨ j'.upper = INF ∨ i.lower + j.lower ≤ i'.upper + j'.upper) :
    ∃ r, TSet.addSpans dbg s sp = .ok r ∧ Canon r ∧
      ∀ t, InExtSet t r ↔ ∃ a b, InExtSet a s ∧ InExtSet b sp ∧ t = a + b := by
  obtain ⟨e, hw, hp⟩ := pairs_collect dbg hs hsp hf
  have hpw : ((TSet.pairs s sp).map (fun p => sumIv p.1 p.2)).Pairwise (fun a b => a.lower ≤ b.upper) := by
    rw [List.pairwise_map, TSet.pairs, List.pairwise_flatMap]
    have bnd : ∀ i ∈ s, ∀ j ∈ sp, ∀ i' ∈ s, ∀ j' ∈ sp,
        (i.lower = -INF ∨ j.lower = -INF ∨ i'.upper = INF ∨ j'.upper = INF ∨
          i.lower + j.lower ≤ i'.upper + j'.upper) →
        (sumIv i j).lower ≤ (sumIv i' j').upper := by
      intro i hi j hj i' hi' j' hj' h
      have w1 := (addSpan_sum dbg (hs.wf i hi) (hsp.wf j hj) (hf i hi j hj)).2.1
      have w2 := (addSpan_sum dbg (hs.wf i' hi') (hsp.wf j' hj') (hf i' hi' j' hj')).2.1
      have := w1.lo_lt
      have := w2.lt_hi
      simp only [sumIv] at *
      repeat' split
      all_goals grind
    constructor
    · intro i hi
      rw [List.pairwise_map]
      refine List.Pairwise.imp_of_mem ?_ (canon_pair hsp)
      intro j j' hj hj' hh
      refine bnd i hi j hj i hi j' hj' ?_
      obtain ⟨h1, a, b⟩ := hh
      have := a.le; have := b.le; have := (hs.wf i hi).le
      right; right; right; right; omega
    · refine List.Pairwise.imp_of_mem ?_ (canon_pair hs)
      rintro i i' hi hi' ⟨h1, -, -⟩ x hx y hy
      obtain ⟨j, hj, rfl⟩ := List.mem_map.1 hx
      obtain ⟨j', hj', rfl⟩ := List.mem_map.1 hy
      refine bnd i hi j hj i' hi' j' hj' ?_
      rcases ho i hi i' hi' (by omega) j hj j' hj' with h | h | h
      · exact Or.inr (Or.inl h)
      · exact Or.inr (Or.inr (Or.inr (Or.inl h)))
      · exact Or.inr (Or.inr (Or.inr (Or.inr h)))
  obtain ⟨r, h1, h2, h3⟩ := TSet.fromIter_collect hw hpw
  exact ⟨r, by rw [e, h1], h2, fun t => by rw [inExtSet_congr h2 hw h3, hp]⟩

/-- C42, partial (3): the condition on the order holds as soon as one of the two operands has at most one
interval. -/
theorem C42_convex_operand_partial (dbg : Bool) (s sp : TSet) (hs : Canon s) (hsp : Canon sp)
    (hf : ∀ i ∈ s, ∀ j ∈ sp, FitsSum i j) (h1 : s.length ≤ 1 ∨ sp.length ≤ 1) :
    ∃ r, TSet.addSpans dbg s sp = .ok r ∧ Canon r ∧
      ∀ t, InExtSet t r ↔ ∃ a b, InExtSet a s ∧ InExtSet b sp ∧ t = a + b := by
  refine C42_add_spans_partial dbg s sp hs hsp hf ?_
  intro i hi i' hi' hlt j hj j' hj'
  have w := hs.wf i hi
  have w' := hs.wf i' hi'
  rcases h1 with h1 | h1
  · have : i = i' := by
      match s, h1, hi, hi' with
      | [x], _, hi, hi' => simp only [List.mem_singleton] at hi hi'; rw [hi, hi']
    subst this
    have := w.le; omega
  · have : j = j' := by
      match sp, h1, hj, hj' with
      | [x], _, hj, hj' => simp only [List.mem_singleton] at hj hj'; rw [hj, hj']
    subst this
    have := w.le; have := w'.le; have := (hsp.wf j hj).le
    right; right; omega

/-- C42 for differences: `s - spans` is `s + (-spans)` computed with the spans in the original order; it never
panics without overflow, is canonical and sound. -/
theorem C42_sub_spans_sound_partial (dbg : Bool) (s sp : TSet) (hs : Canon s) (hsp : Canon sp)
    (hf : ∀ i ∈ s, ∀ j ∈ sp, FitsDiff i j) :
    ∃ r, TSet.subSpans dbg s sp = .ok r ∧ Canon r ∧
      ∀ t, InExtSet t r → ∃ a b, InExtSet a s ∧ InExtSet b sp ∧ t = a - b := by
  have mem : ∀ p : Iv × Iv, p ∈ TSet.pairs s sp ↔ p.1 ∈ s ∧ p.2 ∈ sp := by
    rintro ⟨i, j⟩
    simp only [TSet.pairs, List.mem_flatMap, List.mem_map, Prod.mk.injEq]
    constructor
    · rintro ⟨i', hi, j', hj, rfl, rfl⟩; exact ⟨hi, hj⟩
    · rintro ⟨hi, hj⟩; exact ⟨i, hi, j, hj, rfl, rfl⟩
  have sum : ∀ p ∈ TSet.pairs s sp, p.1.subSpan dbg p.2 = .ok (sumIv p.1 p.2.neg) ∧
      WF (sumIv p.1 p.2.neg) ∧
      ∀ t, InExt t (sumIv p.1 p.2.neg) ↔ ∃ a b, InExt a p.1 ∧ InExt b p.2.neg ∧ t = a + b := by
    intro p hp
    obtain ⟨h1, h2⟩ := (mem p).1 hp
    exact addSpan_sum dbg (hs.wf _ h1) (hsp.wf _ h2).neg (fitsDiff (hf _ h1 _ h2))
  have hw : ∀ y ∈ (TSet.pairs s sp).map (fun p => sumIv p.1 p.2.neg), WF y := by
    intro y hy
    obtain ⟨p, hp, rfl⟩ := List.mem_map.1 hy
    exact (sum p hp).2.1
  obtain ⟨r, h1, h2, h3⟩ := TSet.fromIter_sound hw
  refine ⟨r, ?_, h2, fun t ht => ?_⟩
  · rw [TSet.subSpans, mapM_ok (fun p hp => (sum p hp).1)]; exact h1
  · rw [inExtSet_iff h2.wf] at ht
    obtain ⟨y, hy, h⟩ := (inExtSet_iff hw t).2 (h3 _ ht)
    obtain ⟨p, hp, rfl⟩ := List.mem_map.1 hy
    obtain ⟨a, b, k1, k2, e⟩ := ((sum p hp).2.2 t).1 h
    exact ⟨a, -b, ⟨p.1, ((mem p).1 hp).1, k1⟩, ⟨p.2, ((mem p).1 hp).2, inExt_neg.1 k2⟩, by omega⟩

example : Canon [⟨0, 1⟩, ⟨50, 60⟩] ∧ Canon [⟨0, 3⟩, ⟨5, 6⟩] ∧
    (∀ i ∈ ([⟨0, 1⟩, ⟨50, 60⟩] : TSet), ∀ j ∈ ([⟨0, 3⟩, ⟨5, 6⟩] : TSet), FitsSum i j ∧ FitsDiff i j) ∧
    (∀ i ∈ ([⟨0, 1⟩, ⟨50, 60⟩] : TSet), ∀ i' ∈ ([⟨0, 1⟩, ⟨50, 60⟩] : TSet), i.upper < i'.lower →
      ∀ j ∈ ([⟨0, 3⟩, ⟨5, 6⟩] : TSet), ∀ j' ∈ ([⟨0, 3⟩, ⟨5, 6⟩] : TSet),
      j.lower = -INF ∨ j'.upper = INF ∨ i.lower + j.lower ≤ i'.upper + j'.upper) := by decide

/-! ## C43, C44 set times integer -/

theorem mul_map {ty : Iv.ScaleTy} {s : TSet} {n : Int} (hs : Canon s) (hn : n ≠ 0) (hty : ScaleOk ty n)
    (hf : ∀ i ∈ s, FitsMul i n) : s.mapM (fun tw => tw.mul ty n) = .ok (s.map (mulIv n)) :=
  mapM_ok (fun i hi => mul_eq hty (mulIv_spec hn (hs.wf i hi) (hf i hi)).1)

/-- C43, partial: for a non-zero factor within `i64`, without overflow, `s * n` never panics, is canonical,
is made of the images of the intervals of `s` (in the opposite order for a negative factor), contains
`t * n` for every `t` of `s`, and `s *= n` gives the same. Missing: factors beyond `i64`, see
`C43_violated`. -/
theorem C43_mul_partial (ty : Iv.ScaleTy) (s : TSet) (n : Int) (hs : Canon s) (hn : n ≠ 0)
    (hty : ScaleOk ty n) (hf : ∀ i ∈ s, FitsMul i n) :
    ∃ r, TSet.mul ty s n = .ok r ∧ TSet.mulAssign ty s n = .ok r ∧ Canon r ∧
      (∀ t, InExtSet t s → InExtSet (t * n) r) ∧
      (0 < n → r = s.map (fun i => ⟨round (i.lower * n), round (i.upper * n)⟩)) ∧
      (n < 0 → r = (s.map (fun i => ⟨round (i.upper * n), round (i.lower * n)⟩)).reverse) := by
  have hmap := mul_map hs hn hty hf
  have hc := canon_mul hn hs hf
  have hne : (s.map (mulIv n)).filter (fun tw => !tw.isEmpty) = s.map (mulIv n) := by
    rw [List.filter_eq_self]
    intro y hy
    obtain ⟨i, hi, rfl⟩ := List.mem_map.1 hy
    rw [(mulIv_spec hn (hs.wf i hi) (hf i hi)).1.not_isEmpty]; rfl
  refine ⟨_, ?_, ?_, hc, ?_, ?_, ?_⟩
  · rw [TSet.mul, if_neg hn, hmap]
    show Except.ok _ = _
    simp only [hne]
  · rw [TSet.mulAssign, if_neg hn, hmap]
    show Except.ok _ = _
    rfl
  · rintro t ⟨i, hi, h⟩
    refine ⟨mulIv n i, ?_, (mulIv_spec hn (hs.wf i hi) (hf i hi)).2 t h⟩
    split
    · rw [List.mem_reverse]; exact List.mem_map.2 ⟨i, hi, rfl⟩
    · exact List.mem_map.2 ⟨i, hi, rfl⟩
  · intro h
    rw [if_neg (by omega)]
    apply List.map_congr_left
    intro i _
    simp only [mulIv, if_neg (show ¬ n < 0 by omega)]
  · intro h
    rw [if_pos h]
    congr 1
    apply List.map_congr_left
    intro i _
    simp only [mulIv, if_pos h]

/-- C43 is violated by every factor beyond the range: the product of any non-empty set panics, even when it is representable (the
set `{0}`). -/
theorem C43_violated (s : TSet) (hne : s ≠ []) (n : Int) :
    (n < -INF ∨ INF < n → TSet.mul .big s n = .error .assertFail ∧ TSet.mulAssign .big s n = .error .assertFail) ∧
    (INF < n → TSet.mul .ubig s n = .error .assertFail ∧ TSet.mulAssign .ubig s n = .error .assertFail) := by
  obtain ⟨i, s, rfl⟩ := List.exists_cons_of_ne_nil hne
  have key : ∀ ty, Iv.mul ty i n = .error .assertFail → n ≠ 0 →
      TSet.mul ty (i :: s) n = .error .assertFail ∧ TSet.mulAssign ty (i :: s) n = .error .assertFail := by
    intro ty h hn
    simp only [TSet.mul, TSet.mulAssign, if_neg hn, List.mapM_cons, h]
    exact ⟨rfl, rfl⟩
  constructor
  · intro h
    refine key _ ?_ (by ticks)
    rcases h with h | h
    · have e : ∀ t, mulBig t n = -INF := fun t => by rw [mulBig, if_neg (by ticks), if_pos h]
      simp only [Iv.mul, tvMul, e, ite_self]
      decide
    · have e : ∀ t, mulBig t n = INF := fun t => by rw [mulBig, if_pos h]
      simp only [Iv.mul, tvMul, e, ite_self]
      decide
  · intro h
    refine key _ ?_ (by ticks)
    have e : ∀ t, mulUBig t n.toNat = INF := fun t => by rw [mulUBig, if_pos (by ticks)]
    simp only [Iv.mul, tvMul, e, ite_self]
    decide

example : TSet.mul .big [⟨0, 0⟩] 18446744073709551616 = .error .assertFail := by decide

example : Canon [⟨-INF, -3⟩, ⟨7, 9⟩] ∧ ScaleOk .small (-2) ∧
    (∀ i ∈ ([⟨-INF, -3⟩, ⟨7, 9⟩] : TSet), FitsMul i (-2)) ∧
    TSet.mul .small [⟨-INF, -3⟩, ⟨7, 9⟩] (-2) = .ok [⟨-18, -14⟩, ⟨6, INF⟩] := by decide

/-- C44, partial: the empty set times 0 is empty. Missing: non-empty sets, see `C44_violated`. -/
theorem C44_mul_zero_partial (ty : Iv.ScaleTy) :
    TSet.mul ty [] 0 = .ok [] ∧ TSet.mulAssign ty [] 0 = .ok [] := ⟨rfl, rfl⟩

/-- C44 is violated for every non-empty set: its product by 0 does not contain 0 (nor anything else), and
yet it is not reported as empty. -/
theorem C44_violated (ty : Iv.ScaleTy) (s : TSet) (hne : s ≠ []) :
    ∃ r, TSet.mul ty s 0 = .ok r ∧ TSet.mulAssign ty s 0 = .ok r ∧ (∀ t, ¬ InSet t r) ∧
      TSet.isEmpty r = false := by
  cases s with
  | nil => exact absurd rfl hne
  | cons x xs =>
    refine ⟨[Iv.empty], rfl, rfl, fun t => ?_, rfl⟩
    rw [InSet_singleton]
    simp only [InIv, Iv.empty]; ticks

example : ([⟨3, 5⟩] : TSet) ≠ [] := by decide

/-! ## C45 set divided by an integer -/

/-- C45. A canonical set with finite bounds divided by a non-zero integer never panics; the result is
canonical and contains exactly the quotients (rounded towards zero) of the points of `s`. Division by 0
panics. -/
theorem C45_div (ty : Iv.ScaleTy) (s : TSet) (n : Int) (hs : Canon s) (hb : ∀ i ∈ s, Bounded i)
    (hty : IsScale ty n) :
    (n ≠ 0 → ∃ r, TSet.div ty s n = .ok r ∧ Canon r ∧
      ∀ q, InSet q r ↔ ∃ t, InSet t s ∧ q = t.tdiv n) ∧
    TSet.div ty s 0 = .error .assertFail := by
  refine ⟨fun hn => ?_, rfl⟩
  have hmap : s.mapM (fun tw => tw.div ty n) = .ok (s.map (divIv n)) :=
    mapM_ok (fun i hi => div_eq (hb i hi) hn hty)
  refine ⟨TSet.checkJoined (if n < 0 then (s.map (divIv n)).reverse else s.map (divIv n)), ?_, ?_⟩
  · rw [TSet.div, if_neg hn, hmap]; rfl
  · by_cases c : n < 0
    · rw [if_pos c, divIv_map_neg c]
      have hb' : ∀ i ∈ TSet.neg s, Bounded i := by
        intro i hi
        obtain ⟨j, hj, rfl⟩ := mem_neg.1 hi
        have := hb j hj
        simp only [Bounded, Iv.neg] at *
        ticks
      obtain ⟨h1, h2⟩ := div_pos_spec (n := -n) (by omega) (canon_neg hs) hb'
      refine ⟨h1, fun q => ?_⟩
      have hneg : ∀ t, InSet t (TSet.neg s) ↔ InSet (-t) s := (C39_neg s hs).2.1
      rw [h2]
      constructor
      · rintro ⟨t, h3, h4⟩
        refine ⟨-t, (hneg t).1 h3, ?_⟩
        rw [h4, Int.tdiv_neg, Int.neg_tdiv]
      · rintro ⟨t, h3, h4⟩
        refine ⟨-t, (hneg (-t)).2 (by rwa [Int.neg_neg]), ?_⟩
        rw [h4, Int.tdiv_neg, Int.neg_tdiv, Int.neg_neg]
    · rw [if_neg c]
      exact div_pos_spec (by omega) hs hb

example : Canon [⟨0, 1⟩, ⟨5, 6⟩, ⟨20, 30⟩] ∧ (∀ i ∈ ([⟨0, 1⟩, ⟨5, 6⟩, ⟨20, 30⟩] : TSet), Bounded i) ∧
    TSet.div .small [⟨0, 1⟩, ⟨5, 6⟩, ⟨20, 30⟩] (-5) = .ok [⟨-6, -4⟩, ⟨-1, 0⟩] := by decide

/-! ## C83 compound assignment -/

/-- C83, partial: for intervals which are not singletons, `+=` and `-=` of a duration or a span give what
`+` and `-` give, and do not panic, without overflow. Missing: singletons (`C83_violated`). -/
theorem C83_interval_partial (dbg : Bool) (i s : Iv) (hi : WF i) (hs : WF s) (hne : i.lower ≠ i.upper) :
    (FitsSum i s → ∃ j, i.addSpan dbg s = .ok j ∧ i.addAssignSpan s = .ok j) ∧
    (FitsDiff i s → ∃ j, i.subSpan dbg s = .ok j ∧ i.subAssignSpan s = .ok j) ∧
    (∀ d, s = ⟨d, d⟩ → FitsSum i s → ∃ j, i.addTv dbg d = .ok j ∧ i.addAssignTv d = .ok j) ∧
    (∀ d, s = ⟨d, d⟩ → FitsDiff i s → ∃ j, i.subTv dbg d = .ok j ∧ i.subAssignTv d = .ok j) := by
  have add : ∀ s : Iv, WF s → FitsSum i s →
      ∃ j, i.addSpan dbg s = .ok j ∧ i.addAssignSpan s = .ok j := by
    intro s hs hf
    obtain ⟨h1, h2, -⟩ := addSpan_sum dbg hi hs hf
    refine ⟨_, h1, ?_⟩
    obtain ⟨a1, a2, a3, a4, a5⟩ := hi
    obtain ⟨b1, b2, b3, b4, b5⟩ := hs
    rw [Iv.addAssignSpan, add_lower (by ticks) a4 (by ticks) b4 hf.1, ok_bind,
      add_upper (by ticks) a5 (by ticks) b5 hf.2, ok_bind]
    rw [if_pos]
    · rfl
    · simp only [Bool.or_eq_true, bne_iff_ne]
      left
      have := h2.le
      simp only [sumIv] at this
      obtain ⟨f1, f2⟩ := hf
      repeat' split
      all_goals ticks
  have sub : ∀ s : Iv, WF s → FitsDiff i s →
      ∃ j, i.subSpan dbg s = .ok j ∧ i.subAssignSpan s = .ok j :=
    fun s hs hf => add s.neg hs.neg (fitsDiff hf)
  refine ⟨add s hs, sub s hs, ?_, ?_⟩
  · rintro d rfl hf; exact add _ hs hf
  · rintro d rfl hf; exact sub _ hs hf

/-- C83, partial: for sets without singleton intervals, `s += d` gives what `s + d` gives. -/
theorem C83_set_partial (dbg : Bool) (s : TSet) (d : Int) (hs : Canon s) (hd : Date d)
    (hne : ∀ i ∈ s, i.lower ≠ i.upper) :
    ((∀ i ∈ s, FitsSum i ⟨d, d⟩) → ∃ r, TSet.addTv dbg s d = .ok r ∧ TSet.addAssignTv s d = .ok r) ∧
    ((∀ i ∈ s, FitsDiff i ⟨d, d⟩) → ∃ r, TSet.subTv dbg s d = .ok r ∧ TSet.subAssignTv s d = .ok r) := by
  constructor
  · intro hf
    refine ⟨_, addTv_map dbg hs hd hf, mapM_ok (fun i hi => ?_)⟩
    obtain ⟨j, h1, h2⟩ := (C83_interval_partial dbg i ⟨d, d⟩ (hs.wf i hi) (wf_point hd) (hne i hi)).2.2.1
      d rfl (hf i hi)
    rw [h2, ← h1]
    exact (addSpan_sum dbg (hs.wf i hi) (wf_point hd) (hf i hi)).1
  · intro hf
    have hd' : Date (-d) := by ticks
    refine ⟨s.map (fun i => sumIv i ⟨-d, -d⟩),
      mapM_ok (fun i hi => (addSpan_sum dbg (hs.wf i hi) (wf_point hd') (fitsDiff (hf i hi))).1),
      mapM_ok (fun i hi => ?_)⟩
    obtain ⟨j, h1, h2⟩ := (C83_interval_partial dbg i ⟨d, d⟩ (hs.wf i hi) (wf_point hd) (hne i hi)).2.2.2
      d rfl (hf i hi)
    rw [h2, ← h1]
    exact (addSpan_sum dbg (hs.wf i hi) (wf_point hd') (fitsDiff (hf i hi))).1

/-- C83 is violated for every singleton: `+=` and `-=` of any duration panic, although `+` and `-` do not. -/
theorem C83_violated (dbg : Bool) (p d : Int) (hp : Date p) (hd : Date d) (h : Date (p + d)) :
    Iv.addTv dbg ⟨p, p⟩ d = .ok ⟨p + d, p + d⟩ ∧ Iv.addAssignTv ⟨p, p⟩ d = .error .assertFail ∧
    TSet.addAssignTv [⟨p, p⟩] d = .error .assertFail ∧
    Iv.subAssignTv ⟨p, p⟩ (-d) = .error .assertFail := by
  have e := tvAdd_exact hp hd h
  have hfin : isFinite (p + d) = true := isFinite_iff.2 (by ticks)
  have h1 : Iv.addAssignTv ⟨p, p⟩ d = .error .assertFail := by
    simp only [Iv.addAssignTv, e, ok_bind, hfin]; simp
  refine ⟨?_, h1, ?_, ?_⟩
  · have hs := addSpan_sum dbg (wf_point hp) (wf_point hd)
      (show FitsSum ⟨p, p⟩ ⟨d, d⟩ from ⟨fun _ _ => h, fun _ _ => h⟩)
    have e2 : sumIv ⟨p, p⟩ ⟨d, d⟩ = ⟨p + d, p + d⟩ := by
      simp only [sumIv]
      rw [if_neg (by ticks), if_neg (by ticks)]
    rw [e2] at hs
    exact hs.1
  · simp only [TSet.addAssignTv, List.mapM_cons, h1]; rfl
  · have : Iv.subAssignTv ⟨p, p⟩ (-d) = Iv.addAssignTv ⟨p, p⟩ (- -d) := rfl
    rw [this, Int.neg_neg, h1]

example : WF ⟨3, 5⟩ ∧ WF ⟨1, 2⟩ ∧ FitsSum ⟨3, 5⟩ ⟨1, 2⟩ ∧ FitsDiff ⟨3, 5⟩ ⟨1, 2⟩ ∧ Date (3 + 4) ∧
    Iv.addAssignSpan ⟨3, 5⟩ ⟨1, 2⟩ = .ok ⟨4, 7⟩ := by decide

/-! ## C85 lazy translation and scaling -/

/-- C85, partial: without overflow, the iterator `s.translation(d)` yields exactly the intervals of `s + d`,
in order. Missing: overflow (`C85_violated`). -/
theorem C85_translation_partial (dbg : Bool) (s : TSet) (d : Int) (hs : Canon s) (hd : Date d)
    (hf : ∀ i ∈ s, FitsSum i ⟨d, d⟩) :
    ∃ r, TSet.translIter dbg d s = .ok r ∧ TSet.addTv dbg s d = .ok r := by
  refine ⟨_, ?_, addTv_map dbg hs hd hf⟩
  induction s with
  | nil => rfl
  | cons x xs ih =>
    obtain ⟨h1, h2, -⟩ := addSpan_sum dbg (hs.wf x (by simp)) (wf_point hd) (hf x (by simp))
    have h1 : x.addTv dbg d = .ok (sumIv x ⟨d, d⟩) := h1
    have := ih (Canon_cons.1 hs).2.2 (fun i hi => hf i (by simp [hi]))
    rw [TSet.translIter, h1, ok_bind, h2.not_isEmpty, this]
    rfl

/-- C85, partial: without overflow, the iterator `s.scaling(n)` yields the images of all the intervals of
`s`, in the order of `s`. -/
theorem C85_scaling_partial (ty : Iv.ScaleTy) (s : TSet) (n : Int) (hs : Canon s) (hn : n ≠ 0)
    (hty : ScaleOk ty n) (hf : ∀ i ∈ s, FitsMul i n) :
    ∃ r, TSet.scaleIter ty n s = .ok r ∧
      TSet.mul ty s n = .ok (if n < 0 then r.reverse else r) := by
  obtain ⟨r, h1, -, -, -, h2, h3⟩ := C43_mul_partial ty s n hs hn hty hf
  refine ⟨s.map (mulIv n), ?_, ?_⟩
  · clear h1 h2 h3
    induction s with
    | nil => rfl
    | cons x xs ih =>
      have hw := (mulIv_spec hn (hs.wf x (by simp)) (hf x (by simp))).1
      have := ih (Canon_cons.1 hs).2.2 (fun i hi => hf i (by simp [hi]))
      rw [TSet.scaleIter, mul_eq hty hw, ok_bind, hw.not_isEmpty, this]
      rfl
  · rw [h1]
    by_cases c : n < 0
    · rw [h3 c, if_pos c]
      congr 2
      apply List.map_congr_left
      intro i _
      simp only [mulIv, if_pos c]
    · rw [h2 (by omega), if_neg c]
      congr 1
      apply List.map_congr_left
      intro i _
      simp only [mulIv, if_neg c]

/-- C85 is violated in a build without debug assertions: the iteration stops at the first interval which overflows as a whole, and whatever
follows it is lost; `s + d` has as many intervals as `s` (and all the dates, see C110). -/
theorem C85_violated (d : Int) (a b : TSet) (x : Iv) (hd : Date d) (hx : WF x) (h : x.upper ≠ INF ∧ x.upper + d ≤ -INF ∨ x.lower ≠ -INF ∧ INF ≤ x.lower + d) :
    TSet.translIter false d (a ++ x :: b) = TSet.translIter false d a ∧
    ∀ r, TSet.addTv false (a ++ x :: b) d = .ok r → r.length = a.length + 1 + b.length := by
  have hx0 : x.addTv false d = .ok Iv.empty := by
    obtain ⟨g1, g2, g3, g4, g5⟩ := hx
    unfold Date at hd
    have l1 : Legal x.lower := by unfold Legal; ticks
    have l2 : Legal x.upper := by unfold Legal; ticks
    have l3 : Legal d := by unfold Legal; ticks
    have k0 : (INF : Int) ≠ -INF := by decide
    have d1 : d ≠ INF := by ticks
    have d2 : d ≠ -INF := by ticks
    have h1 : x.lower ≠ INF := by omega
    have h2 : x.upper ≠ -INF := by omega
    simp only [Iv.addTv, tvAdd_eq l1 l3, tvAdd_eq l2 l3, h1, h2, d1, d2, if_false]
    rcases h with ⟨c1, c2⟩ | ⟨c1, c2⟩
    · have e2 : round (x.upper + d) = -INF := by unfold round; ticks
      have e1 : round (x.lower + d) = -INF := by unfold round; ticks
      by_cases c : x.lower = -INF <;> simp only [c, c1, if_true, if_false, ok_bind, e1, e2] <;> decide
    · have e2 : round (x.upper + d) = INF := by unfold round; ticks
      have e1 : round (x.lower + d) = INF := by unfold round; ticks
      by_cases c : x.upper = INF <;> simp only [c, c1, if_true, if_false, ok_bind, e1, e2] <;> decide
  constructor
  · induction a with
    | nil =>
      simp only [List.nil_append, TSet.translIter, hx0]
      rfl
    | cons y a ih => simp only [List.cons_append, TSet.translIter, ih]
  · intro r hr
    have key : ∀ (l r : TSet), TSet.addTv false l d = .ok r → r.length = l.length := by
      intro l
      induction l with
      | nil => intro r h; injection h with h; subst h; rfl
      | cons y l ih =>
        intro r h
        simp only [TSet.addTv, List.mapM_cons] at h ih
        cases e1 : y.addTv false d with
        | error => rw [e1] at h; cases h
        | ok v =>
          rw [e1, ok_bind] at h
          cases e2 : l.mapM (fun tw => tw.addTv false d) with
          | error => rw [e2] at h; cases h
          | ok w =>
            rw [e2] at h
            injection h with h
            subst h
            simp [ih w e2]
    rw [key _ r hr, List.length_append, List.length_cons]
    omega

example : TSet.translIter false (-5) [⟨-INF + 1, -INF + 1⟩, ⟨0, 0⟩] = .ok [] ∧
    TSet.addTv false [⟨-INF + 1, -INF + 1⟩, ⟨0, 0⟩] (-5) = .ok [Iv.empty, ⟨-5, -5⟩] := by decide

example : Canon [⟨-INF, 3⟩, ⟨7, 9⟩] ∧ (∀ i ∈ ([⟨-INF, 3⟩, ⟨7, 9⟩] : TSet), FitsSum i ⟨10, 10⟩) ∧
    TSet.translIter true 10 [⟨-INF, 3⟩, ⟨7, 9⟩] = .ok [⟨-INF, 13⟩, ⟨17, 19⟩] ∧
    TSet.scaleIter .small (-2) [⟨0, 3⟩, ⟨7, 9⟩] = .ok [⟨-6, 0⟩, ⟨-18, -14⟩] := by decide

end Chrono
