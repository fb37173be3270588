import Verif.Lemmas.Overflow
import Verif.Props.SetArith
import Verif.Props.UnionExact

set_option linter.unusedSimpArgs false

/-!
# Properties of translations which overflow (C109, C110)
-/

namespace Chrono
open Spec

/-! ## C109 intervals -/

/-- C109. `i + span`, for any two intervals. In a release build it never panics and the result holds exactly the representable
dates which are sums; it is the empty interval if there is none. A debug build returns the same, and panics iff there is none. -/
theorem C109_add_span (i s : Iv) (hi : WF i) (hs : WF s) :
    ∃ j, i.addSpan false s = .ok j ∧
      (∀ t, Date t → (InIv t j ↔ ∃ a b, InExt a i ∧ InExt b s ∧ t = a + b)) ∧
      (HasSum i s → WF j ∧ i.addSpan true s = .ok j) ∧
      (¬ HasSum i s → j = Iv.empty ∧ i.addSpan true s = .error .debugAssert) := by
  by_cases h : HasSum i s
  · exact ⟨_, addSpan_has false hi hs h, (satIv_bounds hi hs).2.2.2,
      fun _ => ⟨(hasSum_iff hi hs).1 h, addSpan_has true hi hs h⟩, fun h' => absurd h h'⟩
  · refine ⟨Iv.empty, addSpan_none false hi hs h, fun t ht => ?_, fun h' => absurd h' h,
      fun _ => ⟨rfl, addSpan_none true hi hs h⟩⟩
    exact ⟨fun h' => absurd h' (empty_no_date ht), fun h' => absurd ⟨t, ht, h'⟩ h⟩

theorem hasDiff_iff {i s : Iv} : HasDiff i s ↔ HasSum i s.neg := by
  constructor
  · rintro ⟨t, ht, a, b, ha, hb, e⟩
    exact ⟨t, ht, a, -b, ha, by rw [inExt_neg, Int.neg_neg]; exact hb, by omega⟩
  · rintro ⟨t, ht, a, b, ha, hb, e⟩
    exact ⟨t, ht, a, -b, ha, inExt_neg.1 hb, by omega⟩

/-- C109. `i - span` likewise, with differences. -/
theorem C109_sub_span (i s : Iv) (hi : WF i) (hs : WF s) :
    ∃ j, i.subSpan false s = .ok j ∧
      (∀ t, Date t → (InIv t j ↔ ∃ a b, InExt a i ∧ InExt b s ∧ t = a - b)) ∧
      (HasDiff i s → WF j ∧ i.subSpan true s = .ok j) ∧
      (¬ HasDiff i s → j = Iv.empty ∧ i.subSpan true s = .error .debugAssert) := by
  obtain ⟨j, h1, h2, h3, h4⟩ := C109_add_span i s.neg hi hs.neg
  rw [subSpan_eq, subSpan_eq, hasDiff_iff]
  refine ⟨j, h1, fun t ht => ?_, h3, h4⟩
  rw [h2 t ht]
  constructor
  · rintro ⟨a, b, ha, hb, e⟩
    exact ⟨a, -b, ha, inExt_neg.1 hb, by omega⟩
  · rintro ⟨a, b, ha, hb, e⟩
    exact ⟨a, -b, ha, by rw [inExt_neg, Int.neg_neg]; exact hb, by omega⟩

/-- points of a one-date interval -/
theorem sum_point {i : Iv} {d t : Int} (hd : Date d) :
    (∃ a b, InExt a i ∧ InExt b ⟨d, d⟩ ∧ t = a + b) ↔ InExt (t - d) i := by
  constructor
  · rintro ⟨a, b, ha, hb, rfl⟩
    have : b = d := by simp only [InExt] at hb; ticks
    rw [this, show a + d - d = a by omega]; exact ha
  · intro h
    exact ⟨t - d, d, h, by simp only [InExt]; omega, by omega⟩

/-- C109. `i + d`, `i - d` and `d - i` for a finite duration `d`, likewise. -/
theorem C109_translate (i : Iv) (d : Int) (hi : WF i) (hd : Date d) :
    (∃ j, i.addTv false d = .ok j ∧ (∀ t, Date t → (InIv t j ↔ InExt (t - d) i)) ∧
      ((∃ t, Date t ∧ InExt (t - d) i) → WF j ∧ i.addTv true d = .ok j) ∧
      ((¬ ∃ t, Date t ∧ InExt (t - d) i) → j = Iv.empty ∧ i.addTv true d = .error .debugAssert)) ∧
    (∃ j, i.subTv false d = .ok j ∧ (∀ t, Date t → (InIv t j ↔ InExt (t + d) i)) ∧
      ((∃ t, Date t ∧ InExt (t + d) i) → WF j ∧ i.subTv true d = .ok j) ∧
      ((¬ ∃ t, Date t ∧ InExt (t + d) i) → j = Iv.empty ∧ i.subTv true d = .error .debugAssert)) ∧
    (∃ j, Iv.tvSubIv false d i = .ok j ∧ (∀ t, Date t → (InIv t j ↔ InExt (d - t) i)) ∧
      ((∃ t, Date t ∧ InExt (d - t) i) → WF j ∧ Iv.tvSubIv true d i = .ok j) ∧
      ((¬ ∃ t, Date t ∧ InExt (d - t) i) → j = Iv.empty ∧ Iv.tvSubIv true d i = .error .debugAssert)) := by
  have add : ∀ (i : Iv) (d : Int), WF i → Date d →
      ∃ j, i.addTv false d = .ok j ∧ (∀ t, Date t → (InIv t j ↔ InExt (t - d) i)) ∧
      ((∃ t, Date t ∧ InExt (t - d) i) → WF j ∧ i.addTv true d = .ok j) ∧
      ((¬ ∃ t, Date t ∧ InExt (t - d) i) → j = Iv.empty ∧ i.addTv true d = .error .debugAssert) := by
    intro i d hi hd
    obtain ⟨j, h1, h2, h3, h4⟩ := C109_add_span i ⟨d, d⟩ hi (wf_point hd)
    have hs : HasSum i ⟨d, d⟩ ↔ ∃ t, Date t ∧ InExt (t - d) i :=
      ⟨fun ⟨t, ht, h⟩ => ⟨t, ht, (sum_point hd).1 h⟩, fun ⟨t, ht, h⟩ => ⟨t, ht, (sum_point hd).2 h⟩⟩
    rw [hs] at h3 h4
    exact ⟨j, h1, fun t ht => by rw [h2 t ht, sum_point hd], h3, h4⟩
  refine ⟨add i d hi hd, ?_, ?_⟩
  · have := add i (-d) hi (by ticks)
    simp only [Int.sub_neg] at this
    exact this
  · have := add i.neg d hi.neg hd
    have e : ∀ t, InExt (t - d) i.neg ↔ InExt (d - t) i := fun t => by
      rw [inExt_neg, show -(t - d) = d - t by omega]
    simp only [e] at this
    exact this

example : WF ⟨INF - 9, INF - 3⟩ ∧ Date 5 ∧ Iv.addTv false ⟨INF - 9, INF - 3⟩ 5 = .ok ⟨INF - 4, INF⟩ ∧
    Iv.addTv false ⟨INF - 9, INF - 3⟩ 12 = .ok Iv.empty ∧ Iv.addTv true ⟨INF - 9, INF - 3⟩ 12 = .error .debugAssert ∧
    HasSum ⟨INF - 9, INF - 3⟩ ⟨5, 5⟩ := by
  refine ⟨by decide, by decide, by decide, by decide, by decide, INF - 4, by decide, INF - 9, 5, by decide, by decide, by decide⟩

/-- C109 is violated by `+=` (and `-=`), in all builds: if all the sums are after the last date, the interval becomes the single point `+oo`,
which is not equal to the empty interval; if all the sums are before the first date, it becomes the single point `-oo`, which is not even
reported as empty although it has no date. -/
theorem C109_assign_violated (i s : Iv) (hi : WF i) (hs : WF s) (h : ¬ HasSum i s) :
    (INF ≤ i.lower + s.lower ∧ i.addAssignSpan s = .ok ⟨INF, INF⟩ ∧ (⟨INF, INF⟩ : Iv) ≠ Iv.empty) ∨
    (i.upper + s.upper ≤ -INF ∧ i.addAssignSpan s = .ok ⟨-INF, -INF⟩ ∧ (⟨-INF, -INF⟩ : Iv).isEmpty = false ∧
      ∀ t, Date t → ¬ InIv t ⟨-INF, -INF⟩) := by
  have hb := satIv_bounds hi hs
  have hn : ¬ WF (satIv i s) := fun hw => h ((hasSum_iff hi hs).2 hw)
  have e : i.addAssignSpan s = if (satIv i s).lower != (satIv i s).upper || !isFinite (satIv i s).lower
      then .ok (satIv i s) else .error .assertFail := by
    have e0 := addSpan_bounds hi hs
    simp only [Iv.addAssignSpan, e0.1, e0.2]
    rfl
  have hl : (satIv i s).lower = INF → INF ≤ i.lower + s.lower := by
    obtain ⟨h1, h2, h3, h4, h5⟩ := hi
    obtain ⟨g1, g2, g3, g4, g5⟩ := hs
    simp only [satIv, round]
    repeat' split
    all_goals ticks
  have hu : (satIv i s).upper = -INF → i.upper + s.upper ≤ -INF := by
    obtain ⟨h1, h2, h3, h4, h5⟩ := hi
    obtain ⟨g1, g2, g3, g4, g5⟩ := hs
    simp only [satIv, round]
    repeat' split
    all_goals ticks
  rw [e]
  generalize satIv i s = j at *
  obtain ⟨h1, h2, h3, -⟩ := hb
  have hc : (j.lower = INF ∧ j.upper = INF) ∨ (j.lower = -INF ∧ j.upper = -INF) := by
    rcases Classical.em ((j.lower = INF ∧ j.upper = INF) ∨ (j.lower = -INF ∧ j.upper = -INF)) with c | c
    · exact c
    · exact absurd ⟨h1, h2, h3, by ticks, by ticks⟩ hn
  rcases j with ⟨l, u⟩
  rcases hc with ⟨rfl, rfl⟩ | ⟨rfl, rfl⟩
  · exact Or.inl ⟨hl rfl, by decide, by decide⟩
  · exact Or.inr ⟨hu rfl, by decide, by decide, fun t ht h => by simp only [InIv] at h; ticks⟩

example : WF ⟨INF - 9, INF - 3⟩ ∧ WF ⟨12, 13⟩ ∧ ¬ HasSum ⟨INF - 9, INF - 3⟩ ⟨12, 13⟩ := by
  refine ⟨by decide, by decide, ?_⟩
  rw [hasSum_iff (by decide) (by decide)]
  decide

/-- C109: what is lost is the bound. A bounded interval translated so that only its end overflows is unbounded after the translation, and
remains so when it is translated back: `(i + d) - d` is not `i`. -/
theorem C109_round_trip_violated (dbg : Bool) (i : Iv) (d : Int) (hd : Date d) (hl : Date i.lower) (hu : Date i.upper)
    (h1 : Date (i.lower + d)) (h2 : INF ≤ i.upper + d) :
    i.addTv dbg d = .ok ⟨i.lower + d, INF⟩ ∧ Iv.subTv dbg ⟨i.lower + d, INF⟩ d = .ok ⟨i.lower, INF⟩ ∧
      (⟨i.lower, INF⟩ : Iv) ≠ i := by
  have e1 : tvAdd i.lower d = .ok (i.lower + d) := tvAdd_exact hl hd h1
  have e2 : tvAdd i.upper d = .ok INF := by
    rw [tvAdd_fin hu hd]; simp only [round]; rw [if_pos h2]
  have e3 : tvSub (i.lower + d) d = .ok i.lower := by
    have := tvAdd_exact (a := i.lower + d) (b := -d) h1 (by ticks) (by rw [show i.lower + d + -d = i.lower by omega]; exact hl)
    rw [show i.lower + d + -d = i.lower by omega] at this
    exact this
  have e4 : tvSub INF d = .ok INF := by
    have := tvAdd_ok (a := INF) (b := -d) (by ticks) (by ticks) (by ticks) (by ticks)
    rw [if_pos (by ticks)] at this
    exact this
  have w1 : WF ⟨i.lower + d, INF⟩ := by constructor <;> simp only <;> ticks
  have w2 : WF ⟨i.lower, INF⟩ := by constructor <;> simp only <;> ticks
  refine ⟨?_, ?_, fun h => ?_⟩
  · simp only [Iv.addTv, e1, e2, ok_bind]
    rw [Iv.new_wf w1]
    simp [Iv.debugNonEmpty, w1.not_isEmpty]
  · simp only [Iv.subTv, e3, e4, ok_bind]
    rw [Iv.new_wf w2]
    simp [Iv.debugNonEmpty, w2.not_isEmpty]
  · have := congrArg Iv.upper h
    simp only at this
    ticks

example : Date 0 ∧ Date (INF - 3) ∧ Date 7 ∧ Date (0 + 7) ∧ INF ≤ (INF - 3) + 7 := by decide

/-! ## C110 sets -/

theorem inSet_map {f : Iv → Iv} {s : List Iv} {t : Int} : InSet t (s.map f) ↔ ∃ i ∈ s, InIv t (f i) := by
  simp only [InSet, List.mem_map]
  constructor
  · rintro ⟨_, ⟨i, hi, rfl⟩, h⟩; exact ⟨i, hi, h⟩
  · rintro ⟨i, hi, h⟩; exact ⟨_, ⟨i, hi, rfl⟩, h⟩

theorem mapM_error {α β : Type} {g : α → Res β} {h : α → β} {e : Panic} {l : List α}
    (hg : ∀ i ∈ l, g i = .ok (h i) ∨ g i = .error e) (hx : ∃ i ∈ l, g i = .error e) : l.mapM g = .error e := by
  induction l with
  | nil => obtain ⟨i, hi, -⟩ := hx; cases hi
  | cons x xs ih =>
    rw [List.mapM_cons]
    rcases hg x (by simp) with h1 | h1
    · have : ∃ i ∈ xs, g i = .error e := by
        obtain ⟨i, hi, h2⟩ := hx
        rcases List.mem_cons.1 hi with rfl | hi
        · rw [h1] at h2; cases h2
        · exact ⟨i, hi, h2⟩
      rw [h1, ih (fun i hi => hg i (by simp [hi])) this]
      rfl
    · rw [h1]; rfl

theorem hasSum_point {i : Iv} {d : Int} (hd : Date d) : HasSum i ⟨d, d⟩ ↔ ∃ t, Date t ∧ InExt (t - d) i :=
  ⟨fun ⟨t, ht, h⟩ => ⟨t, ht, (sum_point hd).1 h⟩, fun ⟨t, ht, h⟩ => ⟨t, ht, (sum_point hd).2 h⟩⟩

/-- C110, partial: `s + d` for any canonical set. In a release build it never panics and holds exactly the representable dates; it is
canonical iff no interval of `s` overflows as a whole. A debug build returns the same, and panics iff some interval overflows as a whole.
Missing: those overflows, which leave an empty interval among the others (and the next theorems). -/
theorem C110_translate_partial (s : TSet) (d : Int) (hs : Canon s) (hd : Date d) :
    ∃ r, TSet.addTv false s d = .ok r ∧ (∀ t, Date t → (InSet t r ↔ InExtSet (t - d) s)) ∧
      ((∀ i ∈ s, ∃ t, Date t ∧ InExt (t - d) i) → Canon r ∧ TSet.addTv true s d = .ok r) ∧
      ((∃ i ∈ s, ¬ ∃ t, Date t ∧ InExt (t - d) i) →
        Iv.empty ∈ r ∧ ¬ Canon r ∧ TSet.addTv true s d = .error .debugAssert) := by
  have hp := wf_point hd
  refine ⟨s.map (trIv ⟨d, d⟩), mapM_ok (fun i hi => addSpan_tr (hs.wf i hi) hp), fun t ht => ?_, fun h => ⟨⟨?_, ?_⟩, ?_⟩,
    fun ⟨i, hi, h⟩ => ?_⟩
  · rw [inSet_map]
    constructor
    · rintro ⟨i, hi, h⟩
      exact ⟨i, hi, (sum_point hd).1 ((trIv_dates (hs.wf i hi) hp ht).1 h)⟩
    · rintro ⟨i, hi, h⟩
      exact ⟨i, hi, (trIv_dates (hs.wf i hi) hp ht).2 ((sum_point hd).2 h)⟩
  · intro y hy
    obtain ⟨i, hi, rfl⟩ := List.mem_map.1 hy
    exact (trIv_wf (hs.wf i hi) hp).2 ((hasSum_point hd).2 (h i hi))
  · rw [List.pairwise_map]
    refine List.Pairwise.imp_of_mem ?_ (canon_pair hs)
    rintro a b ha hb ⟨h1, wa, wb⟩
    have sa := (hasSum_point hd).2 (h a ha)
    have sb := (hasSum_point hd).2 (h b hb)
    rw [trIv_has wa hp sa, trIv_has wb hp sb]
    exact satIv_gap wa wb hd h1 ((hasSum_iff wa hp).1 sa) ((hasSum_iff wb hp).1 sb)
  · refine mapM_ok (fun i hi => ?_)
    have si := (hasSum_point hd).2 (h i hi)
    rw [trIv_has (hs.wf i hi) hp si]
    exact addSpan_has true (hs.wf i hi) hp si
  · rw [← hasSum_point hd] at h
    have hm : Iv.empty ∈ s.map (trIv ⟨d, d⟩) :=
      List.mem_map.2 ⟨i, hi, trIv_none (hs.wf i hi) hp h⟩
    refine ⟨hm, fun hc => absurd (hc.wf _ hm).le (by decide),
      mapM_error (h := fun j => satIv j ⟨d, d⟩) (fun j hj => ?_) ⟨i, hi, addSpan_none true (hs.wf i hi) hp h⟩⟩
    by_cases c : HasSum j ⟨d, d⟩
    · exact Or.inl (addSpan_has true (hs.wf j hj) hp c)
    · exact Or.inr (addSpan_none true (hs.wf j hj) hp c)

/-- the sum of a date and a bound, in either order -/
theorem tvAdd_date_comm {t x : Int} (ht : Date t) (hx : -INF ≤ x ∧ x ≤ INF) : tvAdd t x = tvAdd x t := by
  simp only [tvAdd, isFutureInfinite, isPastInfinite, isFinite, Int.add_comm t x]
  simp only [Date] at ht
  obtain ⟨h1, h2⟩ := ht
  obtain ⟨h3, h4⟩ := hx
  grind

/-- C110. The other ways to translate a set, overflowing or not, are `s + d` in disguise, panics included: `s - d` is `s + (-d)`;
a set of durations plus a timestamp is `s + t`, less a timestamp `s + (-t)`, and a timestamp less a set of durations is `-s + t`.
So the theorems above tell what each does. -/
theorem C110_translate_others (dbg : Bool) (s : TSet) (t : Int) (hs : Canon s) (ht : Date t) :
    TSet.subTv dbg s t = TSet.addTv dbg s (-t) ∧ TSet.addTs dbg s t = TSet.addTv dbg s t ∧
    TSet.subTs dbg s t = TSet.addTv dbg s (-t) ∧ TSet.tsSub dbg t s = TSet.addTv dbg (TSet.neg s) t := by
  have one : ∀ (i : Iv) (d : Int), WF i → Date d → Iv.tsAddSpan dbg d i = i.addTv dbg d := by
    intro i d hi hd
    obtain ⟨h1, h2, h3⟩ := hi
    simp only [Iv.tsAddSpan, Iv.addTv]
    rw [tvAdd_date_comm hd (by ticks), tvAdd_date_comm hd (by ticks)]
  have all : ∀ (l : TSet) (d : Int), (∀ i ∈ l, WF i) → Date d →
      l.mapM (fun tw => Iv.tsAddSpan dbg d tw) = l.mapM (fun tw => tw.addTv dbg d) := by
    intro l d hl hd
    induction l with
    | nil => rfl
    | cons x xs ih =>
      rw [List.mapM_cons, List.mapM_cons, one x d (hl x (.head _)) hd, ih (fun i hi => hl i (.tail _ hi))]
  have hn : Date (-t) := by ticks
  refine ⟨rfl, all s t hs.wf ht, all s (-t) hs.wf hn, ?_⟩
  have rev : ∀ l : List Iv, l.mapM (fun i => Iv.tsSubSpan dbg t i) =
      (l.map Iv.neg).mapM (fun tw => Iv.tsAddSpan dbg t tw) := by
    intro l
    induction l with
    | nil => rfl
    | cons x xs ih => rw [List.mapM_cons, List.map_cons, List.mapM_cons, ih]; rfl
  exact (rev _).trans (all (TSet.neg s) t (canon_neg hs).wf ht)

/-- the translation iterator in a release build -/
theorem translIter_eq {d : Int} (hd : Date d) (s : TSet) (hs : ∀ i ∈ s, WF i) :
    TSet.translIter false d s = .ok ((s.map (trIv ⟨d, d⟩)).takeWhile (fun x => !x.isEmpty)) := by
  induction s with
  | nil => rfl
  | cons x xs ih =>
    have h1 : x.addTv false d = .ok (trIv ⟨d, d⟩ x) := addSpan_tr (hs x (by simp)) (wf_point hd)
    rw [TSet.translIter, h1, ok_bind, List.map_cons, ih (fun i hi => hs i (by simp [hi]))]
    cases h : (trIv ⟨d, d⟩ x).isEmpty
    · rw [List.takeWhile_cons_of_pos (by simp [h])]; rfl
    · rw [List.takeWhile_cons_of_neg (by simp [h])]; rfl

/-- C110, partial: towards the future, or if the first interval keeps some date, the translation iterator of a release build yields a
canonical set, of exactly the representable dates, whatever overflows. Missing: the translations towards the past where the first
interval overflows as a whole (`C110_iter_violated`). -/
theorem C110_iter_partial (s : TSet) (d : Int) (hs : Canon s) (hd : Date d)
    (h0 : 0 ≤ d ∨ ∀ x ∈ s.head?, ∃ t, Date t ∧ InExt (t - d) x) :
    ∃ r, TSet.translIter false d s = .ok r ∧ Canon r ∧ ∀ t, Date t → (InSet t r ↔ InExtSet (t - d) s) := by
  refine ⟨_, translIter_eq hd s hs.wf, ?_⟩
  have hp := wf_point hd
  induction s with
  | nil => exact ⟨Canon_nil, fun t _ => by simp [InSet, InExtSet]⟩
  | cons x xs ih =>
    obtain ⟨wx, hx, hxs⟩ := Canon_cons.1 hs
    obtain ⟨h1, h2⟩ := ih hxs (by
      rcases h0 with h0 | h0
      · exact Or.inl h0
      · by_cases h0' : 0 ≤ d
        · exact Or.inl h0'
        · refine Or.inr fun z hz => ?_
          obtain ⟨t, ht, h⟩ := h0 x (by simp)
          have hz : z ∈ xs := List.mem_of_mem_head? hz
          have := hx z hz
          have wz := hxs.wf z hz
          obtain ⟨a1, a2, a3, a4, a5⟩ := wx
          obtain ⟨b1, b2, b3, b4, b5⟩ := wz
          simp only [InExt] at h ⊢
          refine ⟨z.lower + d, ?_, ?_⟩ <;> ticks)
    by_cases c : HasSum x ⟨d, d⟩
    · have e := trIv_has wx hp c
      have w := (hasSum_iff wx hp).1 c
      rw [List.map_cons, List.takeWhile_cons_of_pos (by rw [e, w.not_isEmpty]; rfl), e]
      refine ⟨Canon_cons.2 ⟨w, fun y hy => ?_, h1⟩, fun t ht => ?_⟩
      · have wy := h1.wf y hy
        obtain ⟨z, hz, rfl⟩ := List.mem_map.1 ((List.takeWhile_sublist _).subset hy)
        have sz := (trIv_wf (hxs.wf z hz) hp).1 wy
        rw [trIv_has (hxs.wf z hz) hp sz] at wy ⊢
        exact satIv_gap wx (hxs.wf z hz) hd (hx z hz) w wy
      · have k := trIv_dates wx hp ht
        rw [e, sum_point hd] at k
        constructor
        · rintro ⟨y, hy, h⟩
          rcases List.mem_cons.1 hy with rfl | hy
          · exact ⟨x, by simp, k.1 h⟩
          · obtain ⟨z, hz, h⟩ := (h2 t ht).1 ⟨y, hy, h⟩
            exact ⟨z, by simp [hz], h⟩
        · rintro ⟨z, hz, h⟩
          rcases List.mem_cons.1 hz with rfl | hz
          · exact ⟨_, by simp, k.2 h⟩
          · obtain ⟨y, hy, h⟩ := (h2 t ht).2 ⟨z, hz, h⟩
            exact ⟨y, by simp [hy], h⟩
    · rw [List.map_cons, trIv_none wx hp c, List.takeWhile_cons_of_neg (by decide)]
      refine ⟨Canon_nil, fun t ht => ⟨fun ⟨_, h, _⟩ => (by cases h), ?_⟩⟩
      rintro ⟨z, hz, h⟩
      exfalso
      apply c
      rw [hasSum_point hd]
      rcases h0 with h0 | h0
      case inr => exact h0 x (by simp)
      rcases List.mem_cons.1 hz with rfl | hz
      · exact ⟨t, ht, h⟩
      · have := hx z hz
        have wz := hxs.wf z hz
        obtain ⟨a1, a2, a3, a4, a5⟩ := wx
        obtain ⟨b1, b2, b3, b4, b5⟩ := wz
        simp only [InExt] at h ⊢
        refine ⟨max (-INF + 1) (x.upper + d), ?_, ?_⟩ <;> ticks

/-- C110 is violated by the translation iterator: towards the past, as soon as the first interval overflows as a whole, nothing at all is
yielded in a release build, whatever the other intervals. -/
theorem C110_iter_violated (x : Iv) (s : TSet) (d : Int) (hs : Canon (x :: s)) (hd : Date d)
    (h : ¬ ∃ t, Date t ∧ InExt (t - d) x) : TSet.translIter false d (x :: s) = .ok [] := by
  obtain ⟨wx, -, -⟩ := Canon_cons.1 hs
  rw [translIter_eq hd _ hs.wf, List.map_cons, trIv_none wx (wf_point hd) (fun c => h ((hasSum_point hd).1 c)),
    List.takeWhile_cons_of_neg (by decide)]

/-- C110 is violated: `s + d`, when all the intervals of a non-empty `s` overflow, has no date and is not reported as empty. -/
theorem C110_empty_violated (s : TSet) (d : Int) (hs : Canon s) (hd : Date d) (hne : s ≠ [])
    (h : ∀ i ∈ s, ¬ ∃ t, Date t ∧ InExt (t - d) i) :
    ∃ r, TSet.addTv false s d = .ok r ∧ (∀ t, Date t → ¬ InSet t r) ∧ TSet.isEmpty r = false := by
  obtain ⟨r, h1, h2, -, h4⟩ := C110_translate_partial s d hs hd
  refine ⟨r, h1, fun t ht hr => ?_, ?_⟩
  · obtain ⟨i, hi, h'⟩ := (h2 t ht).1 hr
    exact h i hi ⟨t, ht, h'⟩
  · match s, hne with
    | x :: xs, _ =>
      have := (h4 ⟨x, by simp, h x (by simp)⟩).1
      cases r with
      | nil => cases this
      | cons => rfl

/-- C110. `s + span` for any canonical set and span. In a release build it never panics, and is the canonical set of the representable dates
which are sums, whatever overflows. A debug build returns the same, and panics iff some interval of `s` overflows as a whole. -/
theorem C110_add_span (s : TSet) (sp : Iv) (hs : Canon s) (hsp : WF sp) :
    ∃ r, TSet.addSpan false s sp = .ok r ∧ Canon r ∧
      (∀ t, Date t → (InSet t r ↔ ∃ a b, InExtSet a s ∧ InExt b sp ∧ t = a + b)) ∧
      ((∀ i ∈ s, HasSum i sp) → TSet.addSpan true s sp = .ok r) ∧
      ((∃ i ∈ s, ¬ HasSum i sp) → TSet.addSpan true s sp = .error .debugAssert) := by
  have hl : ∀ y ∈ s.map (trIv sp), WF y ∨ y = Iv.empty := by
    intro y hy
    obtain ⟨i, hi, rfl⟩ := List.mem_map.1 hy
    by_cases c : HasSum i sp
    · exact Or.inl ((trIv_wf (hs.wf i hi) hsp).2 c)
    · exact Or.inr (trIv_none (hs.wf i hi) hsp c)
  have hwf : ∀ y ∈ (s.map (trIv sp)).filter (fun b => !b.isEmpty), WF y := by
    intro y hy
    obtain ⟨h1, h2⟩ := List.mem_filter.1 hy
    rcases hl y h1 with h | rfl
    · exact h
    · exact absurd h2 (by decide)
  have hpw : ((s.map (trIv sp)).filter (fun b => !b.isEmpty)).Pairwise (fun a b => a.lower ≤ b.upper) := by
    rw [List.pairwise_filter, List.pairwise_map]
    refine (canon_pair hs).imp ?_
    rintro a b ⟨h1, wa, wb⟩ ea eb
    have sa := (trIv_isEmpty wa hsp).1 (by simpa using ea)
    have sb := (trIv_isEmpty wb hsp).1 (by simpa using eb)
    rw [trIv_has wa hsp sa, trIv_has wb hsp sb]
    exact satIv_order wa wb hsp h1
  have e : TSet.addSpan false s sp = (s.map (trIv sp)).foldlM (fun r i => TSet.unionConvex r (.iv i)) [] :=
    foldlM_map_ok (F := fun r i => TSet.unionConvex r (.iv i)) (h := trIv sp)
      (fun i hi => addSpan_tr (hs.wf i hi) hsp) []
  obtain ⟨r, h1, h2, h3⟩ := TSet.foldlM_collect (fun r i => TSet.unionConvex r (.iv i))
    (fun r i hr hi h => TSet.unionConvex_step hr hi h) _ [] []
    Canon_nil (fun t => Iff.rfl) (by simp) hpw hwf
  rw [← foldlM_union_skip _ hl [] Canon_nil, ← e] at h1
  refine ⟨r, h1, h2, fun t ht => ?_, fun h => ?_, fun ⟨i, hi, h⟩ => ?_⟩
  · rw [h3]
    constructor
    · rintro (⟨_, h, _⟩ | ⟨y, hy, h⟩)
      · cases h
      · obtain ⟨i, hi, rfl⟩ := List.mem_map.1 (List.mem_filter.1 hy).1
        obtain ⟨a, b, ha, hb, e⟩ := (trIv_dates (hs.wf i hi) hsp ht).1 h
        exact ⟨a, b, ⟨i, hi, ha⟩, hb, e⟩
    · rintro ⟨a, b, ⟨i, hi, ha⟩, hb, e⟩
      have hd := (trIv_dates (hs.wf i hi) hsp ht).2 ⟨a, b, ha, hb, e⟩
      refine Or.inr ⟨_, List.mem_filter.2 ⟨List.mem_map.2 ⟨i, hi, rfl⟩, ?_⟩, hd⟩
      rw [(trIv_isEmpty (hs.wf i hi) hsp).2 ⟨t, ht, a, b, ha, hb, e⟩]
      rfl
  · rw [← h1, e]
    refine foldlM_map_ok (F := fun r i => TSet.unionConvex r (.iv i)) (h := trIv sp) (fun i hi => ?_) []
    rw [trIv_has (hs.wf i hi) hsp (h i hi)]
    exact addSpan_has true (hs.wf i hi) hsp (h i hi)
  · clear h1 h2 h3 e hpw hwf hl
    have : ∀ r : TSet, Canon r → s.foldlM (fun r i => do TSet.unionConvex r (.iv (← i.addSpan true sp))) r = .error .debugAssert := by
      induction s with
      | nil => cases hi
      | cons x xs ih =>
        intro r hr
        obtain ⟨wx, -, hxs⟩ := Canon_cons.1 hs
        rw [List.foldlM_cons]
        by_cases c : HasSum x sp
        · obtain ⟨r', k1, k2⟩ := unionConvex_canon hr ((hasSum_iff wx hsp).1 c)
          rw [addSpan_has true wx hsp c, ok_bind, k1, ok_bind]
          rcases List.mem_cons.1 hi with rfl | hi
          · exact absurd c h
          · exact ih hxs ⟨i, hi, h⟩ hi r' k2
        · rw [addSpan_none true wx hsp c]
          rfl
    exact this [] Canon_nil

/-- C110. `s - span` likewise, with differences. -/
theorem C110_sub_span (s : TSet) (sp : Iv) (hs : Canon s) (hsp : WF sp) :
    ∃ r, TSet.subSpan false s sp = .ok r ∧ Canon r ∧
      (∀ t, Date t → (InSet t r ↔ ∃ a b, InExtSet a s ∧ InExt b sp ∧ t = a - b)) ∧
      ((∀ i ∈ s, HasDiff i sp) → TSet.subSpan true s sp = .ok r) ∧
      ((∃ i ∈ s, ¬ HasDiff i sp) → TSet.subSpan true s sp = .error .debugAssert) := by
  obtain ⟨r, h1, h2, h3, h4, h5⟩ := C110_add_span s sp.neg hs hsp.neg
  simp only [hasDiff_iff]
  refine ⟨r, h1, h2, fun t ht => ?_, h4, h5⟩
  rw [h3 t ht]
  constructor
  · rintro ⟨a, b, ha, hb, e⟩
    exact ⟨a, -b, ha, inExt_neg.1 hb, by omega⟩
  · rintro ⟨a, b, ha, hb, e⟩
    exact ⟨a, -b, ha, by rw [inExt_neg, Int.neg_neg]; exact hb, by omega⟩

/-- C110 is violated by `s + spans` in a release build, each time the last sum overflows as a whole and the others do not: it is kept as an
empty interval, at the end. -/
theorem C110_add_spans_violated (s : TSet) (z x : Iv) (hs : Canon (s ++ [z])) (hx : WF x) (hne : s ≠ [])
    (h1 : ∀ i ∈ s, HasSum i x ∧ i.upper + x.upper + 1 < INF) (h2 : x.upper < INF) (h3 : ¬ HasSum z x) :
    ∃ r, TSet.addSpans false (s ++ [z]) [x] = .ok (r ++ [Iv.empty]) ∧ ¬ Canon (r ++ [Iv.empty]) := by
  have wf : ∀ i ∈ s, WF i := fun i hi => hs.wf i (by simp [hi])
  have wz := hs.wf z (by simp)
  obtain ⟨r, -, e2, e3⟩ := C38_collect_empty_violated (s.map (trIv x)) (fun y hy => by
    obtain ⟨i, hi, rfl⟩ := List.mem_map.1 hy
    exact (trIv_wf (wf i hi) hx).2 (h1 i hi).1) (by simpa using hne) (fun y hy => by
    obtain ⟨i, hi, rfl⟩ := List.mem_map.1 hy
    have := h1 i hi
    have := (List.pairwise_append.1 (UnionIter.ends_increase hs)).2.2 i hi z (by simp)
    have := wz.hi
    have := (wf i hi).lt_hi
    have := hx.lt_hi
    rw [trIv_has (wf i hi) hx (h1 i hi).1]
    simp only [satIv, round]
    repeat' split
    all_goals ticks)
  refine ⟨r, ?_, e3⟩
  have e : TSet.pairs (s ++ [z]) [x] = (s ++ [z]).map (fun i => (i, x)) := by
    simp only [TSet.pairs, List.map_cons, List.map_nil]
    generalize s ++ [z] = l
    induction l with
    | nil => rfl
    | cons y ys ih => rw [List.flatMap_cons, List.map_cons, ih]; rfl
  rw [TSet.addSpans, e, mapM_ok (h := fun p : Iv × Iv => trIv p.2 p.1) (fun p hp => by
    obtain ⟨i, hi, rfl⟩ := List.mem_map.1 hp
    exact addSpan_tr (hs.wf i hi) hx)]
  rw [List.map_map, List.map_append, List.map_cons, List.map_nil]
  simp only [Function.comp_apply]
  rw [trIv_none wz hx h3]
  exact e2

example : Canon ([⟨INF - 10, INF - 9⟩] ++ [⟨INF - 5, INF - 4⟩]) ∧ WF ⟨6, 6⟩ ∧ (INF - 9 : Int) + 6 + 1 < INF ∧
    TSet.addSpans false [⟨INF - 10, INF - 9⟩, ⟨INF - 5, INF - 4⟩] [⟨6, 6⟩] = .ok [⟨INF - 4, INF - 3⟩, Iv.empty] ∧
    TSet.addSpan false [⟨INF - 10, INF - 9⟩, ⟨INF - 5, INF - 4⟩] ⟨6, 6⟩ = .ok [⟨INF - 4, INF - 3⟩] := by decide +kernel

example : Canon [⟨INF - 10, INF - 9⟩, ⟨INF - 5, INF - 4⟩] ∧ WF ⟨6, 6⟩ ∧
    TSet.addTv false [⟨INF - 10, INF - 9⟩, ⟨INF - 5, INF - 4⟩] 6 = .ok [⟨INF - 4, INF - 3⟩, Iv.empty] ∧
    TSet.translIter false 6 [⟨INF - 10, INF - 9⟩, ⟨INF - 5, INF - 4⟩] = .ok [⟨INF - 4, INF - 3⟩] ∧
    TSet.translIter false (-6) [⟨-INF + 3, -INF + 4⟩, ⟨0, 1⟩] = .ok [] ∧
    (∃ t, Date t ∧ InExt (t - (-6)) ⟨-INF + 3, -INF + 8⟩) ∧
    TSet.translIter false (-6) [⟨-INF + 3, -INF + 8⟩, ⟨0, 1⟩] = .ok [⟨-INF, -INF + 2⟩, ⟨-6, -5⟩] := by
  refine ⟨by decide, by decide, by decide +kernel, by decide +kernel, by decide +kernel, ⟨-INF + 1, by decide, by decide⟩, by decide +kernel⟩

/-! ## C83 decided for all operands -/

theorem addAssignSpan_sat {i s : Iv} (hi : WF i) (hs : WF s) :
    i.addAssignSpan s = if (satIv i s).lower != (satIv i s).upper || !isFinite (satIv i s).lower
      then .ok (satIv i s) else .error .assertFail := by
  have e0 := addSpan_bounds hi hs
  simp only [Iv.addAssignSpan, e0.1, e0.2]
  rfl

/-- when the bounds of a sum are the same finite date -/
theorem satIv_point {i s : Iv} (hi : WF i) (hs : WF s) :
    ((satIv i s).lower = (satIv i s).upper ∧ Date (satIv i s).lower) ↔
      i.lower = i.upper ∧ s.lower = s.upper ∧ Date (i.lower + s.lower) := by
  obtain ⟨h1, h2, h3, h4, h5⟩ := hi
  obtain ⟨g1, g2, g3, g4, g5⟩ := hs
  simp only [satIv, round]
  repeat' split
  all_goals ticks

theorem addAssignSpan_error {i s : Iv} (hi : WF i) (hs : WF s) (e : Panic) :
    i.addAssignSpan s = .error e ↔
      e = .assertFail ∧ i.lower = i.upper ∧ s.lower = s.upper ∧ Date (i.lower + s.lower) := by
  rw [addAssignSpan_sat hi hs, ← satIv_point hi hs]
  obtain ⟨b1, b2, b3, -⟩ := satIv_bounds hi hs
  generalize satIv i s = j at *
  by_cases c : j.lower = j.upper ∧ Date j.lower
  · have hf : isFinite j.lower = true := isFinite_iff.2 (by ticks)
    rw [if_neg (by simp [c.1]; rw [← c.1]; exact hf)]
    constructor
    · intro h; exact ⟨(Except.error.inj h).symm, c⟩
    · rintro ⟨rfl, -⟩; rfl
  · rw [if_pos]
    · exact ⟨fun h => (nomatch h), fun h => absurd h.2 c⟩
    · simp only [Bool.or_eq_true, bne_iff_ne, Bool.not_eq_true']
      by_cases c1 : j.lower = j.upper
      · right
        cases hf : isFinite j.lower with
        | false => rfl
        | true =>
          have := isFinite_iff.1 hf
          exact absurd ⟨c1, by ticks⟩ c
      · exact Or.inl c1

/-- C83, decided for all intervals and spans: `i += span` panics exactly when both are single dates whose sum is a representable date (where
`i + span` is this date). Otherwise, if there is a representable sum, it leaves in `i` what `i + span` returns. (If there is none, see
`C109_assign_violated`.) -/
theorem C83_exact (dbg : Bool) (i s : Iv) (hi : WF i) (hs : WF s) :
    (∀ e, i.addAssignSpan s = .error e ↔
      e = .assertFail ∧ i.lower = i.upper ∧ s.lower = s.upper ∧ Date (i.lower + s.lower)) ∧
    (∀ e, i.subAssignSpan s = .error e ↔
      e = .assertFail ∧ i.lower = i.upper ∧ s.lower = s.upper ∧ Date (i.lower - s.lower)) ∧
    (HasSum i s → ∀ j, i.addAssignSpan s = .ok j → i.addSpan dbg s = .ok j) ∧
    (HasDiff i s → ∀ j, i.subAssignSpan s = .ok j → i.subSpan dbg s = .ok j) := by
  have add : ∀ s, WF s → HasSum i s → ∀ j, i.addAssignSpan s = .ok j → i.addSpan dbg s = .ok j := by
    intro s hs h j hj
    rw [addSpan_has dbg hi hs h]
    rw [addAssignSpan_sat hi hs] at hj
    split at hj
    · exact hj
    · exact nomatch hj
  refine ⟨fun e => addAssignSpan_error hi hs e, fun e => ?_, add s hs, fun h => ?_⟩
  · have := addAssignSpan_error hi hs.neg e
    have e1 : i.subAssignSpan s = i.addAssignSpan s.neg := rfl
    rw [e1, this]
    simp only [Iv.neg]
    constructor
    · rintro ⟨h1, h2, h3, h4⟩
      exact ⟨h1, h2, by omega, by rwa [show i.lower - s.lower = i.lower + -s.upper by omega]⟩
    · rintro ⟨h1, h2, h3, h4⟩
      exact ⟨h1, h2, by omega, by rwa [show i.lower + -s.upper = i.lower - s.lower by omega]⟩
  · rw [hasDiff_iff] at h
    rw [subSpan_eq]
    exact add s.neg hs.neg h

/-- C83, decided for sets: `s += d` panics exactly when an interval of `s` is a single date which `d` moves to a representable date; `s -= d`
likewise. Otherwise, if no interval overflows as a whole, it leaves in `s` what `s + d` returns. -/
theorem C83_set_exact (dbg : Bool) (s : TSet) (d : Int) (hs : Canon s) (hd : Date d) :
    ((∃ e, TSet.addAssignTv s d = .error e) ↔ ∃ i ∈ s, i.lower = i.upper ∧ Date (i.lower + d)) ∧
    ((∃ e, TSet.subAssignTv s d = .error e) ↔ ∃ i ∈ s, i.lower = i.upper ∧ Date (i.lower - d)) ∧
    ((∀ i ∈ s, HasSum i ⟨d, d⟩) → ∀ r, TSet.addAssignTv s d = .ok r → TSet.addTv dbg s d = .ok r) ∧
    ((∀ i ∈ s, HasDiff i ⟨d, d⟩) → ∀ r, TSet.subAssignTv s d = .ok r → TSet.subTv dbg s d = .ok r) := by
  have err : ∀ (f : Iv → Res Iv) (l : TSet), (∃ e, l.mapM f = .error e) ↔ ∃ i ∈ l, ∃ e, f i = .error e := by
    intro f l
    induction l with
    | nil => simp [pure, Except.pure]
    | cons x xs ih =>
      cases hx : f x with
      | error e =>
        have : (x :: xs).mapM f = .error e := by simp only [List.mapM_cons, hx]; rfl
        exact ⟨fun _ => ⟨x, by simp, e, hx⟩, fun _ => ⟨e, this⟩⟩
      | ok y =>
        cases hxs : xs.mapM f with
        | error e =>
          have e1 : (x :: xs).mapM f = .error e := by simp only [List.mapM_cons, hx, hxs]; rfl
          obtain ⟨i, hi, he⟩ := ih.1 ⟨e, hxs⟩
          exact ⟨fun _ => ⟨i, by simp [hi], he⟩, fun _ => ⟨e, e1⟩⟩
        | ok ys =>
          have e1 : (x :: xs).mapM f = .ok (y :: ys) := by simp only [List.mapM_cons, hx, hxs]; rfl
          rw [e1]
          constructor
          · rintro ⟨e, h⟩; exact nomatch h
          · rintro ⟨i, hi, e, he⟩
            rcases List.mem_cons.1 hi with rfl | hi'
            · rw [hx] at he; exact nomatch he
            · obtain ⟨e', h'⟩ := ih.2 ⟨i, hi', e, he⟩
              rw [hxs] at h'; exact nomatch h'
  have same : ∀ (f g : Iv → Res Iv) (l : TSet), (∀ i ∈ l, ∀ j, f i = .ok j → g i = .ok j) →
      ∀ r, l.mapM f = .ok r → l.mapM g = .ok r := by
    intro f g l
    induction l with
    | nil => intro _ r h; exact h
    | cons x xs ih =>
      intro h r hr
      simp only [List.mapM_cons] at hr ⊢
      cases e1 : f x with
      | error e => rw [e1] at hr; exact nomatch hr
      | ok y =>
        cases e2 : xs.mapM f with
        | error e => rw [e1, ok_bind, e2] at hr; exact nomatch hr
        | ok ys =>
          rw [h x (by simp) y e1, ih (fun i hi => h i (by simp [hi])) ys e2]
          rw [e1, e2] at hr
          exact hr
  have ex := fun i hi => C83_exact dbg i ⟨d, d⟩ (hs.wf i hi) (wf_point hd)
  refine ⟨(err _ s).trans ?_, (err _ s).trans ?_, fun h => same _ _ s fun i hi => (ex i hi).2.2.1 (h i hi),
    fun h => same _ _ s fun i hi => (ex i hi).2.2.2 (h i hi)⟩
  · constructor
    · rintro ⟨i, hi, e, he⟩
      obtain ⟨-, h1, -, h2⟩ := ((ex i hi).1 e).1 he
      exact ⟨i, hi, h1, h2⟩
    · rintro ⟨i, hi, h1, h2⟩
      exact ⟨i, hi, _, ((ex i hi).1 _).2 ⟨rfl, h1, rfl, h2⟩⟩
  · constructor
    · rintro ⟨i, hi, e, he⟩
      obtain ⟨-, h1, -, h2⟩ := ((ex i hi).2.1 e).1 he
      exact ⟨i, hi, h1, h2⟩
    · rintro ⟨i, hi, h1, h2⟩
      exact ⟨i, hi, _, ((ex i hi).2.1 _).2 ⟨rfl, h1, rfl, h2⟩⟩

example : Canon [⟨0, 5⟩, ⟨8, 8⟩] ∧ Date 3 ∧ TSet.addAssignTv [⟨0, 5⟩, ⟨8, 8⟩] 3 = .error .assertFail ∧
    TSet.addAssignTv [⟨0, 5⟩, ⟨8, 9⟩] 3 = .ok [⟨3, 8⟩, ⟨11, 12⟩] ∧ Iv.addAssignSpan ⟨8, 8⟩ ⟨1, 2⟩ = .ok ⟨9, 10⟩ ∧
    Iv.subAssignSpan ⟨8, 8⟩ ⟨1, 1⟩ = .error .assertFail := by decide

/-! ## C85 decided for all translations -/

/-- C85, decided for every translation: `s.translation(d)` yields the intervals of `s + d` up to the first interval of `s` which overflows as a
whole, if any; there the iteration stops in a release build, and panics in a debug build. -/
theorem C85_translation_exact (s : TSet) (d : Int) (hs : Canon s) (hd : Date d) :
    ∃ (k : Nat) (r : TSet), k ≤ s.length ∧ TSet.addTv false (s.take k) d = .ok r ∧ TSet.translIter false d s = .ok r ∧
      (∀ i ∈ s.take k, HasSum i ⟨d, d⟩) ∧
      (∀ x, s[k]? = some x → ¬ HasSum x ⟨d, d⟩ ∧ TSet.translIter true d s = .error .debugAssert) ∧
      (k = s.length → TSet.translIter true d s = .ok r) := by
  have hp := wf_point hd
  have hw := hs.wf
  clear hs
  induction s with
  | nil => exact ⟨0, [], Nat.le_refl _, rfl, rfl, by simp, by simp, fun _ => rfl⟩
  | cons x xs ih =>
    have wx := hw x (by simp)
    by_cases c : HasSum x ⟨d, d⟩
    · obtain ⟨k, r, h1, h2, h3, h4, h5, h6⟩ := ih (fun i hi => hw i (by simp [hi]))
      have w := (hasSum_iff wx hp).1 c
      have e : ∀ dbg, x.addTv dbg d = .ok (satIv x ⟨d, d⟩) := fun dbg => addSpan_has dbg wx hp c
      refine ⟨k + 1, satIv x ⟨d, d⟩ :: r, by simpa using h1, ?_, ?_, ?_, ?_, ?_⟩
      · rw [List.take_succ_cons]
        rw [TSet.addTv] at h2
        simp only [TSet.addTv, List.mapM_cons, e, h2]
        rfl
      · rw [TSet.translIter, e, ok_bind, w.not_isEmpty, h3]; rfl
      · intro i hi
        rw [List.take_succ_cons] at hi
        rcases List.mem_cons.1 hi with rfl | hi'
        · exact c
        · exact h4 i hi'
      · intro y hy
        rw [List.getElem?_cons_succ] at hy
        obtain ⟨g1, g2⟩ := h5 y hy
        exact ⟨g1, by rw [TSet.translIter, e, ok_bind, w.not_isEmpty, g2]; rfl⟩
      · intro hk
        have := h6 (by simpa using hk)
        rw [TSet.translIter, e, ok_bind, w.not_isEmpty, this]; rfl
    · have e1 : x.addTv false d = .ok Iv.empty := addSpan_none false wx hp c
      have e2 : x.addTv true d = .error .debugAssert := addSpan_none true wx hp c
      refine ⟨0, [], Nat.zero_le _, rfl, ?_, by simp, ?_, fun h => by simp at h⟩
      · rw [TSet.translIter, e1]; rfl
      · intro y hy
        rw [List.getElem?_cons_zero] at hy
        cases hy
        exact ⟨c, by rw [TSet.translIter, e2]; rfl⟩

example : Canon [⟨INF - 20, INF - 15⟩, ⟨INF - 10, INF - 9⟩, ⟨INF - 5, INF - 4⟩] ∧
    TSet.translIter false 9 [⟨INF - 20, INF - 15⟩, ⟨INF - 10, INF - 9⟩, ⟨INF - 5, INF - 4⟩] = .ok [⟨INF - 11, INF - 6⟩, ⟨INF - 1, INF⟩] ∧
    TSet.translIter true 9 [⟨INF - 20, INF - 15⟩, ⟨INF - 10, INF - 9⟩, ⟨INF - 5, INF - 4⟩] = .error .debugAssert := by decide +kernel

end Chrono
