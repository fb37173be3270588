import Verif.Lemmas.FloatSet

set_option linter.unusedSimpArgs false

/-!
# Properties of intervals and sets scaled by floats (C99)
-/

namespace Chrono
open Spec Fl

/-- C99. An interval times any float (NaN and infinities included) is the smallest interval holding the products
of its points, and it is well formed; it panics exactly when all these products overflow on the same side. -/
theorem C99_interval (F : FTy) (f : Fl) (i : Iv) (h : WF i) :
    (∀ j, i.mulF F f = .ok j → WF j ∧ (∀ t, InIv t i → InIv (tvMulF F t f) j) ∧
      ∃ a b, InIv a i ∧ InIv b i ∧ j.lower = tvMulF F a f ∧ j.upper = tvMulF F b f) ∧
    (∀ e, i.mulF F f = .error e → (∀ t, InIv t i → tvMulF F t f = INF) ∨ (∀ t, InIv t i → tvMulF F t f = -INF)) ∧
    ((∀ t, InIv t i → tvMulF F t f = INF) ∨ (∀ t, InIv t i → tvMulF F t f = -INF) →
      i.mulF F f = .error .assertFail) :=
  mulF_spec F f i h

/-- C99. An interval divided by any float is well formed and is the smallest interval holding the quotients of
its points, unless it panics. -/
theorem C99_interval_div (F : FTy) (f : Fl) (i j : Iv) (h : WF i) (hj : i.divF F f = .ok j) :
    WF j ∧ (∀ t, InIv t i → InIv (tvDivF F t f) j) ∧
      ∃ a b, InIv a i ∧ InIv b i ∧ j.lower = tvDivF F a f ∧ j.upper = tvDivF F b f := by
  rcases divF_eq F i f h with e | ⟨hf, e⟩ | ⟨e, e'⟩
  · exact (mulF_spec F (recip F f) i h).1 j (by rw [← e]; exact hj)
  · rw [e] at hj
    split at hj
    · rename_i hi
      injection hj with hj
      subst hj hi hf
      have z : tvDivF F 0 (.fin true 0) = 0 := by
        simp only [tvDivF, recip, if_true]; rw [tvMulF_inf F (by decide)]; rfl
      refine ⟨h, fun t ht => ?_, 0, 0, by decide, by decide, z.symm, z.symm⟩
      have : t = 0 := by simp only [InIv] at ht; omega
      subst this
      rw [z]; decide
    · cases hj
  · rw [e, ← e'] at hj
    exact (mulF_spec F (recip F f) i h).1 j hj

/-- C99, partial: an interval divided by any float but `-0.0` panics only when all the quotients of its points
overflow on the same side. Missing: `-0.0`, see `C99_violated`. -/
theorem C99_interval_div_panic_partial (F : FTy) (f : Fl) (i : Iv) (h : WF i) (hf : f ≠ .fin true 0) (e : Panic)
    (he : i.divF F f = .error e) :
    (∀ t, InIv t i → tvDivF F t f = INF) ∨ (∀ t, InIv t i → tvDivF F t f = -INF) := by
  rcases divF_eq F i f h with e' | ⟨h', -⟩ | ⟨e', -⟩
  · exact (mulF_spec F (recip F f) i h).2.1 e (by rw [← e']; exact he)
  · exact absurd h' hf
  · rw [e'] at he; cases he

/-- C99. A set times or divided by any float, unless it panics, holds exactly the points between the products
(quotients) of two points of one of its intervals, in particular all the products; for the operators
`*`, `*=`, `/`, `/=`. -/
theorem C99_sets_points (F : FTy) (f : Fl) (s r : TSet) (hs : Canon s) :
    (TSet.mulF F s f = .ok r ∨ TSet.mulAssignF F s f = .ok r →
      ∀ q, InSet q r ↔ ∃ i ∈ s, ∃ a b, InIv a i ∧ InIv b i ∧ tvMulF F a f ≤ q ∧ q ≤ tvMulF F b f) ∧
    (TSet.divF F s f = .ok r ∨ TSet.divAssignF F s f = .ok r →
      ∀ q, InSet q r ↔ ∃ i ∈ s, ∃ a b, InIv a i ∧ InIv b i ∧ tvDivF F a f ≤ q ∧ q ≤ tvDivF F b f) := by
  refine ⟨fun h => ?_, fun h => ?_⟩
  · rcases h with h | h
    · exact (mulF_cases hs h).1
    · exact (mulF_cases hs h).1
  · rcases h with h | h
    · exact (mulF_cases (f := recip F f) hs h).1
    · exact (mulF_cases (f := recip F f) hs h).1

/-- C99. The four operators on sets panic only if one of the intervals does. -/
theorem C99_sets_panic (F : FTy) (f : Fl) (s : TSet) :
    ((∀ i ∈ s, ∃ j, i.mulF F f = .ok j) → (∃ r, TSet.mulF F s f = .ok r) ∧ ∃ r, TSet.mulAssignF F s f = .ok r) ∧
    ((∀ i ∈ s, ∃ j, i.mulF F (recip F f) = .ok j) →
      (∃ r, TSet.divF F s f = .ok r) ∧ ∃ r, TSet.divAssignF F s f = .ok r) := by
  have key : ∀ f, (∀ i ∈ s, ∃ j, i.mulF F f = .ok j) →
      (∃ r, TSet.mulF F s f = .ok r) ∧ ∃ r, TSet.mulAssignF F s f = .ok r := by
    intro f h
    have hm : s.mapM (fun tw => tw.mulF F f) = .ok (s.map (imgIv F f)) := mapM_ok fun i hi => by
      obtain ⟨j, hj⟩ := h i hi
      rw [mulF_eq] at hj ⊢
      split at hj
      · cases hj
      · rename_i c; rw [if_neg c]
    constructor
    · exact ⟨_, by rw [TSet.mulF, hm]; rfl⟩
    · exact ⟨_, by rw [TSet.mulAssignF, hm]; rfl⟩
  exact ⟨key f, key (recip F f)⟩

/-- C99, partial: `s *= f` is in canonical form if `|f| < 1`, and `s * f` if `|f| > 1`. Missing: the other cases,
see `C99_violated`. -/
theorem C99_sets_canonical_partial (F : FTy) (f : Fl) (s r : TSet) (hs : Canon s) :
    (SmallF F f → TSet.mulAssignF F s f = .ok r → Canon r) ∧
    (BigF F f → TSet.mulF F s f = .ok r → Canon r) :=
  ⟨fun c h => (mulF_cases hs h).2 (smallF_iff.1 c), fun c h => (mulF_cases hs h).2 (bigF_iff.1 c)⟩

/-- C99 is violated: `s * 0.5` keeps touching intervals that `s *= 0.5` merges, so the two are not equal;
`s *= 1.0` leaves overlapping intervals beyond `2^53` ticks (97 days); `s *= NaN` repeats `{0}`;
`[-1,1] / -0.0` panics although the quotients are `+oo`, `0` and `-oo`. -/
theorem C99_violated :
    Canon [⟨0, 1⟩, ⟨3, 4⟩] ∧ TSet.mulF .f64 [⟨0, 1⟩, ⟨3, 4⟩] (.fin false (2 ^ 1073)) = .ok [⟨0, 0⟩, ⟨1, 2⟩] ∧
    ¬ Canon [⟨0, 0⟩, ⟨1, 2⟩] ∧ TSet.mulAssignF .f64 [⟨0, 1⟩, ⟨3, 4⟩] (.fin false (2 ^ 1073)) = .ok [⟨0, 2⟩] ∧
    Canon [⟨0, 2 ^ 54⟩, ⟨2 ^ 54 + 2, 2 ^ 54 + 8⟩] ∧
    TSet.mulAssignF .f64 [⟨0, 2 ^ 54⟩, ⟨2 ^ 54 + 2, 2 ^ 54 + 8⟩] (wholeF .f64 1) =
      .ok [⟨0, 2 ^ 54⟩, ⟨2 ^ 54, 2 ^ 54 + 8⟩] ∧
    TSet.mulAssignF .f64 [⟨0, 1⟩, ⟨3, 4⟩] .nan = .ok [⟨0, 0⟩, ⟨0, 0⟩] ∧
    Iv.divF .f64 ⟨-1, 1⟩ (.fin true 0) = .error .assertFail ∧ tvDivF .f64 (-1) (.fin true 0) = INF ∧
    tvDivF .f64 1 (.fin true 0) = -INF := by
  refine ⟨by decide, by decide +kernel, by decide, by decide +kernel, by decide, by decide +kernel, by decide +kernel,
    by decide +kernel, by decide +kernel, by decide +kernel⟩

/-- C99 is violated by NaN: every set times NaN is `{0}` repeated as many times as it has intervals, which is not canonical from two
intervals on. -/
theorem C99_nan_violated (F : FTy) (s : TSet) (hs : Canon s) :
    TSet.mulF F s .nan = .ok (List.replicate s.length ⟨0, 0⟩) ∧ TSet.mulAssignF F s .nan = .ok (List.replicate s.length ⟨0, 0⟩) ∧
    (2 ≤ s.length → ¬ Canon (List.replicate s.length ⟨0, 0⟩)) := by
  have key : s.mapM (fun i => i.mulF F .nan) = .ok (List.replicate s.length ⟨0, 0⟩) := by
    have hw := hs.wf
    clear hs
    induction s with
    | nil => rfl
    | cons x xs ih =>
      have w := hw x (by simp)
      have l1 : Legal x.lower := ⟨w.lo, Int.le_of_lt w.lo_lt⟩
      have l2 : Legal x.upper := ⟨Int.le_of_lt w.lt_hi, w.hi⟩
      rw [List.mapM_cons, ih (fun i hi => hw i (by simp [hi]))]
      have e : x.mulF F .nan = .ok ⟨0, 0⟩ := by
        unfold Iv.mulF
        simp only [lt, tvMulF_nan F l1, tvMulF_nan F l2]
        decide
      rw [e]
      rfl
  refine ⟨?_, ?_, fun h c => ?_⟩
  · unfold TSet.mulF; rw [key]; simp only [ok_bind, lt, abs]; rfl
  · unfold TSet.mulAssignF; rw [key]; simp only [ok_bind, lt, abs]; rfl
  · obtain ⟨n, e⟩ : ∃ n, s.length = n + 2 := ⟨s.length - 2, by omega⟩
    rw [e, List.replicate_succ, List.replicate_succ] at c
    have := (Canon_cons.1 c).2.1
    revert this
    simp

/-- C99 is violated by `-0.0`: an interval with negative and positive durations divided by it panics, although the quotients are `+oo` and
`-oo`. -/
theorem C99_zero_violated (F : FTy) (i : Iv) (h : WF i) (hl : i.lower < 0) (hu : 0 < i.upper) :
    i.divF F (.fin true 0) = .error .assertFail ∧ tvDivF F i.lower (.fin true 0) = INF ∧
      tvDivF F i.upper (.fin true 0) = -INF := by
  have e1 : tvDivF F i.lower (.fin true 0) = INF := by
    unfold tvDivF; simp only [recip, if_true]; rw [tvMulF_inf F (⟨h.lo, Int.le_of_lt h.lo_lt⟩ : Legal i.lower)]; simp [hl]; omega
  have e2 : tvDivF F i.upper (.fin true 0) = -INF := by
    unfold tvDivF; simp only [recip, if_true]; rw [tvMulF_inf F (⟨Int.le_of_lt h.lt_hi, h.hi⟩ : Legal i.upper)]; simp; omega
  refine ⟨?_, e1, e2⟩
  unfold Iv.divF
  have : lt (.fin true 0) zero = false := by decide
  rw [this]
  simp only [e1, Bool.false_eq_true, if_false]
  rfl

example : Canon [⟨0, 1⟩, ⟨3, 4⟩] ∧ WF ⟨-1, 1⟩ := by decide

/-- C85, floats: `i.scaling(f)` yields the products of all the intervals of `i`, in order, and nothing else; it panics
exactly when one of these products does. -/
theorem C85_float (F : FTy) (f : Fl) (s : TSet) (hs : Canon s) :
    TSet.scaleIterF F f s = s.mapM (fun i => i.mulF F f) := by
  induction s with
  | nil => rfl
  | cons x xs ih =>
    rw [TSet.scaleIterF, List.mapM_cons, ih (Canon_cons.1 hs).2.2]
    cases e : x.mulF F f with
    | error e => rfl
    | ok j =>
      have w := ((mulF_spec F f x (hs.wf x (by simp))).1 j e).1
      rw [ok_bind, ok_bind, w.not_isEmpty]
      rfl

/-- C104 is violated by floats: `scaling(0.5)` yields intervals without a date between them, and the complement of the
iterator then has a date of it; `scaling(-1.0)` yields them in the wrong order. -/
theorem C104_float_violated :
    TSet.scaleIterF .f64 (.fin false (2 ^ 1073)) [⟨0, 1⟩, ⟨3, 4⟩] = .ok [⟨0, 0⟩, ⟨1, 2⟩] ∧
    (ComplIter.new [⟨0, 0⟩, ⟨1, 2⟩]).drain = [⟨-INF, -1⟩, ⟨1, INF⟩] ∧
    TSet.scaleIterF .f64 (wholeF .f64 (-1)) [⟨0, 1⟩, ⟨3, 4⟩] = .ok [⟨-1, 0⟩, ⟨-4, -3⟩] := by
  refine ⟨by decide +kernel, by decide +kernel, by decide +kernel⟩

example : Canon [⟨0, 1⟩, ⟨3, 4⟩] ∧
    TSet.scaleIterF .f64 (wholeF .f64 3) [⟨0, 1⟩, ⟨3, 4⟩] = .ok [⟨0, 3⟩, ⟨9, 12⟩] ∧
    TSet.scaleIterF .f64 (wholeF .f64 4) [⟨0, 1⟩, ⟨2 ^ 62, 2 ^ 62 + 5⟩] = .error .assertFail := by
  refine ⟨by decide, by decide +kernel, by decide +kernel⟩

example : WF ⟨-3, 7⟩ ∧ Iv.mulF .f64 ⟨-3, 7⟩ (wholeF .f64 (-2)) = .ok ⟨-14, 6⟩ ∧
    Iv.divF .f64 ⟨-3, 7⟩ (wholeF .f64 2) = .ok ⟨-1, 3⟩ ∧ Canon [⟨-INF, 4⟩, ⟨10, 20⟩] ∧
    TSet.mulF .f32 [⟨-INF, 4⟩, ⟨10, 20⟩] (wholeF .f32 3) = .ok [⟨-INF, 12⟩, ⟨30, 60⟩] ∧
    BigF .f32 (wholeF .f32 3) ∧ SmallF .f64 (Fl.fin false (2 ^ 1073)) ∧
    Iv.mulF .f64 ⟨2 ^ 62, 2 ^ 62 + 5⟩ (wholeF .f64 4) = .error .assertFail := by
  refine ⟨by decide, by decide +kernel, by decide +kernel, by decide, by decide +kernel, bigF_iff.2 (by decide +kernel),
    smallF_iff.2 (by decide +kernel), by decide +kernel⟩

end Chrono
