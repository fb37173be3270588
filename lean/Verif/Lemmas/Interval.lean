import Verif.Lemmas.TimeValue
import Verif.Model.TimeSet

namespace Chrono
open Spec

/-- a well-formed interval contains a date -/
theorem Spec.WF.exists_date {i : Iv} (h : WF i) : ∃ t, Date t ∧ InIv t i := by
  obtain ⟨h1, h2, h3, h4, h5⟩ := h
  by_cases hl : i.lower = -INF
  · by_cases hu : i.upper = INF
    · exact ⟨0, by decide, by simp only [InIv, hl, hu]; decide⟩
    · exact ⟨i.upper, ⟨h5, by omega⟩, h1, Int.le_refl _⟩
  · exact ⟨i.lower, ⟨by omega, h4⟩, Int.le_refl _, h1⟩

theorem empty_no_date {t : Int} (h : Date t) : ¬ InIv t Iv.empty := by
  intro h'; have := h'.1; simp only [Iv.empty] at this; ticks

theorem Iv.isEmpty_iff {i : Iv} : i.isEmpty = true ↔ i.lower = INF := isFutureInfinite_iff

theorem Spec.WF.not_isEmpty {i : Iv} (h : WF i) : i.isEmpty = false := by
  rw [← Bool.not_eq_true, Iv.isEmpty_iff]; have := h.lo_lt; omega

/-- What a proper window is: empty, with the conventional bounds, or well formed. -/
theorem Spec.Proper.cases {w : Convex} (h : Proper w) :
    (w.isEmpty = true ∧ w.lower = INF ∧ w.upper = -INF ∧ w.into = Iv.empty ∧
      ∀ t, Date t → ¬ InConvex t w) ∨
    (w.isEmpty = false ∧ WF ⟨w.lower, w.upper⟩ ∧ w.into = ⟨w.lower, w.upper⟩ ∧
      ∀ t, Date t → (InConvex t w ↔ w.lower ≤ t ∧ t ≤ w.upper)) := by
  cases w with
  | iv i =>
    rcases h with h | h
    · right; exact ⟨h.not_isEmpty, h, rfl, fun t _ => Iff.rfl⟩
    · left; subst h; exact ⟨rfl, rfl, rfl, rfl, fun t ht => empty_no_date ht⟩
  | point p =>
    right
    have h : Date p := h
    refine ⟨rfl, ?_, ?_, fun t _ => ?_⟩
    · constructor <;> simp only [Convex.lower, Convex.upper] <;> ticks
    · simp [Convex.into, Convex.lower, Convex.upper, Iv.singleton, isFinite_iff.2 (show p ≠ INF ∧ p ≠ -INF by ticks)]
    · simp only [InConvex, Convex.lower, Convex.upper]; omega
  | range a b =>
    have h : -INF ≤ a ∧ a < INF ∧ -INF + 1 < b ∧ b ≤ INF := h
    by_cases hab : a < b
    · right
      simp only [Convex.isEmpty, Convex.lower, Convex.upper, Convex.into, hab, if_true, InConvex,
        justBefore_eq]
      refine ⟨by simp, ?_, trivial, fun t ht => ?_⟩
      · split <;> constructor <;> simp only <;> ticks
      · split <;> ticks
    · left
      simp only [Convex.isEmpty, Convex.lower, Convex.upper, Convex.into, hab, if_false, InConvex]
      exact ⟨by simp, trivial, trivial, rfl, fun t _ => by omega⟩
  | rangeFrom a =>
    have h : -INF ≤ a ∧ a < INF := h
    right
    simp only [Convex.isEmpty, Convex.lower, Convex.upper, Convex.into, InConvex]
    exact ⟨trivial, by constructor <;> simp only <;> ticks, trivial, fun t ht => by ticks⟩
  | rangeIncl a b =>
    have h : -INF ≤ a ∧ a < INF ∧ -INF < b ∧ b ≤ INF := h
    by_cases hab : a ≤ b
    · right
      simp only [Convex.isEmpty, Convex.lower, Convex.upper, Convex.into, hab, if_true, InConvex]
      exact ⟨by simp, by constructor <;> simp only <;> ticks, trivial, fun t ht => by ticks⟩
    · left
      simp only [Convex.isEmpty, Convex.lower, Convex.upper, Convex.into, hab, if_false, InConvex]
      exact ⟨by simp, trivial, trivial, rfl, fun t _ => by omega⟩
  | rangeTo b =>
    have h : -INF + 1 < b ∧ b ≤ INF := h
    right
    simp only [Convex.isEmpty, Convex.lower, Convex.upper, Convex.into, InConvex, justBefore_eq]
    refine ⟨trivial, ?_, trivial, fun t ht => ?_⟩
    · split <;> constructor <;> simp only <;> ticks
    · split <;> ticks
  | rangeToIncl b =>
    have h : -INF < b ∧ b ≤ INF := h
    right
    simp only [Convex.isEmpty, Convex.lower, Convex.upper, Convex.into, InConvex]
    exact ⟨trivial, by constructor <;> simp only <;> ticks, trivial, fun t ht => by ticks⟩

/-- the interval a window converts to has the dates of the window -/
theorem into_dates {w : Convex} (h : LegalBounds w) {t : Int} (ht : Date t) :
    InIv t w.into ↔ InConvex t w := by
  cases w with
  | iv i => exact Iff.rfl
  | point p =>
    have h : Legal p := h
    simp only [Convex.into, Iv.singleton, InConvex]
    split
    · simp only [InIv]; omega
    · rename_i hf
      have := isFinite_false.1 (by simpa using hf)
      simp only [InIv, Iv.empty]; ticks
  | range a b =>
    have h : Legal a ∧ Legal b := h
    simp only [Convex.into, Convex.lower, Convex.upper, InConvex, InIv, justBefore_eq]
    repeat' split
    all_goals ticks
  | rangeFrom a =>
    simp only [Convex.into, Convex.lower, Convex.upper, InConvex, InIv]; ticks
  | rangeIncl a b =>
    simp only [Convex.into, Convex.lower, Convex.upper, InConvex, InIv]
    repeat' split
    all_goals ticks
  | rangeTo b =>
    have h : Legal b := h
    simp only [Convex.into, Convex.lower, Convex.upper, InConvex, InIv, justBefore_eq]
    split <;> ticks
  | rangeToIncl b =>
    simp only [Convex.into, Convex.lower, Convex.upper, InConvex, InIv]; ticks

/-- the bounds of a window describe its dates -/
theorem bounds_dates {w : Convex} (h : LegalBounds w) {t : Int} (ht : Date t) :
    (w.lower ≤ t ∧ t ≤ w.upper) ↔ InConvex t w := by
  rw [← into_dates h ht]
  cases w
  case point p =>
    have h : Legal p := h
    simp only [Convex.into, InIv, Convex.lower, Convex.upper, Iv.singleton]
    split
    · rfl
    · rename_i hf
      have := isFinite_false.1 (by simpa using hf)
      simp only [Iv.empty]; ticks
  all_goals exact Iff.rfl

theorem Iv.new_cases {l u : Int} (hl : Legal l) (hu : Legal u) :
    (Iv.new l u = Iv.empty ∧ (u < l ∨ (l = u ∧ (l = INF ∨ l = -INF)))) ∨
    (Iv.new l u = ⟨l, u⟩ ∧ WF ⟨l, u⟩) := by
  simp only [Iv.new, Iv.singleton]
  split
  · right; exact ⟨rfl, by constructor <;> simp only <;> ticks⟩
  · split
    · rename_i h1 h2
      subst h2
      split
      · rename_i hf
        have := isFinite_iff.1 hf
        right; exact ⟨rfl, by constructor <;> simp only <;> ticks⟩
      · rename_i hf
        have := isFinite_false.1 (by simpa using hf)
        left; exact ⟨rfl, Or.inr ⟨rfl, this⟩⟩
    · left; exact ⟨rfl, by omega⟩

theorem Iv.new_wf {l u : Int} (h : WF ⟨l, u⟩) : Iv.new l u = ⟨l, u⟩ := by
  obtain ⟨h1, h2, h3, h4, h5⟩ := h
  simp only at *
  rcases Iv.new_cases (l := l) (u := u) ⟨h2, by omega⟩ ⟨by omega, h3⟩ with h | h
  · omega
  · exact h.1

/-- bounds of a translated interval: opposite infinities cannot meet -/
theorem tvAdd_ok {a b : Int} (ha : Legal a) (hb : Legal b) (h : ¬ (a = INF ∧ b = -INF))
    (h' : ¬ (a = -INF ∧ b = INF)) : tvAdd a b = .ok (if a = INF ∨ b = INF then INF else
      if a = -INF ∨ b = -INF then -INF else round (a + b)) := by
  rw [tvAdd_eq ha hb]
  repeat' split
  all_goals first | rfl | (exfalso; ticks)

/-- on dates, the two readings of membership coincide -/
theorem inExt_iff_inIv {t : Int} {i : Iv} (ht : Date t) (_hl : Legal i.lower) (_hu : Legal i.upper) :
    InExt t i ↔ InIv t i := by
  simp only [InExt, InIv]; ticks

theorem add_lower {l d : Int} (hl : Legal l) (hl' : l < INF) (hd : Legal d) (hd' : d < INF)
    (h : Date l → Date d → Date (l + d)) :
    tvAdd l d = .ok (if l = -INF ∨ d = -INF then -INF else l + d) := by
  rw [tvAdd_ok hl hd (by ticks) (by ticks), if_neg (by ticks)]
  split
  · rfl
  · rw [round_of_date (h (by ticks) (by ticks))]

theorem add_upper {l d : Int} (hl : Legal l) (hl' : -INF < l) (hd : Legal d) (hd' : -INF < d)
    (h : Date l → Date d → Date (l + d)) :
    tvAdd l d = .ok (if l = INF ∨ d = INF then INF else l + d) := by
  rw [tvAdd_ok hl hd (by ticks) (by ticks)]
  split
  · rfl
  · rw [if_neg (by ticks), round_of_date (h (by ticks) (by ticks))]

/-- Minkowski sum of two well-formed intervals, without overflow of the finite bounds. -/
theorem addSpan_spec (dbg : Bool) {i s : Iv} (hi : WF i) (hs : WF s)
    (hl : Date i.lower → Date s.lower → Date (i.lower + s.lower))
    (hu : Date i.upper → Date s.upper → Date (i.upper + s.upper)) :
    ∃ j, i.addSpan dbg s = .ok j ∧ WF j ∧
      j.lower = (if i.lower = -INF ∨ s.lower = -INF then -INF else i.lower + s.lower) ∧
      j.upper = (if i.upper = INF ∨ s.upper = INF then INF else i.upper + s.upper) := by
  rcases i with ⟨l1, u1⟩
  rcases s with ⟨l2, u2⟩
  obtain ⟨h1, h2, h3, h4, h5⟩ := hi
  obtain ⟨g1, g2, g3, g4, g5⟩ := hs
  simp only at *
  have e1 := add_lower (l := l1) (d := l2) (by ticks) h4 (by ticks) g4 hl
  have e2 := add_upper (l := u1) (d := u2) (by ticks) h5 (by ticks) g5 hu
  have hw : WF ⟨if l1 = -INF ∨ l2 = -INF then -INF else l1 + l2,
      if u1 = INF ∨ u2 = INF then INF else u1 + u2⟩ := by
    constructor <;> simp only <;> (repeat' split) <;> ticks
  refine ⟨_, ?_, hw, rfl, rfl⟩
  · simp only [Iv.addSpan, e1, e2]
    show Iv.debugNonEmpty dbg (Iv.new _ _) = _
    rw [Iv.new_wf hw]
    simp [Iv.debugNonEmpty, hw.not_isEmpty]

theorem minkowski {l1 u1 l2 u2 t : Int} (h1 : l1 ≤ u1) (h2 : l2 ≤ u2)
    (hl1 : -INF ≤ l1 ∧ l1 < INF) (hl2 : -INF ≤ l2 ∧ l2 < INF) (hu1 : -INF < u1 ∧ u1 ≤ INF)
    (hu2 : -INF < u2 ∧ u2 ≤ INF)
    (hl : Date l1 → Date l2 → Date (l1 + l2)) (hu : Date u1 → Date u2 → Date (u1 + u2)) :
    InExt t ⟨if l1 = -INF ∨ l2 = -INF then -INF else l1 + l2,
      if u1 = INF ∨ u2 = INF then INF else u1 + u2⟩ →
    ∃ a b, InExt a ⟨l1, u1⟩ ∧ InExt b ⟨l2, u2⟩ ∧ t = a + b := by
  intro h
  simp only [InExt] at h
  obtain ⟨ha, hb⟩ := h
  have hL : l1 = -INF ∨ l2 = -INF ∨ l1 + l2 ≤ t := by
    by_cases c : l1 = -INF ∨ l2 = -INF
    · omega
    · rw [if_neg c] at ha; ticks
  have hU : u1 = INF ∨ u2 = INF ∨ t ≤ u1 + u2 := by
    by_cases c : u1 = INF ∨ u2 = INF
    · omega
    · rw [if_neg c] at hb; ticks
  clear ha hb hl hu
  have key : ∃ a, InExt a ⟨l1, u1⟩ ∧ InExt (t - a) ⟨l2, u2⟩ := by
    simp only [InExt]
    by_cases c1 : l1 = -INF <;> by_cases c2 : u2 = INF <;> by_cases c3 : u1 = INF <;>
      by_cases c4 : l2 = -INF
    all_goals first
      | (refine ⟨t, ?_⟩; ticks)
      | (refine ⟨t - l2, ?_⟩; ticks)
      | (refine ⟨u1, ?_⟩; ticks)
      | (refine ⟨min u1 (t - l2), ?_⟩; ticks)
      | (refine ⟨t - u2, ?_⟩; ticks)
      | (refine ⟨l1, ?_⟩; ticks)
      | (refine ⟨max l1 (t - u2), ?_⟩; ticks)
  obtain ⟨a, ha, hb⟩ := key
  exact ⟨a, t - a, ha, hb, by omega⟩

theorem Spec.WF.neg {i : Iv} (h : WF i) : WF i.neg := by
  obtain ⟨h1, h2, h3, h4, h5⟩ := h
  constructor <;> simp only [Iv.neg] <;> omega

theorem inExt_neg {t : Int} {i : Iv} : InExt t i.neg ↔ InExt (-t) i := by
  simp only [InExt, Iv.neg]; omega

theorem subSpan_eq (dbg : Bool) (i s : Iv) : i.subSpan dbg s = i.addSpan dbg s.neg := rfl

end Chrono
