import Verif.Props.SetRel
import Verif.Lemmas.Sched

/-!
# Equality and order of windows next to the infinities (C49)
-/

namespace Chrono
open Spec

theorem window_ext {W : Window} (h : NonEmptyWindow W) (t : Int) : InExtWindow t W ↔ InExtSet t W.iter := by
  cases W with
  | set s => exact Iff.rfl
  | conv w =>
    obtain ⟨hp, x, hx, hin⟩ := h
    rcases hp.cases with ⟨e1, e2, e3, e4, e5⟩ | ⟨e1, e2, e3, e4⟩
    · exact absurd hin (e5 x hx)
    · have e : (Window.conv w).iter = [⟨w.lower, w.upper⟩] := by
        simp [Window.iter, Convex.iter, e1]
      rw [e]
      have hs : InExtSet t [⟨w.lower, w.upper⟩] ↔ InExt t ⟨w.lower, w.upper⟩ := by simp [InExtSet]
      rw [hs]
      cases w with
      | iv i => exact Iff.rfl
      | point p =>
        simp only [Proper, Date] at hp
        simp only [InExtWindow, InExtConvex, InExt, Convex.lower, Convex.upper]; ticks
      | range a b =>
        have hl : a < b := by simpa [Convex.isEmpty] using e1
        simp only [Proper] at hp
        simp only [InExtWindow, InExtConvex, InExt, Convex.lower, Convex.upper, if_pos hl, justBefore]
        split <;> (rename_i q; rw [isFinite_iff] at q; ticks)
      | rangeFrom a => simp [InExtWindow, InExtConvex, InExt, Convex.lower, Convex.upper]
      | rangeIncl a b =>
        have hl : a ≤ b := by simpa [Convex.isEmpty] using e1
        simp only [InExtWindow, InExtConvex, InExt, Convex.lower, Convex.upper, if_pos hl]
      | rangeTo b =>
        simp only [Proper] at hp
        simp only [InExtWindow, InExtConvex, InExt, Convex.lower, Convex.upper, justBefore]
        split <;> (rename_i q; rw [isFinite_iff] at q; ticks)
      | rangeToIncl b => simp [InExtWindow, InExtConvex, InExt, Convex.lower, Convex.upper]

/-- C49. Next to the infinities as well, two non-empty windows are `==` iff they have the same points, on a time line where a window unbounded on
one side goes on for ever; `partial_cmp` answers `Equal` then, and `<=` and `>=` follow. -/
theorem C49_eq_exact (a : LWin) (b : Window) (ha : NonEmptyWindow a.win) (hb : NonEmptyWindow b) :
    (a.eq b = true ↔ ∀ t, InExtWindow t a.win ↔ InExtWindow t b) ∧
    (a.le b = true ↔ a.lt b = true ∨ ∀ t, InExtWindow t a.win ↔ InExtWindow t b) ∧
    (a.ge b = true ↔ a.gt b = true ∨ ∀ t, InExtWindow t a.win ↔ InExtWindow t b) ∧
    (a.partialCmp b = some .eq ↔ ∀ t, InExtWindow t a.win ↔ InExtWindow t b) ∧
    (a.partialCmp b = some .lt ↔ ∀ x y, Date x → Date y → InWindow x a.win → InWindow y b → x < y) ∧
    (a.partialCmp b = some .gt ↔ ∀ x y, Date x → Date y → InWindow x a.win → InWindow y b → y < x) := by
  have key : a.eq b = true ↔ ∀ t, InExtWindow t a.win ↔ InExtWindow t b := by
    rw [win_eq_iter ha hb]
    constructor
    · intro h t; rw [window_ext ha, window_ext hb, h]
    · intro h
      exact canon_extSet (window_canon ha).1 (window_canon hb).1 (fun t => by rw [← window_ext ha, ← window_ext hb]; exact h t)
  refine ⟨key, by rw [LWin.le, Bool.or_eq_true, key], by rw [LWin.ge, Bool.or_eq_true, key], ?_⟩
  obtain ⟨h1, h2⟩ := C49_lt a b ha hb
  rw [← h1, ← h2, ← key]
  obtain ⟨⟨g1, g2, g3, g4, g5⟩, -⟩ := window_hull ha
  obtain ⟨⟨k1, k2, k3, k4, k5⟩, -⟩ := window_hull hb
  obtain ⟨-, -, la, ua, -⟩ := window_canon ha
  obtain ⟨-, -, lb, ub, -⟩ := window_canon hb
  simp only at g1 g2 g3 g4 g5 k1 k2 k3 k4 k5
  have n1 : a.lt b = true → a.gt b = true → False := by
    simp only [LWin.lt, LWin.gt, decide_eq_true_eq]; omega
  have eqb : a.eq b = true → a.win.lower = b.lower ∧ a.win.upper = b.upper := by
    intro q
    have q := (win_eq_iter ha hb).1 q
    rw [← la, ← lb, ← ua, ← ub, q]; exact ⟨rfl, rfl⟩
  have n2 : a.eq b = true → a.lt b = true → False := by
    intro q; have := eqb q; simp only [LWin.lt, decide_eq_true_eq]; omega
  have n3 : a.eq b = true → a.gt b = true → False := by
    intro q; have := eqb q; simp only [LWin.gt, decide_eq_true_eq]; omega
  simp only [LWin.partialCmp]
  cases q1 : a.lt b <;> cases q2 : a.gt b <;> cases q3 : a.eq b <;> simp_all

example : NonEmptyWindow (LWin.iv ⟨-INF, 5⟩).win ∧ NonEmptyWindow (.conv (.iv ⟨-INF + 1, 5⟩)) ∧
    (LWin.iv ⟨-INF, 5⟩).eq (.conv (.iv ⟨-INF + 1, 5⟩)) = false ∧
    (LWin.iv ⟨-INF, 5⟩).partialCmp (.conv (.rangeToIncl 5)) = some .eq :=
  ⟨⟨by decide, 0, by decide, by decide⟩, ⟨by decide, 0, by decide, by decide⟩, by decide, by decide⟩

end Chrono
