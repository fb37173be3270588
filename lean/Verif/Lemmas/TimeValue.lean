import Verif.Spec.Time

namespace Chrono
open Spec

/-- unfold the numeric constants everywhere and call `omega` -/
macro "ticks" : tactic =>
  `(tactic| ((try simp only [INF, I64_MAX, I64_MIN, TICKS, MAX_SEC, Legal, Date,
    true_or, or_true, true_and, and_true, false_or, or_false, false_and, and_false, true_iff,
    iff_true, false_iff, iff_false, not_true_eq_false, not_false_eq_true, ne_eq, Classical.not_not,
    forall_const, false_implies, true_implies] at *) <;> omega))

theorem isFinite_iff {t : Int} : isFinite t = true ↔ t ≠ INF ∧ t ≠ -INF := by
  simp only [isFinite, bne_iff_ne]; ticks

theorem isFinite_false {t : Int} : isFinite t = false ↔ t = INF ∨ t = -INF := by
  rw [← Bool.not_eq_true, isFinite_iff]; ticks

theorem isFutureInfinite_iff {t : Int} : isFutureInfinite t = true ↔ t = INF := by
  simp [isFutureInfinite]
theorem isPastInfinite_iff {t : Int} : isPastInfinite t = true ↔ t = -INF := by
  simp [isPastInfinite]

theorem justAfter_date {t : Int} (h : Date t) : justAfter t = t + 1 := by
  have : isFinite t = true := isFinite_iff.2 (by ticks)
  simp [justAfter, this]
theorem justBefore_date {t : Int} (h : Date t) : justBefore t = t - 1 := by
  have : isFinite t = true := isFinite_iff.2 (by ticks)
  simp [justBefore, this]
theorem justAfter_eq (t : Int) : justAfter t = if t = INF ∨ t = -INF then t else t + 1 := by
  by_cases h : isFinite t = true
  · have := isFinite_iff.1 h; simp [justAfter, h, this]
  · have := isFinite_false.1 (by simpa using h); simp [justAfter, h, this]
theorem justBefore_eq (t : Int) : justBefore t = if t = INF ∨ t = -INF then t else t - 1 := by
  by_cases h : isFinite t = true
  · have := isFinite_iff.1 h; simp [justBefore, h, this]
  · have := isFinite_false.1 (by simpa using h); simp [justBefore, h, this]

theorem fromTicks_sat (x : Int) : fromTicks (sat64 x) = round x := by
  simp only [fromTicks, sat64, round]
  repeat' split
  all_goals ticks

theorem tvAdd_fin {a b : Int} (ha : Date a) (hb : Date b) : tvAdd a b = .ok (round (a + b)) := by
  have h1 : isFutureInfinite a = false := by
    rw [← Bool.not_eq_true, isFutureInfinite_iff]; ticks
  have h2 : isPastInfinite a = false := by
    rw [← Bool.not_eq_true, isPastInfinite_iff]; ticks
  have h3 : isFinite b = true := isFinite_iff.2 (by ticks)
  simp [tvAdd, h1, h2, h3, fromTicks_sat]

theorem tvAdd_eq {a b : Int} (_ha : Legal a) (_hb : Legal b) : tvAdd a b =
    if a = INF then (if b = -INF then .error .assertFail else .ok INF)
    else if a = -INF then (if b = INF then .error .assertFail else .ok (-INF))
    else if b = INF then .ok INF else if b = -INF then .ok (-INF)
    else .ok (round (a + b)) := by
  unfold tvAdd
  simp only [isFutureInfinite_iff, isPastInfinite_iff, isFinite_iff]
  repeat' split
  all_goals first
    | rfl
    | (exfalso; ticks)
    | (rw [fromTicks_sat])
    | (congr 1 <;> ticks)

theorem round_of_date {n : Int} (h : Date n) : round n = n := by
  simp only [round]; repeat' split
  all_goals ticks

theorem round_legal (n : Int) : Legal (round n) := by
  simp only [round]; repeat' split
  all_goals ticks

theorem tvAdd_exact {a b : Int} (ha : Date a) (hb : Date b) (hab : Date (a + b)) :
    tvAdd a b = .ok (a + b) := by rw [tvAdd_fin ha hb, round_of_date hab]

end Chrono
