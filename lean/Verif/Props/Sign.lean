import Verif.Props.Duration

/-!
# Signs of durations (C111)
-/

namespace Chrono
open Spec

/-- C111. The sign predicates are the comparisons with zero; exactly one of `is_strictly_negative`, `is_zero` and
`is_strictly_positive` holds, and `-t` swaps them. -/
theorem C111_predicates (t : Int) :
    (isZero t = true ↔ t = 0) ∧ (isPositive t = true ↔ 0 ≤ t) ∧ (isNegative t = true ↔ t ≤ 0) ∧
    (isStrictlyPositive t = true ↔ 0 < t) ∧ (isStrictlyNegative t = true ↔ t < 0) ∧
    isPositive (tvNeg t) = isNegative t ∧ isStrictlyPositive (tvNeg t) = isStrictlyNegative t ∧ isZero (tvNeg t) = isZero t := by
  have e : ∀ p q : Prop, [Decidable p] → [Decidable q] → (p ↔ q) → decide p = decide q := by
    intro p q _ _ h; exact decide_eq_decide.2 h
  refine ⟨by simp [isZero], by simp [isPositive], by simp [isNegative], by simp [isStrictlyPositive],
    by simp [isStrictlyNegative], e _ _ (by simp only [tvNeg]; omega), e _ _ (by simp only [tvNeg]; omega), ?_⟩
  show (-t == 0) = (t == 0)
  rw [Bool.eq_iff_iff]; simp

/-- C111. The sum of two durations has the sign of the exact sum, however large they are: a saturated sum never changes sign. Only
opposite infinities panic. -/
theorem C111_sum (a b : Int) (ha : Legal a) (hb : Legal b) (h : ¬ (a = INF ∧ b = -INF)) (h' : ¬ (a = -INF ∧ b = INF)) :
    ∃ r, tvAdd a b = .ok r ∧ r.sign = (a + b).sign := by
  have s : ∀ x y : Int, (0 < x ↔ 0 < y) → (x < 0 ↔ y < 0) → x.sign = y.sign := by
    intro x y h1 h2
    rcases Int.lt_trichotomy x 0 with c | c | c
    · rw [Int.sign_eq_neg_one_of_neg c, Int.sign_eq_neg_one_of_neg (h2.1 c)]
    · have : y = 0 := by omega
      rw [c, this]
    · rw [Int.sign_eq_one_of_pos c, Int.sign_eq_one_of_pos (h1.1 c)]
  rw [tvAdd_eq ha hb]
  by_cases c1 : a = INF
  · rw [if_pos c1, if_neg (by omega)]; exact ⟨_, rfl, s _ _ (by ticks) (by ticks)⟩
  · rw [if_neg c1]
    by_cases c2 : a = -INF
    · rw [if_pos c2, if_neg (by omega)]; exact ⟨_, rfl, s _ _ (by ticks) (by ticks)⟩
    · rw [if_neg c2]
      by_cases c3 : b = INF
      · rw [if_pos c3]; exact ⟨_, rfl, s _ _ (by ticks) (by ticks)⟩
      · rw [if_neg c3]
        by_cases c4 : b = -INF
        · rw [if_pos c4]; exact ⟨_, rfl, s _ _ (by ticks) (by ticks)⟩
        · rw [if_neg c4]
          refine ⟨_, rfl, ?_⟩
          unfold round
          (repeat' split) <;> exact s _ _ (by ticks) (by ticks)

/-- C111. The difference of two durations, or of two timestamps, is strictly positive, zero or strictly negative exactly when the first is
greater than, equal to or less than the second, however far apart they are. Only equal infinities panic. -/
theorem C111_difference (a b : Int) (ha : Legal a) (hb : Legal b) (h : ¬ (a = b ∧ (a = INF ∨ a = -INF))) :
    ∃ r, tvSub a b = .ok r ∧ tsSub a b = .ok r ∧ (isStrictlyPositive r = true ↔ b < a) ∧ (isZero r = true ↔ a = b) ∧
      (isStrictlyNegative r = true ↔ a < b) := by
  obtain ⟨r, h1, h2⟩ := C111_sum a (-b) ha (by ticks) (by omega) (by omega)
  refine ⟨r, h1, h1, ?_⟩
  have p := C111_predicates r
  rw [p.2.2.2.1, p.2.2.2.2.1, p.1]
  rcases Int.lt_trichotomy r 0 with c | c | c
  · rw [Int.sign_eq_neg_one_of_neg c] at h2
    have := Int.neg_of_sign_eq_neg_one h2.symm
    omega
  · subst c
    have : a + -b = 0 := Int.eq_zero_of_sign_eq_zero h2.symm
    omega
  · rw [Int.sign_eq_one_of_pos c] at h2
    have := Int.pos_of_sign_eq_one h2.symm
    omega

/-- C111. A product by an integer of at most 64 bits has the sign of the exact product. -/
theorem C111_product (t n : Int) : (mulSmall t n).sign = (t * n).sign := by
  rw [C13_mul_small_partial]
  generalize t * n = x
  split
  · rw [Int.sign_eq_one_of_pos (by ticks), Int.sign_eq_one_of_pos (by ticks)]
  · split
    · rw [Int.sign_eq_neg_one_of_neg (by ticks), Int.sign_eq_neg_one_of_neg (by ticks)]
    · rfl

example : Legal INF ∧ Legal (-5) ∧ Legal (INF - 1) ∧ tvAdd (INF - 1) (INF - 2) = .ok INF ∧ tvSub (-5) (INF - 1) = .ok (-INF) ∧
    isStrictlyNegative (-INF) = true ∧ mulSmall (INF - 1) (-3) = -INF := by decide

end Chrono
