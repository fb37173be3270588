import Verif.Model.Float
import Verif.Lemmas.SetArith

set_option linter.unusedSimpArgs false

/-! # Rounding, and the shape of the product of a duration by a float -/

namespace Chrono
open Spec

namespace Fl

theorem halfEven_bounds (num : Nat) {den : Nat} (hd : 0 < den) :
    2 * num ≤ 2 * (halfEven num den * den) + den ∧ 2 * (halfEven num den * den) ≤ 2 * num + den := by
  have h1 := Nat.div_add_mod num den
  have h2 := Nat.mod_lt num hd
  unfold halfEven
  simp only
  generalize num / den = q at *
  generalize num % den = r at *
  have e1 : (q + 1) * den = den * q + den := by rw [Nat.add_mul, Nat.mul_comm]; omega
  have e0 : q * den = den * q := Nat.mul_comm _ _
  split
  · rw [e0]; omega
  · split
    · rw [e1]; omega
    · rcases Nat.mod_two_eq_zero_or_one q with h | h
      · rw [h, Nat.add_zero, e0]; omega
      · rw [h, e1]; omega

theorem halfEven_mono {a b den : Nat} (hd : 0 < den) (h : a ≤ b) : halfEven a den ≤ halfEven b den := by
  have hq : a / den ≤ b / den := Nat.div_le_div_right h
  have ha := Nat.div_add_mod a den
  have hb := Nat.div_add_mod b den
  have hr : a / den = b / den → a % den ≤ b % den := by
    intro e; rw [e] at ha; omega
  unfold halfEven
  simp only
  generalize a / den = q at *
  generalize b / den = q' at *
  generalize a % den = r at *
  generalize b % den = r' at *
  by_cases e : q = q'
  · have := hr e
    subst e
    repeat' split
    all_goals omega
  · have : q + 1 ≤ q' := by omega
    repeat' split
    all_goals omega

theorem halfEven_exact (m : Nat) {den : Nat} (hd : 0 < den) : halfEven (m * den) den = m := by
  unfold halfEven
  rw [Nat.mul_div_cancel _ hd, Nat.mul_mod_left]
  simp [hd]

/-- the exponent of the last kept digit -/
def shift (F : FTy) (v : Nat) : Nat := Nat.log2 v + 1 - F.prec

theorem prec_pos (F : FTy) : 1 ≤ F.prec := by cases F <;> decide

theorem shift_lt (F : FTy) (v : Nat) : v < 2 ^ (F.prec + shift F v) := by
  have h := @Nat.lt_log2_self v
  refine Nat.lt_of_lt_of_le h (Nat.pow_le_pow_right (by decide) ?_)
  unfold shift; omega

theorem shift_le (F : FTy) (v : Nat) (h : 0 < shift F v) : 2 ^ (F.prec - 1 + shift F v) ≤ v := by
  have hv : v ≠ 0 := by
    rintro rfl
    have := prec_pos F
    simp [shift, Nat.log2_zero] at h; omega
  have h2 := Nat.log2_self_le hv
  refine Nat.le_trans (Nat.pow_le_pow_right (by decide) ?_) h2
  unfold shift at *; have := prec_pos F; omega

theorem shift_mono (F : FTy) {v w : Nat} (h : v ≤ w) : shift F v ≤ shift F w := by
  by_cases h0 : 0 < shift F v
  · have h1 := shift_le F v h0
    have h2 := shift_lt F w
    have h3 : 2 ^ (F.prec - 1 + shift F v) < 2 ^ (F.prec + shift F w) := by omega
    have := (Nat.pow_lt_pow_iff_right (by decide : 1 < 2)).1 h3
    have := prec_pos F
    omega
  · omega

theorem round_eq (F : FTy) (num den : Nat) : round F num den =
    halfEven num (den * 2 ^ shift F (num / den)) * 2 ^ shift F (num / den) := rfl

theorem two_pos (n : Nat) : 0 < 2 ^ n := Nat.two_pow_pos n

theorem round_upper (F : FTy) (num : Nat) {den : Nat} (hd : 0 < den) :
    round F num den ≤ 2 ^ (F.prec + shift F (num / den)) := by
  have h := shift_lt F (num / den)
  rw [round_eq]
  generalize shift F (num / den) = s at *
  have hp := Nat.mul_pos hd (two_pos s)
  have h1 : num ≤ 2 ^ F.prec * (den * 2 ^ s) := by
    have := (Nat.div_lt_iff_lt_mul hd).1 h
    rw [Nat.pow_add] at this
    have e : 2 ^ F.prec * (den * 2 ^ s) = 2 ^ F.prec * 2 ^ s * den := by ac_rfl
    omega
  have h2 := halfEven_mono hp h1
  rw [halfEven_exact _ hp] at h2
  rw [Nat.pow_add]
  exact Nat.mul_le_mul_right _ h2

theorem round_lower (F : FTy) (num : Nat) {den : Nat} (hd : 0 < den) (h0 : 0 < shift F (num / den)) :
    2 ^ (F.prec - 1 + shift F (num / den)) ≤ round F num den := by
  have h := shift_le F (num / den) h0
  rw [round_eq]
  generalize shift F (num / den) = s at *
  have hp := Nat.mul_pos hd (two_pos s)
  have h1 : 2 ^ (F.prec - 1) * (den * 2 ^ s) ≤ num := by
    have := (Nat.le_div_iff_mul_le hd).1 h
    rw [Nat.pow_add] at this
    have e : 2 ^ (F.prec - 1) * (den * 2 ^ s) = 2 ^ (F.prec - 1) * 2 ^ s * den := by ac_rfl
    omega
  have h2 := halfEven_mono hp h1
  rw [halfEven_exact _ hp] at h2
  rw [Nat.pow_add]
  exact Nat.mul_le_mul_right _ h2

/-- rounding is monotone -/
theorem round_mono (F : FTy) {a b den : Nat} (hd : 0 < den) (h : a ≤ b) :
    round F a den ≤ round F b den := by
  have hq : a / den ≤ b / den := Nat.div_le_div_right h
  have hs := shift_mono F hq
  by_cases e : shift F (a / den) = shift F (b / den)
  · rw [round_eq, round_eq, e]
    exact Nat.mul_le_mul_right _ (halfEven_mono (Nat.mul_pos hd (two_pos _)) h)
  · have h1 := round_upper F a hd
    have h2 := round_lower F b hd (by omega)
    refine Nat.le_trans h1 (Nat.le_trans (Nat.pow_le_pow_right (by decide) ?_) h2)
    have := prec_pos F
    omega

/-- rounding a number of the format gives this number -/
theorem round_exact (F : FTy) {m j den : Nat} (hd : 0 < den) (hm : m < 2 ^ F.prec) :
    round F (m * 2 ^ j * den) den = m * 2 ^ j := by
  rw [round_eq, Nat.mul_div_cancel _ hd]
  have hs : shift F (m * 2 ^ j) ≤ j := by
    by_cases h0 : 0 < shift F (m * 2 ^ j)
    · have h1 := shift_le F _ h0
      have h2 : m * 2 ^ j < 2 ^ (F.prec + j) := by
        rw [Nat.pow_add]
        exact Nat.mul_lt_mul_of_pos_right hm (two_pos _)
      have := (Nat.pow_lt_pow_iff_right (by decide : 1 < 2)).1 (Nat.lt_of_le_of_lt h1 h2)
      omega
    · omega
  generalize shift F (m * 2 ^ j) = s at *
  have e : 2 ^ j = 2 ^ (j - s) * 2 ^ s := by rw [← Nat.pow_add]; congr 1; omega
  have e2 : m * 2 ^ j * den = m * 2 ^ (j - s) * (den * 2 ^ s) := by rw [e]; ac_rfl
  rw [e2, halfEven_exact _ (Nat.mul_pos hd (two_pos _)), e]
  ac_rfl

theorem round_zero (F : FTy) {den : Nat} (hd : 0 < den) : round F 0 den = 0 := by
  have := round_exact F (m := 0) (j := 0) hd (two_pos _)
  simpa using this

/-- rounding errs by at most one part in `2^prec` of a number that is not too small -/
theorem round_rel (F : FTy) {num den : Nat} (hd : 0 < den) (h : 2 ^ (F.prec - 1) * den ≤ num) :
    2 ^ F.prec * num ≤ 2 ^ F.prec * (round F num den * den) + num ∧
    2 ^ F.prec * (round F num den * den) ≤ 2 ^ F.prec * num + num := by
  have hs : 2 ^ (F.prec - 1) * (den * 2 ^ shift F (num / den)) ≤ num := by
    by_cases h0 : 0 < shift F (num / den)
    · have := (Nat.le_div_iff_mul_le hd).1 (shift_le F (num / den) h0)
      rw [Nat.pow_add] at this
      refine Nat.le_trans (Nat.le_of_eq ?_) this
      ac_rfl
    · have : shift F (num / den) = 0 := by omega
      rw [this]; simpa using h
  rw [round_eq]
  generalize shift F (num / den) = s at *
  obtain ⟨h1, h2⟩ := halfEven_bounds num (Nat.mul_pos hd (two_pos s))
  have e : halfEven num (den * 2 ^ s) * 2 ^ s * den = halfEven num (den * 2 ^ s) * (den * 2 ^ s) := by ac_rfl
  rw [e]
  generalize halfEven num (den * 2 ^ s) * (den * 2 ^ s) = H at *
  generalize den * 2 ^ s = D at *
  have ep : 2 ^ F.prec = 2 * 2 ^ (F.prec - 1) := by
    rw [← Nat.pow_succ']; congr 1; have := prec_pos F; omega
  have k1 := Nat.mul_le_mul_left (2 ^ (F.prec - 1)) h1
  have k2 := Nat.mul_le_mul_left (2 ^ (F.prec - 1)) h2
  rw [ep]
  generalize 2 ^ (F.prec - 1) = P at *
  rw [Nat.mul_add] at k1 k2
  have a1 : P * (2 * num) = 2 * P * num := by ac_rfl
  have a2 : P * (2 * H) = 2 * P * H := by ac_rfl
  omega

/-- the numbers of a format, in units -/
def Repr (F : FTy) (k : Nat) : Prop := ∃ m j, m < 2 ^ F.prec ∧ k = m * 2 ^ j

theorem halfEven_nearest {num D : Nat} (hD : 0 < D) (k : Nat) :
    ((halfEven num D * D : Nat) - (num : Int)).natAbs ≤ ((k * D : Nat) - (num : Int)).natAbs := by
  obtain ⟨h1, h2⟩ := halfEven_bounds num hD
  rcases Nat.lt_trichotomy k (halfEven num D) with h | h | h
  · have := Nat.mul_le_mul_right D (show k + 1 ≤ halfEven num D from h)
    rw [Nat.add_mul] at this
    generalize halfEven num D * D = H at *
    generalize k * D = K at *
    omega
  · rw [h]; exact Nat.le_refl _
  · have := Nat.mul_le_mul_right D (show halfEven num D + 1 ≤ k from h)
    rw [Nat.add_mul] at this
    generalize halfEven num D * D = H at *
    generalize k * D = K at *
    omega

/-- IEEE 754 rounding: no number of the format is nearer to `num/den` than the rounded one -/
theorem round_nearest (F : FTy) {num den k : Nat} (hd : 0 < den) (hk : Repr F k) :
    ((round F num den * den : Nat) - (num : Int)).natAbs ≤ ((k * den : Nat) - (num : Int)).natAbs := by
  obtain ⟨m, j, hm, rfl⟩ := hk
  have hlow := fun h0 => (Nat.le_div_iff_mul_le hd).1 (shift_le F (num / den) h0)
  rw [round_eq]
  generalize shift F (num / den) = s at *
  have hD := Nat.mul_pos hd (two_pos s)
  have e : ∀ x, x * 2 ^ s * den = x * (den * 2 ^ s) := fun x => by ac_rfl
  rw [e]
  by_cases hj : s ≤ j
  · have : m * 2 ^ j * den = m * 2 ^ (j - s) * (den * 2 ^ s) := by
      have : 2 ^ j = 2 ^ (j - s) * 2 ^ s := by rw [← Nat.pow_add]; congr 1; omega
      rw [this]; ac_rfl
    rw [this]
    exact halfEven_nearest hD _
  · have h1 := hlow (by omega)
    have h2 : m * 2 ^ j * den ≤ 2 ^ (F.prec - 1 + s) * den := by
      refine Nat.mul_le_mul_right _ ?_
      refine Nat.le_trans (Nat.mul_le_mul_right _ (Nat.le_of_lt hm)) ?_
      rw [← Nat.pow_add]
      exact Nat.pow_le_pow_right (by decide) (by have := prec_pos F; omega)
    have h3 := halfEven_nearest (num := num) hD (2 ^ (F.prec - 1))
    rw [Nat.pow_add, e] at h1 h2
    generalize halfEven num (den * 2 ^ s) * (den * 2 ^ s) = A at *
    generalize m * 2 ^ j * den = B at *
    generalize 2 ^ (F.prec - 1) * (den * 2 ^ s) = C at *
    omega

/-- what is rounded is a number of the format -/
theorem round_repr (F : FTy) (num : Nat) {den : Nat} (hd : 0 < den) : Repr F (round F num den) := by
  have h := round_upper F num hd
  rw [round_eq] at *
  generalize shift F (num / den) = s at *
  rw [Nat.pow_add] at h
  have h := Nat.le_of_mul_le_mul_right h (two_pos s)
  generalize halfEven num (den * 2 ^ s) = H at *
  rcases Nat.lt_or_ge H (2 ^ F.prec) with h1 | h1
  · exact ⟨H, s, h1, rfl⟩
  · have : H = 2 ^ F.prec := by omega
    have hp := prec_pos F
    refine ⟨2 ^ (F.prec - 1), s + 1, Nat.pow_lt_pow_right (by decide) (by omega), ?_⟩
    rw [this, ← Nat.pow_add, ← Nat.pow_add]
    congr 1; omega

theorem ofInt_INF (F : FTy) : ofInt F INF = fin false (2 ^ 63 * 2 ^ F.bias) ∧
    ofInt F (-INF) = fin true (2 ^ 63 * 2 ^ F.bias) := by cases F <;> decide +kernel

theorem round_INF (F : FTy) : round F (9223372036854775807 * 2 ^ F.bias) 1 = 2 ^ 63 * 2 ^ F.bias := by
  cases F <;> decide +kernel

theorem top_gt (F : FTy) : 2 ^ 63 * 2 ^ F.bias < 2 ^ F.top := by cases F <;> decide +kernel

theorem ofInt_eq (F : FTy) {t : Int} (h : Legal t) :
    ofInt F t = fin (decide (t < 0)) (round F (t.natAbs * 2 ^ F.bias) 1) := by
  have h1 : t.natAbs * 2 ^ F.bias ≤ 9223372036854775807 * 2 ^ F.bias :=
    Nat.mul_le_mul_right _ (by ticks)
  have h2 := round_mono F (den := 1) (by decide) h1
  rw [round_INF] at h2
  rw [ofInt, pack, if_pos (Nat.lt_of_le_of_lt h2 (top_gt F))]

/-- the magnitude of the product of `a` ticks and `k` units -/
def mag (F : FTy) (a k : Nat) : Nat :=
  min (round F (round F (a * 2 ^ F.bias) 1 * k) (2 ^ F.bias) / 2 ^ F.bias) 9223372036854775807

theorem mag_mono (F : FTy) {a b k l : Nat} (h : a ≤ b) (hk : k ≤ l) : mag F a k ≤ mag F b l := by
  unfold mag
  have h1 := round_mono F (den := 1) (by decide) (Nat.mul_le_mul_right (2 ^ F.bias) h)
  have h2 := round_mono F (den := 2 ^ F.bias) (two_pos _) (Nat.mul_le_mul h1 hk)
  have h3 := Nat.div_le_div_right (c := 2 ^ F.bias) h2
  omega

theorem mag_zero (F : FTy) (k : Nat) : mag F 0 k = 0 ∧ ∀ a, mag F a 0 = 0 := by
  have h := round_zero F (two_pos F.bias)
  constructor
  · rw [mag, Nat.zero_mul, round_zero F (by decide), Nat.zero_mul, h, Nat.zero_div]; decide
  · intro a
    rw [mag, Nat.mul_zero, h, Nat.zero_div]; decide

theorem mag_le (F : FTy) (a k : Nat) : (mag F a k : Int) ≤ INF := by
  unfold mag INF; omega

/-- a float of ticks saturated to a duration -/
def clampF (F : FTy) (x : Fl) : Int :=
  if lt (fin false (2 ^ 63 * 2 ^ F.bias)) x then INF
  else if lt x (fin true (2 ^ 63 * 2 ^ F.bias)) then -INF
  else fromTicks (toI64 F x)

theorem tvMulF_eq (F : FTy) {t : Int} (h : Legal t) (n : Fl) :
    tvMulF F t n = clampF F (mul F (fin (decide (t < 0)) (round F (t.natAbs * 2 ^ F.bias) 1)) n) := by
  unfold tvMulF clampF
  rw [ofInt_eq F h, (ofInt_INF F).1, (ofInt_INF F).2]

/-- the sign and the magnitude of a product by a finite float -/
theorem tvMulF_fin (F : FTy) {t : Int} (h : Legal t) (s : Bool) (k : Nat) :
    tvMulF F t (fin s k) =
      if (decide (t < 0) != s) then -(mag F t.natAbs k : Int) else mag F t.natAbs k := by
  rw [tvMulF_eq F h]
  unfold mag
  simp only [mul]
  generalize round F (round F (t.natAbs * 2 ^ F.bias) 1 * k) (2 ^ F.bias) = Y
  generalize (decide (t < 0) != s) = sg
  have hb := two_pos F.bias
  have ht := top_gt F
  by_cases h1 : 2 ^ 63 * 2 ^ F.bias < Y
  · have hy : 9223372036854775808 ≤ Y / 2 ^ F.bias :=
      (Nat.le_div_iff_mul_le hb).2 (Nat.le_of_lt h1)
    have e : min (Y / 2 ^ F.bias) 9223372036854775807 = 9223372036854775807 := by omega
    rw [e]
    have big : pack F sg Y = fin sg Y ∨ pack F sg Y = inf sg := by
      unfold pack; split <;> simp
    rcases big with e | e
    all_goals
      rw [e, clampF]
      generalize 2 ^ 63 * 2 ^ F.bias = Z at *
      cases sg <;> simp [lt] <;> first | (unfold INF; omega) | (intros; unfold INF; omega) | skip
  · rw [pack, if_pos (by omega), clampF]
    have hy : Y / 2 ^ F.bias ≤ 9223372036854775808 :=
      Nat.div_le_of_le_mul (by rw [Nat.mul_comm]; omega)
    generalize hZ : 2 ^ 63 * 2 ^ F.bias = Z at *
    cases sg
    · rw [if_neg (by simp [lt] <;> omega), if_neg (by simp [lt] <;> omega)]
      simp only [toI64, Bool.false_eq_true, if_false, fromTicks, sat64, I64_MAX, I64_MIN, INF]
      generalize Y / 2 ^ F.bias = q at *
      split
      · omega
      · split <;> omega
    · rw [if_neg (by simp [lt] <;> omega), if_neg (by simp [lt] <;> omega)]
      simp only [toI64, if_true, fromTicks, sat64, I64_MAX, I64_MIN, INF]
      generalize Y / 2 ^ F.bias = q at *
      split
      · omega
      · split <;> omega

theorem tvMulF_inf (F : FTy) {t : Int} (h : Legal t) (s : Bool) :
    tvMulF F t (inf s) = if t = 0 then 0 else if (decide (t < 0) != s) then -INF else INF := by
  rw [tvMulF_eq F h]
  simp only [mul]
  by_cases h0 : t = 0
  · subst h0
    rw [Int.natAbs_zero, Nat.zero_mul, round_zero F (by decide)]
    simp [clampF, lt, toI64, fromTicks]; decide
  · have h1 : round F (t.natAbs * 2 ^ F.bias) 1 ≠ 0 := by
      have h2 : 1 * 2 ^ F.bias * 1 ≤ t.natAbs * 2 ^ F.bias := by
        rw [Nat.mul_one]; exact Nat.mul_le_mul_right _ (by omega)
      have h3 := round_mono F (den := 1) (by decide) h2
      rw [round_exact F (m := 1) (by decide) (by cases F <;> decide)] at h3
      have := two_pos F.bias
      omega
    rw [if_neg h1, if_neg h0]
    generalize (decide (t < 0) != s) = sg
    cases sg <;> simp [clampF, lt]

theorem tvMulF_nan (F : FTy) {t : Int} (h : Legal t) : tvMulF F t nan = 0 := by
  rw [tvMulF_eq F h]
  simp [clampF, mul, lt, toI64, fromTicks]; decide

/-- the sign of a float -/
def sign : Fl → Bool
  | nan => false
  | inf s => s
  | fin s _ => s

/-- the product by a given float is an odd monotone (or antitone) function -/
theorem tvMulF_form (F : FTy) (n : Fl) : ∃ g : Nat → Nat, (∀ a b, a ≤ b → g a ≤ g b) ∧ g 0 = 0 ∧
    (∀ a, (g a : Int) ≤ INF) ∧ (sign n = true → lt n zero = false → ∀ a, g a = 0) ∧
    ∀ t, Legal t → tvMulF F t n = if (decide (t < 0) != sign n) then -(g t.natAbs : Int) else g t.natAbs := by
  cases n with
  | nan =>
    refine ⟨fun _ => 0, fun _ _ _ => Nat.le_refl _, rfl, fun _ => (by decide : (0 : Int) ≤ INF), fun _ _ _ => rfl, fun t h => ?_⟩
    rw [tvMulF_nan F h]; simp
  | inf s =>
    refine ⟨fun a => if a = 0 then 0 else 9223372036854775807, fun a b h => ?_, rfl, fun a => ?_, fun h1 h2 => ?_,
      fun t h => ?_⟩
    · simp only; split <;> split <;> omega
    · simp only; split <;> decide
    · simp only [sign] at h1; subst h1; simp [lt, zero] at h2
    · rw [tvMulF_inf F h]
      by_cases h0 : t = 0
      · subst h0; simp
      · rw [if_neg h0]
        simp only [Int.natAbs_eq_zero, h0, if_false, sign]
        rfl
  | fin s k =>
    refine ⟨fun a => mag F a k, fun a b h => mag_mono F h (Nat.le_refl _), (mag_zero F k).1, fun a => mag_le F a k,
      fun h1 h2 => ?_, fun t h => tvMulF_fin F h s k⟩
    simp only [sign] at h1
    subst h1
    have : k = 0 := by simp [lt, zero] at h2; omega
    subst this
    exact (mag_zero F 0).2

/-! ## The error of a product and of a quotient -/

theorem err_up {P a B k A Y M : Nat} (hB : 0 < B) (h1 : P * A ≤ (P + 1) * (a * B))
    (h2 : P * (Y * B) ≤ (P + 1) * (A * k)) (h3 : M * B ≤ Y) :
    P * P * (M * B) ≤ (P + 1) * (P + 1) * (a * k) := by
  have a1 := Nat.mul_le_mul_left P h2
  have a2 := Nat.mul_le_mul_left ((P + 1) * k) h1
  have a3 := Nat.mul_le_mul_left (P * P) h3
  have e1 : P * ((P + 1) * (A * k)) = (P + 1) * k * (P * A) := by ac_rfl
  have e2 : (P + 1) * k * ((P + 1) * (a * B)) = (P + 1) * (P + 1) * (a * k) * B := by ac_rfl
  have e3 : P * (P * (Y * B)) = P * P * Y * B := by ac_rfl
  have : P * P * Y * B ≤ (P + 1) * (P + 1) * (a * k) * B := by omega
  exact Nat.le_trans a3 (Nat.le_of_mul_le_mul_right this hB)

theorem err_low {P a B k A Y M : Nat} (hB : 0 < B) (hP : 0 < P) (h1 : P * (a * B) ≤ P * A + a * B)
    (h2 : P * (A * k) ≤ P * (Y * B) + A * k) (h3 : Y < (M + 1) * B) :
    (P - 1) * (P - 1) * (a * k) < P * P * ((M + 1) * B) := by
  have h1 : (P - 1) * (a * B) ≤ P * A := by rw [Nat.sub_mul, Nat.one_mul]; omega
  have h2 : (P - 1) * (A * k) ≤ P * (Y * B) := by rw [Nat.sub_mul, Nat.one_mul]; omega
  generalize P - 1 = R at *
  have a1 := Nat.mul_le_mul_left P h2
  have a2 := Nat.mul_le_mul_left (R * k) h1
  have a3 := Nat.mul_lt_mul_of_pos_left h3 (Nat.mul_pos hP hP)
  have e1 : R * k * (P * A) = P * (R * (A * k)) := by ac_rfl
  have e2 : R * k * (R * (a * B)) = R * R * (a * k) * B := by ac_rfl
  have e3 : P * (P * (Y * B)) = P * P * Y * B := by ac_rfl
  have : R * R * (a * k) * B ≤ P * P * Y * B := by omega
  exact Nat.lt_of_le_of_lt (Nat.le_of_mul_le_mul_right this hB) a3

theorem sizes (F : FTy) : 3 ≤ F.prec ∧ F.prec + 65 ≤ F.bias ∧ F.bias + 128 ≤ F.top := by
  cases F <;> decide

theorem round_small (F : FTy) {num den : Nat} (hd : 0 < den) (h : num ≤ 2 ^ (F.prec - 1) * den) :
    round F num den ≤ 2 ^ (F.prec - 1) := by
  have h1 := round_mono F hd h
  have h2 := round_exact F (m := 1) (j := F.prec - 1) hd (by cases F <;> decide)
  rw [Nat.one_mul] at h2
  rwa [h2] at h1

theorem mag_err (F : FTy) (a k : Nat) :
    2 ^ F.prec * 2 ^ F.prec * (mag F a k * 2 ^ F.bias) ≤ (2 ^ F.prec + 1) * (2 ^ F.prec + 1) * (a * k) ∧
    (mag F a k < 9223372036854775807 → (2 ^ F.prec - 1) * (2 ^ F.prec - 1) * (a * k) <
      2 ^ F.prec * 2 ^ F.prec * ((mag F a k + 1) * 2 ^ F.bias)) := by
  obtain ⟨hp, hb, -⟩ := sizes F
  have hB := two_pos F.bias
  have hP := two_pos F.prec
  have hPB : 2 ^ (F.prec - 1) < 2 ^ F.bias := Nat.pow_lt_pow_right (by decide) (by omega)
  rcases Nat.eq_zero_or_pos a with h0 | h0
  · subst h0
    rw [(mag_zero F k).1, Nat.zero_mul, Nat.zero_mul, Nat.mul_zero, Nat.mul_zero, Nat.mul_zero]
    refine ⟨Nat.le_refl _, fun _ => ?_⟩
    exact Nat.mul_pos (Nat.mul_pos hP hP) (by omega)
  · have hA := round_rel F (num := a * 2 ^ F.bias) (den := 1) (by decide)
      (by have := Nat.mul_le_mul_right (2 ^ F.bias) h0; omega)
    rw [Nat.mul_one] at hA
    unfold mag
    generalize round F (a * 2 ^ F.bias) 1 = A at *
    by_cases hs : 2 ^ (F.prec - 1) * 2 ^ F.bias ≤ A * k
    · have hY := round_rel F (two_pos F.bias) hs
      generalize round F (A * k) (2 ^ F.bias) = Y at *
      have hq := Nat.div_mul_le_self Y (2 ^ F.bias)
      have hq2 := Nat.lt_mul_of_div_lt (Nat.lt_succ_self (Y / 2 ^ F.bias)) hB
      generalize 2 ^ F.bias = B at *
      generalize 2 ^ F.prec = P at *
      generalize Y / B = q at *
      constructor
      · refine err_up hB (A := A) (Y := Y) ?_ ?_ ?_
        · rw [Nat.add_mul, Nat.one_mul]; exact hA.2
        · rw [Nat.add_mul, Nat.one_mul]; exact hY.2
        · exact Nat.le_trans (Nat.mul_le_mul_right _ (Nat.min_le_left _ _)) hq
      · intro hlt
        have : min q 9223372036854775807 = q := by omega
        rw [this]
        exact err_low hB hP hA.1 hY.1 hq2
    · have hY := round_small F (two_pos F.bias) (Nat.le_of_lt (Nat.lt_of_not_le hs))
      have hq : round F (A * k) (2 ^ F.bias) / 2 ^ F.bias = 0 := Nat.div_eq_of_lt (by omega)
      rw [hq, Nat.zero_min, Nat.zero_mul, Nat.mul_zero]
      refine ⟨Nat.zero_le _, fun _ => ?_⟩
      rw [Nat.zero_add, Nat.one_mul]
      have h1 : (2 ^ F.prec - 1) * (a * 2 ^ F.bias) ≤ 2 ^ F.prec * A := by
        rw [Nat.sub_mul, Nat.one_mul]; omega
      have hs := Nat.lt_of_not_le hs
      generalize 2 ^ F.bias = B at *
      generalize 2 ^ F.prec = P at *
      generalize 2 ^ (F.prec - 1) = H at *
      -- (P-1) a k B ≤ P A k < P H B
      have h2 : (P - 1) * (a * k) * B < P * H * B := by
        have k1 := Nat.mul_le_mul_left k h1
        have k2 := Nat.mul_lt_mul_of_pos_left hs hP
        have e1 : k * ((P - 1) * (a * B)) = (P - 1) * (a * k) * B := by ac_rfl
        have e2 : k * (P * A) = P * (A * k) := by ac_rfl
        have e3 : P * H * B = P * (H * B) := by ac_rfl
        omega
      have h3 := Nat.lt_of_mul_lt_mul_right h2
      calc (P - 1) * (P - 1) * (a * k) = (P - 1) * ((P - 1) * (a * k)) := by ac_rfl
        _ ≤ P * ((P - 1) * (a * k)) := Nat.mul_le_mul_right _ (Nat.sub_le _ _)
        _ < P * (P * H) := Nat.mul_lt_mul_of_pos_left h3 hP
        _ ≤ P * (P * B) := Nat.mul_le_mul_left _ (Nat.mul_le_mul_left _ (Nat.le_of_lt hPB))
        _ = P * P * B := by ac_rfl

theorem sq_up {Q X Y : Nat} (hQ : 0 < Q)
    (h : 4 * Q * (4 * Q) * X ≤ (4 * Q + 1) * (4 * Q + 1) * Y) : Q * X ≤ (Q + 1) * Y := by
  have e1 : 4 * Q * (4 * Q) * X = 16 * Q * (Q * X) := by
    rw [show 16 = 4 * 4 by rfl]; ac_rfl
  have e2 : (4 * Q + 1) * (4 * Q + 1) * Y ≤ 16 * Q * ((Q + 1) * Y) := by
    rw [← Nat.mul_assoc (16 * Q)]
    refine Nat.mul_le_mul_right _ ?_
    have : (4 * Q + 1) * (4 * Q + 1) = 16 * (Q * Q) + 8 * Q + 1 := by
      rw [Nat.add_mul, Nat.mul_add, Nat.mul_assoc 4, Nat.mul_left_comm Q 4]; omega
    have : 16 * Q * (Q + 1) = 16 * (Q * Q) + 16 * Q := by rw [Nat.mul_add, Nat.mul_assoc]; omega
    omega
  exact Nat.le_of_mul_le_mul_left (by omega : 16 * Q * (Q * X) ≤ 16 * Q * ((Q + 1) * Y)) (by omega)

theorem sq_low {Q X Y : Nat} (hQ : 0 < Q)
    (h : (4 * Q - 1) * (4 * Q - 1) * X < 4 * Q * (4 * Q) * Y) : (Q - 1) * X < Q * Y := by
  have e1 : 4 * Q * (4 * Q) * Y = 16 * Q * (Q * Y) := by
    rw [show 16 = 4 * 4 by rfl]; ac_rfl
  have e2 : 16 * Q * ((Q - 1) * X) ≤ (4 * Q - 1) * (4 * Q - 1) * X := by
    rw [← Nat.mul_assoc (16 * Q)]
    refine Nat.mul_le_mul_right _ ?_
    obtain ⟨q, rfl⟩ : ∃ q, Q = q + 1 := ⟨Q - 1, by omega⟩
    have : 4 * (q + 1) - 1 = 4 * q + 3 := by omega
    rw [this, Nat.add_sub_cancel]
    have : (4 * q + 3) * (4 * q + 3) = 16 * (q * q) + 24 * q + 9 := by
      rw [Nat.add_mul, Nat.mul_add, Nat.mul_assoc 4, Nat.mul_left_comm q 4]; omega
    have : 16 * (q + 1) * q = 16 * (q * q) + 16 * q := by rw [Nat.mul_assoc, Nat.add_mul]; omega
    omega
  exact Nat.lt_of_mul_lt_mul_left (by omega : 16 * Q * ((Q - 1) * X) < 16 * Q * (Q * Y))

theorem cube_up {Q X Y : Nat} (hQ : 0 < Q)
    (h : 4 * Q * (4 * Q) * (4 * Q) * X ≤ (4 * Q + 1) * (4 * Q + 1) * (4 * Q + 1) * Y) :
    Q * X ≤ (Q + 1) * Y := by
  have e1 : 4 * Q * (4 * Q) * (4 * Q) * X = 64 * (Q * Q) * (Q * X) := by
    rw [show 64 = 4 * 4 * 4 by rfl]; ac_rfl
  have e2 : (4 * Q + 1) * (4 * Q + 1) * (4 * Q + 1) * Y ≤ 64 * (Q * Q) * ((Q + 1) * Y) := by
    rw [← Nat.mul_assoc (64 * (Q * Q))]
    refine Nat.mul_le_mul_right _ ?_
    have a1 : (4 * Q + 1) * (4 * Q + 1) = 16 * (Q * Q) + 8 * Q + 1 := by
      rw [Nat.add_mul, Nat.mul_add, Nat.mul_assoc 4, Nat.mul_left_comm Q 4]; omega
    have a2 : (16 * (Q * Q) + 8 * Q + 1) * (4 * Q + 1) = 64 * (Q * Q * Q) + 48 * (Q * Q) + 12 * Q + 1 := by
      rw [Nat.mul_add, Nat.add_mul, Nat.add_mul]
      have b1 : 16 * (Q * Q) * (4 * Q) = 64 * (Q * Q * Q) := by rw [show 64 = 16 * 4 by rfl]; ac_rfl
      have b2 : 8 * Q * (4 * Q) = 32 * (Q * Q) := by rw [show 32 = 8 * 4 by rfl]; ac_rfl
      omega
    have a3 : 64 * (Q * Q) * (Q + 1) = 64 * (Q * Q * Q) + 64 * (Q * Q) := by rw [Nat.mul_add, Nat.mul_assoc]; omega
    have : Q ≤ Q * Q := Nat.le_mul_of_pos_left Q hQ
    rw [a1, a2, a3]; omega
  exact Nat.le_of_mul_le_mul_left (by omega : 64 * (Q * Q) * (Q * X) ≤ 64 * (Q * Q) * ((Q + 1) * Y))
    (by have := Nat.mul_pos hQ hQ; omega)

theorem cube_low {Q X Y : Nat} (hQ : 0 < Q)
    (h : (4 * Q - 1) * (4 * Q - 1) * (4 * Q - 1) * X < 4 * Q * (4 * Q) * (4 * Q) * Y) :
    (Q - 1) * X < Q * Y := by
  have e1 : 4 * Q * (4 * Q) * (4 * Q) * Y = 64 * (Q * Q) * (Q * Y) := by
    rw [show 64 = 4 * 4 * 4 by rfl]; ac_rfl
  have e2 : 64 * (Q * Q) * ((Q - 1) * X) ≤ (4 * Q - 1) * (4 * Q - 1) * (4 * Q - 1) * X := by
    rw [← Nat.mul_assoc (64 * (Q * Q))]
    refine Nat.mul_le_mul_right _ ?_
    obtain ⟨q, rfl⟩ : ∃ q, Q = q + 1 := ⟨Q - 1, by omega⟩
    have : 4 * (q + 1) - 1 = 4 * q + 3 := by omega
    rw [this, Nat.add_sub_cancel]
    have a1 : (4 * q + 3) * (4 * q + 3) = 16 * (q * q) + 24 * q + 9 := by
      rw [Nat.add_mul, Nat.mul_add, Nat.mul_assoc 4, Nat.mul_left_comm q 4]; omega
    have a2 : (16 * (q * q) + 24 * q + 9) * (4 * q + 3) = 64 * (q * q * q) + 144 * (q * q) + 108 * q + 27 := by
      rw [Nat.mul_add, Nat.add_mul, Nat.add_mul]
      have b1 : 16 * (q * q) * (4 * q) = 64 * (q * q * q) := by rw [show 64 = 16 * 4 by rfl]; ac_rfl
      have b2 : 24 * q * (4 * q) = 96 * (q * q) := by rw [show 96 = 24 * 4 by rfl]; ac_rfl
      omega
    have a3 : 64 * ((q + 1) * (q + 1)) * q = 64 * (q * q * q) + 128 * (q * q) + 64 * q := by
      have c : (q + 1) * (q + 1) = q * q + 2 * q + 1 := by rw [Nat.add_mul, Nat.mul_add]; omega
      rw [c, Nat.mul_assoc, Nat.add_mul, Nat.add_mul]
      have b2 : 2 * q * q = 2 * (q * q) := by ac_rfl
      omega
    rw [a1, a2, a3]; omega
  exact Nat.lt_of_mul_lt_mul_left (by omega : 64 * (Q * Q) * ((Q - 1) * X) < 64 * (Q * Q) * (Q * Y))

theorem prec_quarter (F : FTy) : 2 ^ F.prec = 4 * 2 ^ (F.prec - 2) := by cases F <;> decide

end Fl
end Chrono
