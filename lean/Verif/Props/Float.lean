import Verif.Spec.Float
import Verif.Lemmas.Float

set_option linter.unusedSimpArgs false

/-!
# Properties of durations scaled by floats (C98)
-/

namespace Chrono
open Spec Fl

theorem posF_iff {n : Fl} : PosF n ↔ lt zero n = true := by
  cases n with
  | nan => simp [PosF, lt, zero]
  | inf s => cases s <;> simp [PosF, lt, zero]
  | fin s k => cases s <;> simp [PosF, lt, zero] <;> omega

theorem negF_iff {n : Fl} : NegF n ↔ lt n zero = true := by
  cases n with
  | nan => simp [NegF, lt, zero]
  | inf s => cases s <;> simp [NegF, lt, zero]
  | fin s k => cases s <;> simp [NegF, lt, zero] <;> omega

theorem smallF_iff {F : FTy} {n : Fl} : SmallF F n ↔ lt n.abs (one F) = true := by
  cases n with
  | nan => simp [SmallF, lt, one, abs]
  | inf s => simp [SmallF, lt, one, abs]
  | fin s k => simp only [SmallF, lt, one, abs, decide_eq_true_eq, Bool.false_eq_true, if_false]; omega

theorem bigF_iff {F : FTy} {n : Fl} : BigF F n ↔ lt (one F) n.abs = true := by
  cases n with
  | nan => simp [BigF, lt, one, abs]
  | inf s => simp [BigF, lt, one, abs]
  | fin s k => simp only [BigF, lt, one, abs, decide_eq_true_eq, Bool.false_eq_true, if_false]; omega

/-! ## C98 durations -/

/-- The arithmetic of the model is that of IEEE 754: a product, a quotient `1/n` and the conversion of an
integer are rounded to a number of the format, and no number of the format is nearer to the exact result. -/
theorem C98_ieee (F : FTy) (num den : Nat) (hd : 0 < den) :
    (∃ m j, m < 2 ^ F.prec ∧ round F num den = m * 2 ^ j) ∧ ∀ m j, m < 2 ^ F.prec →
      ((round F num den * den : Nat) - (num : Int)).natAbs ≤ ((m * 2 ^ j * den : Nat) - (num : Int)).natAbs :=
  ⟨round_repr F num hd, fun m j hm => round_nearest F hd ⟨m, j, hm, rfl⟩⟩

theorem repr_of_le {F : FTy} {a : Nat} (h : a ≤ 2 ^ F.prec) (j : Nat) {den : Nat} (hd : 0 < den) :
    round F (a * 2 ^ j * den) den = a * 2 ^ j := by
  rcases Nat.lt_or_ge a (2 ^ F.prec) with h1 | h1
  · exact round_exact F hd h1
  · have e : a = 2 ^ F.prec := by omega
    have := round_exact F (m := 1) (j := F.prec + j) hd (by cases F <;> decide)
    rw [Nat.one_mul, Nat.pow_add] at this
    rw [e]; exact this

/-- C98. Multiplying a duration by a whole float gives exactly the multiple, as long as the duration and
the result have at most `2^53` (`2^24` for `f32`) ticks. In particular `t * 1.0 = t` and
`t * 0.0 = 0`. -/
theorem C98_exact (F : FTy) (t z : Int) (ht : t.natAbs ≤ 2 ^ F.prec) (hz : (t * z).natAbs ≤ 2 ^ F.prec) :
    tvMulF F t (wholeF F z) = t * z := by
  have hl : Legal t := by
    have : 2 ^ F.prec ≤ 9007199254740992 := by cases F <;> decide
    ticks
  rw [wholeF, tvMulF_fin F hl, mag]
  have e1 := repr_of_le ht F.bias (den := 1) (by decide)
  rw [Nat.mul_one] at e1
  have e2 : t.natAbs * 2 ^ F.bias * (z.natAbs * 2 ^ F.bias) = (t * z).natAbs * 2 ^ F.bias * 2 ^ F.bias := by
    rw [Int.natAbs_mul]; ac_rfl
  rw [e1, e2, repr_of_le hz _ (two_pos _), Nat.mul_div_cancel _ (two_pos _)]
  have hm : min (t * z).natAbs 9223372036854775807 = (t * z).natAbs := by
    have : 2 ^ F.prec ≤ 9007199254740992 := by cases F <;> decide
    omega
  rw [hm]
  rcases Int.lt_or_le t 0 with h1 | h1 <;> rcases Int.lt_or_le z 0 with h2 | h2
  · have := Int.mul_nonneg_of_nonpos_of_nonpos (Int.le_of_lt h1) (Int.le_of_lt h2)
    simp [h1, h2]; omega
  · have := Int.mul_nonpos_of_nonpos_of_nonneg (Int.le_of_lt h1) h2
    have h2' : ¬ z < 0 := by omega
    simp [h1, h2']; omega
  · have := Int.mul_nonpos_of_nonneg_of_nonpos h1 (Int.le_of_lt h2)
    have h1' : ¬ t < 0 := by omega
    simp [h1', h2]; omega
  · have := Int.mul_nonneg h1 h2
    have h1' : ¬ t < 0 := by omega
    have h2' : ¬ z < 0 := by omega
    simp [h1', h2']; omega

/-- C98. The product of a duration by any finite float `± k/2^bias` is within one tick and one part in
`2^51` (`2^22` for `f32`) of the exact product; it is infinite only if the exact product is, within
this part, out of range; and it has the sign of the product. -/
theorem C98_error (F : FTy) (t : Int) (ht : Legal t) (s : Bool) (k : Nat) :
    let r := tvMulF F t (.fin s k)
    Legal r ∧
    2 ^ (F.prec - 2) * (r.natAbs * 2 ^ F.bias) ≤ (2 ^ (F.prec - 2) + 1) * (t.natAbs * k) ∧
    (Date r → (2 ^ (F.prec - 2) - 1) * (t.natAbs * k) < 2 ^ (F.prec - 2) * ((r.natAbs + 1) * 2 ^ F.bias)) ∧
    (r ≠ 0 → (r < 0 ↔ (t < 0) ≠ (s = true))) := by
  intro r
  have hr : r = if (decide (t < 0) != s) then -(mag F t.natAbs k : Int) else mag F t.natAbs k :=
    tvMulF_fin F ht s k
  have hm := mag_le F t.natAbs k
  have e : r.natAbs = mag F t.natAbs k := by rw [hr]; split <;> omega
  obtain ⟨h1, h2⟩ := mag_err F t.natAbs k
  rw [prec_quarter F] at h1 h2
  have hQ := two_pos (F.prec - 2)
  refine ⟨?_, ?_, fun hd => ?_, ?_⟩
  · unfold Legal; omega
  · rw [e]; exact sq_up hQ h1
  · rw [e]
    refine sq_low hQ (h2 ?_)
    rw [← e]; ticks
  · rw [hr]
    cases s <;> by_cases h : t < 0 <;> simp [h] <;> omega

/-- C98. A product by a given float keeps the order of durations, or reverses it if the float is negative,
and `(-t) * n`, `t * (-n)` are `-(t * n)`. (NaN is neither positive nor negative: the product is 0.) -/
theorem C98_monotone (F : FTy) (n : Fl) (t t' : Int) (h : Legal t) (h' : Legal t') (hle : t ≤ t') :
    (¬ NegF n → tvMulF F t n ≤ tvMulF F t' n) ∧ (NegF n → tvMulF F t' n ≤ tvMulF F t n) ∧
    tvMulF F (-t) n = -tvMulF F t n ∧ tvMulF F t n.neg = -tvMulF F t n := by
  obtain ⟨g, m, g0, gl, gz, e⟩ := tvMulF_form F n
  have pos : NegF n → sign n = true := by
    cases n <;> simp [negF_iff, lt, zero, sign] <;> intros <;> simp_all
    rename_i s k h; cases s <;> simp at h ⊢; omega
  refine ⟨fun hn => ?_, fun hn => ?_, ?_, ?_⟩
  · rw [e t h, e t' h']
    cases hs : sign n
    · by_cases c : t < 0 <;> by_cases c' : t' < 0 <;> simp only [c, c', decide_true, decide_false] <;> simp
      · exact m _ _ (by omega)
      · omega
      · exact m _ _ (by omega)
    · simp [gz hs (by simpa [negF_iff] using hn)]
  · rw [e t h, e t' h', pos hn]
    by_cases c : t < 0 <;> by_cases c' : t' < 0 <;> simp only [c, c', decide_true, decide_false] <;> simp
    · exact m _ _ (by omega)
    · omega
    · exact m _ _ (by omega)
  · rw [e t h, e (-t) (by ticks), Int.natAbs_neg]
    rcases Int.lt_trichotomy t 0 with c | c | c
    · have c1 : ¬ (-t < 0) := by omega
      simp only [c, c1, decide_true, decide_false]
      cases sign n <;> simp
    · subst c; simp [g0]
    · have c1 : -t < 0 := by omega
      have c2 : ¬ t < 0 := by omega
      simp only [c1, c2, decide_true, decide_false]
      cases sign n <;> simp
  · clear e g m g0 gl gz pos
    cases n with
    | nan => simp [neg, tvMulF_nan F h]
    | inf s =>
      rw [neg, tvMulF_inf F h, tvMulF_inf F h]
      by_cases c : t = 0
      · simp [c]
      · cases s <;> by_cases c1 : t < 0 <;> simp [c, c1]
    | fin s k =>
      rw [neg, tvMulF_fin F h, tvMulF_fin F h]
      cases s <;> by_cases c1 : t < 0 <;> simp [c1]

/-- C98. A greater factor gives a greater product of a duration that is not negative. -/
theorem C98_monotone_factor (F : FTy) (n n' : Fl) (t : Int) (h : Legal t) (h0 : 0 ≤ t) (hn : Fl.lt n n' = true) :
    tvMulF F t n ≤ tvMulF F t n' := by
  have h1 : ¬ t < 0 := by omega
  have hm := mag_le F t.natAbs
  cases n with
  | nan => simp [lt] at hn
  | inf s =>
    cases n' with
    | nan => simp [lt] at hn
    | inf s' =>
      simp [lt] at hn
      rw [tvMulF_inf F h, tvMulF_inf F h, hn.1, hn.2]
      simp only [h1]; split <;> simp; decide
    | fin s' k' =>
      simp [lt] at hn
      rw [tvMulF_inf F h, tvMulF_fin F h, hn]
      have := hm k'
      by_cases c : t = 0
      · subst c; simp [(mag_zero F k').1]
      · simp only [h1, c, if_false]
        cases s' <;> simp <;> omega
  | fin s k =>
    cases n' with
    | nan => simp [lt] at hn
    | inf s' =>
      simp [lt] at hn
      rw [tvMulF_inf F h, tvMulF_fin F h, hn]
      have := hm k
      by_cases c : t = 0
      · subst c; simp [(mag_zero F k).1]
      · simp only [h1, c, if_false]
        cases s <;> simp <;> unfold INF at * <;> omega
    | fin s' k' =>
      rw [tvMulF_fin F h, tvMulF_fin F h]
      have a1 := fun c => @mag_mono F t.natAbs t.natAbs k k' (Nat.le_refl _) c
      have a2 := fun c => @mag_mono F t.natAbs t.natAbs k' k (Nat.le_refl _) c
      simp only [h1]
      cases s <;> cases s' <;> simp [lt] at hn ⊢
      · exact a1 (by omega)
      · omega
      · exact a2 (by omega)

/-- C98. A quotient is within one tick and one part in `2^51` (`2^22` for `f32`) of the exact quotient
`t * 2^bias / k`, for every finite divisor other than zero. -/
theorem C98_div_error (F : FTy) (t : Int) (ht : Legal t) (s : Bool) (k : Nat) (hk : 0 < k) :
    let r := tvDivF F t (.fin s k)
    Legal r ∧
    2 ^ (F.prec - 2) * (r.natAbs * k) ≤ (2 ^ (F.prec - 2) + 1) * (t.natAbs * 2 ^ F.bias) ∧
    (Date r → (2 ^ (F.prec - 2) - 1) * (t.natAbs * 2 ^ F.bias) < 2 ^ (F.prec - 2) * ((r.natAbs + 1) * k)) := by
  intro r
  obtain ⟨hp, hb, htop⟩ := sizes F
  have hB := two_pos F.bias
  have hP := two_pos F.prec
  have hQ := two_pos (F.prec - 2)
  have hr : r = tvMulF F t (pack F s (round F (2 ^ F.bias * 2 ^ F.bias) k)) := by
    show tvDivF F t (.fin s k) = _
    rw [tvDivF, recip, if_neg (by omega)]
  by_cases hs : 2 ^ (F.prec - 1) * k ≤ 2 ^ F.bias * 2 ^ F.bias
  · obtain ⟨r1, r2⟩ := round_rel F hk hs
    generalize hR : round F (2 ^ F.bias * 2 ^ F.bias) k = R at *
    by_cases hfin : R < 2 ^ F.top
    · rw [pack, if_pos hfin] at hr
      rw [tvMulF_fin F ht] at hr
      have hm := mag_le F t.natAbs R
      have e : r.natAbs = mag F t.natAbs R := by rw [hr]; split <;> omega
      obtain ⟨h1, h2⟩ := mag_err F t.natAbs R
      rw [e]
      refine ⟨by unfold Legal; omega, ?_, fun hd => ?_⟩
      · refine cube_up hQ ?_
        rw [← prec_quarter F]
        clear h2 hr
        generalize mag F t.natAbs R = M at *
        generalize 2 ^ F.prec = P at *
        generalize 2 ^ F.bias = B at *
        have a1 := Nat.mul_le_mul_left (P * k) h1
        have a2 := Nat.mul_le_mul_left ((P + 1) * (P + 1) * t.natAbs) r2
        have e1 : P * k * (P * P * (M * B)) = P * P * P * (M * k) * B := by ac_rfl
        have e2 : P * k * ((P + 1) * (P + 1) * (t.natAbs * R)) = (P + 1) * (P + 1) * t.natAbs * (P * (R * k)) := by
          ac_rfl
        have e3 : (P + 1) * (P + 1) * t.natAbs * (P * (B * B) + B * B) =
            (P + 1) * (P + 1) * (P + 1) * (t.natAbs * B) * B := by
          rw [show P * (B * B) + B * B = (P + 1) * (B * B) by rw [Nat.add_mul, Nat.one_mul]]; ac_rfl
        exact Nat.le_of_mul_le_mul_right (by omega) hB
      · have h2 := h2 (by rw [← e]; ticks)
        refine cube_low hQ ?_
        rw [← prec_quarter F]
        clear h1 hr e hm
        generalize mag F t.natAbs R = M at *
        generalize 2 ^ F.prec = P at *
        generalize 2 ^ F.bias = B at *
        have r1 : (P - 1) * (B * B) ≤ P * (R * k) := by rw [Nat.sub_mul, Nat.one_mul]; omega
        generalize P - 1 = S at *
        have a1 := Nat.mul_lt_mul_of_pos_left h2 (Nat.mul_pos hP hk)
        have a2 := Nat.mul_le_mul_left (S * S * t.natAbs) r1
        have e1 : P * k * (P * P * ((M + 1) * B)) = P * P * P * ((M + 1) * k) * B := by ac_rfl
        have e2 : P * k * (S * S * (t.natAbs * R)) = S * S * t.natAbs * (P * (R * k)) := by ac_rfl
        have e3 : S * S * t.natAbs * (S * (B * B)) = S * S * S * (t.natAbs * B) * B := by ac_rfl
        exact Nat.lt_of_mul_lt_mul_right (a := B) (by omega)
    · rw [pack, if_neg hfin, tvMulF_inf F ht] at hr
      by_cases h0 : t = 0
      · rw [if_pos h0] at hr
        rw [hr, h0]
        refine ⟨by decide, by simp, fun _ => ?_⟩
        simp only [Int.natAbs_zero, Nat.zero_mul, Nat.mul_zero, Nat.zero_add, Nat.one_mul]
        exact Nat.mul_pos hQ hk
      · rw [if_neg h0] at hr
        have e : r.natAbs = 9223372036854775807 := by rw [hr]; split <;> rfl
        refine ⟨by rw [hr]; split <;> decide, ?_, fun hd => absurd hd (by rw [hr]; split <;> decide)⟩
        rw [e]
        -- R ≥ 2^top, so k is tiny
        have a1 : 2 ^ F.prec * (2 ^ F.top * k) ≤ 2 ^ F.prec * (R * k) :=
          Nat.mul_le_mul_left _ (Nat.mul_le_mul_right _ (by omega))
        have a2 : 2 ^ F.prec * (2 ^ F.top * k) ≤ 2 ^ F.prec * (2 * (2 ^ F.bias * 2 ^ F.bias)) := by
          have : 2 ^ F.bias * 2 ^ F.bias ≤ 2 ^ F.prec * (2 ^ F.bias * 2 ^ F.bias) :=
            Nat.le_mul_of_pos_left _ hP
          rw [Nat.mul_left_comm _ 2]; omega
        have a3 := Nat.le_of_mul_le_mul_left a2 hP
        have a4 : 2 ^ 64 * 2 ^ F.bias * k ≤ 2 ^ F.top * k := by
          rw [← Nat.pow_add]
          exact Nat.mul_le_mul_right _ (Nat.pow_le_pow_right (by decide) (by omega))
        have a5 : 2 ^ 64 * k * 2 ^ F.bias ≤ 2 * 2 ^ F.bias * 2 ^ F.bias := by
          have : 2 ^ 64 * k * 2 ^ F.bias = 2 ^ 64 * 2 ^ F.bias * k := by ac_rfl
          rw [Nat.mul_assoc 2]; omega
        have a6 := Nat.le_of_mul_le_mul_right a5 hB
        have a7 : 9223372036854775807 * k ≤ t.natAbs * 2 ^ F.bias := by
          have : 1 * 2 ^ F.bias ≤ t.natAbs * 2 ^ F.bias := Nat.mul_le_mul_right _ (by omega)
          omega
        exact Nat.mul_le_mul (Nat.le_succ _) a7
  · have hs := Nat.lt_of_not_le hs
    have hR := round_small F (num := 2 ^ F.bias * 2 ^ F.bias) hk (Nat.le_of_lt hs)
    generalize round F (2 ^ F.bias * 2 ^ F.bias) k = R at *
    have hfin : R < 2 ^ F.top := Nat.lt_of_le_of_lt hR (Nat.pow_lt_pow_right (by decide) (by omega))
    rw [pack, if_pos hfin, tvMulF_fin F ht] at hr
    obtain ⟨h1, -⟩ := mag_err F t.natAbs R
    have hz : mag F t.natAbs R = 0 := by
      rw [prec_quarter F] at h1
      have h1 := sq_up hQ h1
      have ht' : t.natAbs ≤ 2 ^ 63 := by ticks
      have h3 := Nat.mul_le_mul ht' hR
      rcases Nat.eq_zero_or_pos (mag F t.natAbs R) with h | h
      · exact h
      · exfalso
        generalize mag F t.natAbs R = M at *
        have c1 : 1 * 2 ^ F.bias ≤ M * 2 ^ F.bias := Nat.mul_le_mul_right _ h
        have c2 : 2 ^ (F.prec - 2) * (1 * 2 ^ F.bias) ≤ (2 ^ (F.prec - 2) + 1) * (2 ^ 63 * 2 ^ (F.prec - 1)) :=
          Nat.le_trans (Nat.mul_le_mul_left _ c1) (Nat.le_trans h1 (Nat.mul_le_mul_left _ h3))
        revert c2
        cases F <;> decide +kernel
    rw [hz] at hr
    have hr0 : r = 0 := by rw [hr]; split <;> rfl
    rw [hr0]
    refine ⟨by decide, by simp, fun _ => ?_⟩
    simp only [Int.natAbs_zero, Nat.zero_add, Nat.one_mul]
    have a1 : t.natAbs * 2 ^ F.bias < k := by
      have ht' : t.natAbs * 2 ^ F.bias * 2 ^ (F.prec - 1) ≤ 2 ^ 63 * 2 ^ F.bias * 2 ^ (F.prec - 1) :=
        Nat.mul_le_mul_right _ (Nat.mul_le_mul_right _ (by ticks))
      have : 2 ^ 63 * 2 ^ F.bias * 2 ^ (F.prec - 1) ≤ 2 ^ F.bias * 2 ^ F.bias := by
        rw [← Nat.pow_add, ← Nat.pow_add, ← Nat.pow_add]
        exact Nat.pow_le_pow_right (by decide) (by omega)
      rw [Nat.mul_comm (2 ^ (F.prec - 1)) k] at hs
      exact Nat.lt_of_mul_lt_mul_right (a := 2 ^ (F.prec - 1)) (by omega)
    calc (2 ^ (F.prec - 2) - 1) * (t.natAbs * 2 ^ F.bias)
        ≤ 2 ^ (F.prec - 2) * (t.natAbs * 2 ^ F.bias) := Nat.mul_le_mul_right _ (Nat.sub_le _ _)
      _ < 2 ^ (F.prec - 2) * k := Nat.mul_lt_mul_of_pos_left a1 hQ

/-- C98. A quotient keeps the order of durations, or reverses it if the divisor is negative. -/
theorem C98_div_monotone (F : FTy) (n : Fl) (t t' : Int) (h : Legal t) (h' : Legal t') (hle : t ≤ t') :
    (PosF n → tvDivF F t n ≤ tvDivF F t' n) ∧ (NegF n → tvDivF F t' n ≤ tvDivF F t n) := by
  have hr : ∀ s k, (NegF (recip F (.fin s k)) → s = true) := by
    intro s k
    simp only [recip]
    split
    · cases s <;> simp [negF_iff, lt, zero]
    · unfold pack
      split <;> cases s <;> simp [negF_iff, lt, zero]
  have hr2 : ∀ s k, s = true → (NegF (recip F (.fin s k)) ∨ recip F (.fin s k) = .fin true 0) := by
    intro s k hs
    subst hs
    simp only [recip]
    split
    · simp [negF_iff, lt, zero]
    · unfold pack
      split
      · simp [negF_iff, lt, zero]; omega
      · simp [negF_iff, lt, zero]
  have z : ∀ s t, Legal t → tvMulF F t (.fin s 0) = 0 := by
    intro s t h
    rw [tvMulF_fin F h, (mag_zero F 0).2]; simp
  refine ⟨fun hn => ?_, fun hn => ?_⟩
  · refine (C98_monotone F (recip F n) t t' h h' hle).1 fun hc => ?_
    cases n with
    | nan => simp [posF_iff, lt, zero] at hn
    | inf s => cases s <;> simp [recip, NegF, lt, zero] at hc
    | fin s k =>
      have := hr s k hc
      subst this
      simp [posF_iff, lt, zero] at hn; omega
  · cases n with
    | nan => simp [negF_iff, lt, zero] at hn
    | inf s => simp only [tvDivF, recip]; rw [z _ _ h, z _ _ h']; decide
    | fin s k =>
      have hs : s = true := by
        cases s
        · simp [negF_iff, lt, zero] at hn; omega
        · rfl
      rcases hr2 s k hs with c | c
      · exact (C98_monotone F _ t t' h h' hle).2.1 c
      · simp only [tvDivF, c]; rw [z _ _ h, z _ _ h']; decide

/-- C98, partial: an infinite duration stays infinite when it is multiplied by a float of at least 1. Missing:
smaller factors, see `C98_violated`. -/
theorem C98_infinite_partial (F : FTy) (n : Fl) (hn : n ≠ .nan) (h1 : Fl.lt n (one F) = false) :
    tvMulF F INF n = INF ∧ tvMulF F (-INF) n = -INF := by
  have hp : tvMulF F INF n = INF := by
    cases n with
    | nan => exact absurd rfl hn
    | inf s =>
      cases s
      · rw [tvMulF_inf F (by decide)]; decide
      · simp [lt, one] at h1
    | fin s k =>
      have hB := two_pos F.bias
      have hsk : s = false ∧ 2 ^ F.bias ≤ k := by
        cases s <;> simp [lt, one] at h1 ⊢
        · exact_mod_cast h1
        · have : (0 : Int) < 2 ^ F.bias := by exact_mod_cast hB
          omega
      obtain ⟨rfl, hk⟩ := hsk
      rw [tvMulF_fin F (by decide)]
      have e : INF.natAbs = 9223372036854775807 := rfl
      have hm : mag F INF.natAbs k = 9223372036854775807 := by
        rw [e, mag, round_INF]
        have a1 : 1 * 2 ^ (63 + F.bias) * 2 ^ F.bias ≤ 2 ^ 63 * 2 ^ F.bias * k := by
          rw [Nat.one_mul, Nat.pow_add]
          exact Nat.mul_le_mul_left _ hk
        have a2 := round_mono F hB a1
        rw [round_exact F hB (by cases F <;> decide), Nat.one_mul, Nat.pow_add] at a2
        have := (Nat.le_div_iff_mul_le hB).2 a2
        omega
      rw [hm]; decide
  refine ⟨hp, ?_⟩
  rw [(C98_monotone F n INF INF (by decide) (by decide) (Int.le_refl _)).2.2.1, hp]

/-- C98 is violated. Every positive float below 1 makes an infinite duration finite; NaN makes it 0;
multiplying by `1.0` changes a duration of `2^53 + 1` ticks; dividing 49 ticks by `49.0` gives 0. -/
theorem C98_violated :
    (∀ (F : FTy) (k : Nat), IsFloat F (.fin false k) → k < 2 ^ F.bias → Date (tvMulF F INF (.fin false k))) ∧
    tvMulF .f64 INF .nan = 0 ∧
    tvMulF .f64 9007199254740993 (wholeF .f64 1) = 9007199254740992 ∧
    tvDivF .f64 49 (wholeF .f64 49) = 0 := by
  refine ⟨fun F k hk h => ?_, by decide +kernel, by decide +kernel, by decide +kernel⟩
  obtain ⟨⟨m, j, hm, rfl⟩, -⟩ := hk
  have hB := two_pos F.bias
  rw [tvMulF_fin F (by decide)]
  have e : INF.natAbs = 9223372036854775807 := rfl
  have hmag : mag F INF.natAbs (m * 2 ^ j) ≤ 9223372036854774784 := by
    rw [e, mag, round_INF]
    -- the largest float below 1
    have hle : m * 2 ^ j ≤ (2 ^ F.prec - 1) * 2 ^ (F.bias - F.prec) := by
      obtain ⟨hp, hb, -⟩ := sizes F
      by_cases hj : F.bias - F.prec ≤ j
      · have e2 : m * 2 ^ j = m * 2 ^ (j - (F.bias - F.prec)) * 2 ^ (F.bias - F.prec) := by
          rw [Nat.mul_assoc, ← Nat.pow_add]; congr 2; omega
        have e3 : 2 ^ F.bias = 2 ^ F.prec * 2 ^ (F.bias - F.prec) := by
          rw [← Nat.pow_add]; congr 1; omega
        rw [e2, e3] at h
        rw [e2]
        have := Nat.lt_of_mul_lt_mul_right h
        exact Nat.mul_le_mul_right _ (by omega)
      · exact Nat.mul_le_mul (by omega) (Nat.pow_le_pow_right (by decide) (by omega))
    have h1 := round_mono F hB (Nat.mul_le_mul_left (2 ^ 63 * 2 ^ F.bias) hle)
    have h2 : round F (2 ^ 63 * 2 ^ F.bias * ((2 ^ F.prec - 1) * 2 ^ (F.bias - F.prec))) (2 ^ F.bias) / 2 ^ F.bias ≤
        9223372036854774784 := by cases F <;> decide +kernel
    have h3 := Nat.div_le_div_right (c := 2 ^ F.bias) h1
    omega
  generalize mag F INF.natAbs (m * 2 ^ j) = M at *
  simp only [show decide (INF < 0) = false by decide]
  simp
  unfold Date INF
  omega

/-- C98 is violated beyond `2^53` ticks (97 days; 15.6 ms for `f32`): no product is ever an odd number of ticks, whatever the duration and the
float. In particular `t * 1.0 ≠ t` for every odd `t` beyond. -/
theorem C98_odd_violated (F : FTy) (t r : Int) (n : Fl) (ht : Legal t) (hr : Date r) (hb : 2 ^ F.prec < r.natAbs)
    (ho : r % 2 = 1) : tvMulF F t n ≠ r := by
  have hB := two_pos F.bias
  intro h
  cases n with
  | nan => rw [tvMulF_nan F ht] at h; subst h; simp at ho
  | inf s =>
    rw [tvMulF_inf F ht] at h
    repeat' split at h
    all_goals (subst h; revert hr ho; decide)
  | fin s k =>
    rw [tvMulF_fin F ht, mag] at h
    obtain ⟨m, j, hm, hj⟩ := round_repr F (round F (t.natAbs * 2 ^ F.bias) 1 * k) (den := 2 ^ F.bias) hB
    rw [hj] at h
    have hn : r.natAbs = min (m * 2 ^ j / 2 ^ F.bias) 9223372036854775807 := by
      rw [← h]
      generalize min (m * 2 ^ j / 2 ^ F.bias) 9223372036854775807 = q
      split <;> omega
    have hn : r.natAbs = m * 2 ^ j / 2 ^ F.bias := by
      generalize m * 2 ^ j / 2 ^ F.bias = q at hn ⊢
      clear hb ho h
      ticks
    rw [hn] at hb
    have h1 : F.bias < j := by
      have e := (Nat.le_div_iff_mul_le hB).1 (Nat.le_of_lt hb)
      rcases Nat.lt_or_ge F.bias j with c | c
      · exact c
      · have := Nat.mul_le_mul (Nat.le_refl m) (Nat.pow_le_pow_right (by decide : 0 < 2) c)
        have := Nat.mul_lt_mul_of_pos_right hm hB
        omega
    have e : m * 2 ^ j / 2 ^ F.bias = 2 * (m * 2 ^ (j - F.bias - 1)) := by
      have : 2 ^ j = 2 ^ (j - F.bias - 1) * 2 * 2 ^ F.bias := by
        rw [← Nat.pow_succ, ← Nat.pow_add]; congr 1; omega
      rw [this, ← Nat.mul_assoc, Nat.mul_div_cancel _ hB]
      grind
    omega

example : Legal 9007199254740993 ∧ Date 9007199254740993 ∧ 2 ^ FTy.f64.prec < Int.natAbs 9007199254740993 := by decide

example : tvMulF .f64 10 (.fin false (2 ^ 1073)) = 5 ∧ IsFloat .f64 (.fin false (2 ^ 1073)) ∧
    2 ^ 1073 < 2 ^ FTy.f64.bias ∧ tvMulF .f64 (-7) (wholeF .f64 3) = -21 ∧
    tvMulF .f32 16777217 (wholeF .f32 1) = 16777216 ∧ tvDivF .f32 100 (wholeF .f32 (-8)) = -12 ∧
    NegF (wholeF .f32 (-8)) ∧ PosF (wholeF .f64 3) :=
  ⟨by decide +kernel, ⟨⟨1, 1073, by decide, by decide +kernel⟩, by decide +kernel⟩, by decide +kernel,
    by decide +kernel, by decide +kernel, by decide +kernel, negF_iff.2 (by decide +kernel),
    posF_iff.2 (by decide +kernel)⟩

end Chrono
