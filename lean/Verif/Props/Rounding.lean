import Verif.Props.Duration

/-!
# Rounding composes (C142)
-/

namespace Chrono
open Spec

/-- The multiple of the period just before a value. -/
theorem floor_exists (t : Int) {p : Int} (hp : 0 < p) : ∃ m, p ∣ m ∧ m ≤ t ∧ t < m + p :=
  ⟨p * (t / p), ⟨_, rfl⟩, Int.mul_ediv_self_le (by omega), by
    have := Int.lt_mul_ediv_self_add (x := t) hp; omega⟩

/-- The multiple of the period just after a value. -/
theorem ceil_exists (t : Int) {p : Int} (hp : 0 < p) : ∃ m, p ∣ m ∧ t ≤ m ∧ m < t + p := by
  obtain ⟨m, hd, h1, h2⟩ := floor_exists (-t) hp
  exact ⟨-m, Int.dvd_neg.2 hd, by omega, by omega⟩

/-- Two multiples of the period less than a period apart are the same. -/
theorem multiple_gap {p a b : Int} (hp : 0 < p) (ha : p ∣ a) (hb : p ∣ b) (h : a < b + p) : a ≤ b := by
  obtain ⟨x, rfl⟩ := ha
  obtain ⟨y, rfl⟩ := hb
  rcases Int.lt_or_le y x with q | q
  · have := Int.mul_le_mul_of_nonneg_left (show y + 1 ≤ x by omega) (by omega : 0 ≤ p)
    rw [Int.mul_add, Int.mul_one] at this; omega
  · exact Int.mul_le_mul_of_nonneg_left q (by omega)

/-- C142. What `floor` answers is decided for every value, infinite ones included: the multiple of the period just before, and a panic if it is
not an `i64`. -/
theorem C142_floor_exact {t p m : Int} (ht : Legal t) (hp : 0 < p) (hpi : p ≤ INF) (hm : p ∣ m) (hle : m ≤ t) (hlt : t < m + p) :
    floorTo t p = if m < I64_MIN then .error .overflow else .ok m := by
  obtain ⟨k, rfl⟩ := hm
  simp only [Legal] at ht
  unfold floorTo
  split
  · rename_i h
    rw [div64_pos hp (by ticks), tdiv_of_nonneg (by omega)]
    have : t / p = k := by apply ediv_uniq hp (r := t - p * k) <;> grind
    rw [this]
    show chk64 (k * p) = _
    rw [Int.mul_comm, if_neg (by ticks)]
    exact chk64_ok (by ticks) (by ticks)
  · rename_i h
    rw [chk64_ok (by ticks) (by ticks)]
    show (do let b ← chk64 ((← div64 (t + 1) p) - 1); chk64 (b * p)) = _
    rw [div64_pos hp (by ticks), tdiv_of_nonpos (by omega)]
    have : (-(t + 1)) / p = -k - 1 := by apply ediv_uniq hp (r := -(t + 1) - p * (-k - 1)) <;> grind
    rw [this]
    show (do let b ← chk64 (- (-k - 1) - 1); chk64 (b * p)) = _
    have : -(-k - 1) - 1 = k := by omega
    rw [this]
    have hk : k < 0 := by
      rcases Int.lt_or_le k 0 with h0 | h0
      · exact h0
      · have := Int.mul_nonneg (by omega : 0 ≤ p) h0; omega
    have hkp : p * k ≤ k := by
      have := le_mul_pos (by omega : 0 ≤ -k) hp
      grind
    have hk2 : t ≤ k := by
      have := le_mul_pos (by omega : 0 ≤ -(k + 1)) hp
      have e : -(k + 1) * p = -(p * k) - p := by grind
      omega
    rw [chk64_ok (by ticks) (by ticks)]
    show chk64 (k * p) = _
    rw [Int.mul_comm]
    simp only [chk64]
    by_cases q : p * k < I64_MIN
    · rw [if_pos q, if_neg (by omega)]
    · rw [if_neg q, if_pos ⟨by omega, by ticks⟩]

/-- C142. What `ceil` answers is decided as well: the multiple of the period just after the value, and a panic if it is not an `i64`; but the value
just before it if it is not positive and follows a multiple of the period (C11). -/
theorem C142_ceil_exact {t p m : Int} (ht : Legal t) (hp : 0 < p) (hpi : p ≤ INF) (hm : p ∣ m) (hge : t ≤ m) (hgt : m < t + p) :
    ceilTo t p = if t ≤ 0 ∧ p ∣ t - 1 then .ok (t - 1) else if I64_MAX < m then .error .overflow else .ok m := by
  simp only [Legal] at ht
  by_cases h0 : 0 < t
  · obtain ⟨k, rfl⟩ := hm
    rw [if_neg (by omega)]
    unfold ceilTo
    rw [if_pos h0, chk64_ok (by ticks) (by ticks)]
    show (do let b ← chk64 ((← div64 (t - 1) p) + 1); chk64 (b * p)) = _
    rw [div64_pos hp (by ticks), tdiv_of_nonneg (by omega)]
    have : (t - 1) / p = k - 1 := by apply ediv_uniq hp (r := t - 1 - p * (k - 1)) <;> grind
    rw [this]
    show (do let b ← chk64 (k - 1 + 1); chk64 (b * p)) = _
    have : k - 1 + 1 = k := by omega
    rw [this]
    have hk : 0 < k := by
      rcases Int.lt_or_le 0 k with q | q
      · exact q
      · have := Int.mul_nonneg (by omega : 0 ≤ p) (by omega : 0 ≤ -k)
        have e : p * -k = -(p * k) := by grind
        omega
    have hk2 : k ≤ t := by
      have := le_mul_pos (by omega : 0 ≤ k - 1) hp
      have e : (k - 1) * p = p * k - p := by grind
      omega
    rw [chk64_ok (by ticks) (by ticks)]
    show chk64 (k * p) = _
    rw [Int.mul_comm]
    simp only [chk64]
    by_cases q : I64_MAX < p * k
    · rw [if_pos q, if_neg (by omega)]
    · rw [if_neg q, if_pos ⟨by ticks, by omega⟩]
  · by_cases hd : t = -INF
    · subst hd
      obtain ⟨k, rfl⟩ := hm
      have hk0 : k ≤ 0 := by
        rcases Int.lt_or_le 0 k with q | q
        · have := le_mul_pos (by omega : 0 ≤ k - 1) hp
          have e : (k - 1) * p = p * k - p := by grind
          ticks
        · exact q
      have hpk := Int.mul_nonneg (by omega : 0 ≤ p) (by omega : 0 ≤ -k)
      have e : p * -k = -(p * k) := by grind
      unfold ceilTo
      rw [if_neg (by ticks), chk64_ok (by ticks) (by ticks)]
      show (do chk64 ((← div64 (-INF - 1) p) * p)) = _
      rw [div64_pos hp (by ticks), tdiv_of_nonpos (by ticks)]
      by_cases hd : p ∣ -INF - 1
      · rw [if_pos ⟨by ticks, hd⟩]
        obtain ⟨j, hj⟩ := hd
        have : (-(-INF - 1)) / p = -j := by apply ediv_uniq hp (r := 0) <;> grind
        rw [this]
        show chk64 (- -j * p) = _
        have : - -j * p = -INF - 1 := by grind
        rw [this]
        exact chk64_ok (by ticks) (by ticks)
      · rw [if_neg (fun h => hd h.2), if_neg (by ticks)]
        have hne : -INF - 1 ≠ p * (k - 1) := fun h => hd ⟨_, h⟩
        have e2 : p * (k - 1) = p * k - p := by grind
        have : (-(-INF - 1)) / p = -k := by apply ediv_uniq hp (r := -(-INF - 1) - p * (-k)) <;> grind
        rw [this]
        show chk64 (- -k * p) = _
        have : - -k * p = p * k := by grind
        rw [this]
        exact chk64_ok (by ticks) (by ticks)
    · rw [C11_ceil_nonpositive_partial t p m ⟨by ticks, by ticks⟩ (by omega) hp hm hge hgt]
      by_cases hd : p ∣ t - 1
      · rw [if_pos hd, if_pos ⟨by omega, hd⟩]
      · have hmz : m ≤ 0 := by
          refine multiple_gap hp hm (Int.dvd_zero p) (by omega)
        rw [if_neg hd, if_neg (fun h => hd h.2), if_neg (by ticks)]

example : Legal (-INF) ∧ (7 : Int) ∣ -INF ∧ floorTo (-INF) 7 = .ok (-INF) ∧ floorTo (-INF) 10 = .error .overflow ∧
    ceilTo INF 10 = .error .overflow ∧ ceilTo (-4) 5 = .ok (-5) ∧ ceilTo (-7) 5 = .ok (-5) := by decide

/-- C142. Rounding keeps the order. -/
theorem C142_monotone {t u p a b : Int} (ht : Legal t) (hu : Legal u) (hp : 0 < p) (hpi : p ≤ INF) (htu : t ≤ u) :
    (floorTo t p = .ok a → floorTo u p = .ok b → a ≤ b) ∧ (ceilTo t p = .ok a → ceilTo u p = .ok b → a ≤ b) := by
  constructor
  · obtain ⟨m, hm, h1, h2⟩ := floor_exists t hp
    obtain ⟨n, hn, k1, k2⟩ := floor_exists u hp
    rw [C142_floor_exact ht hp hpi hm h1 h2, C142_floor_exact hu hp hpi hn k1 k2]
    have := multiple_gap hp hm hn (by omega)
    split <;> split <;> simp_all
    omega
  · obtain ⟨m, hm, h1, h2⟩ := ceil_exists t hp
    obtain ⟨n, hn, k1, k2⟩ := ceil_exists u hp
    rw [C142_ceil_exact ht hp hpi hm h1 h2, C142_ceil_exact hu hp hpi hn k1 k2]
    have hmn := multiple_gap hp hm hn (by omega)
    intro ha hb
    by_cases q1 : t ≤ 0 ∧ p ∣ t - 1
    · rw [if_pos q1] at ha
      injection ha with ha
      by_cases q2 : u ≤ 0 ∧ p ∣ u - 1
      · rw [if_pos q2] at hb; injection hb; omega
      · rw [if_neg q2] at hb
        split at hb <;> injection hb; omega
    · rw [if_neg q1] at ha
      split at ha
      · exact nomatch ha
      · injection ha with ha
        subst ha
        by_cases q2 : u ≤ 0 ∧ p ∣ u - 1
        · rw [if_pos q2] at hb; injection hb with hb
          subst hb
          rcases Int.lt_or_eq_of_le htu with h | h
          · exact multiple_gap hp hm q2.2 (by omega)
          · subst h; exact absurd q2 q1
        · rw [if_neg q2] at hb
          split at hb
          · exact nomatch hb
          · injection hb; omega

example : Legal (-7) ∧ Legal 13 ∧ floorTo (-7) 5 = .ok (-10) ∧ floorTo 13 5 = .ok 10 ∧ ceilTo (-7) 5 = .ok (-5) ∧ ceilTo 13 5 = .ok 15 := by decide

/-- C142. Moving a value by whole periods moves its floor alike. -/
theorem C142_floor_shift {t p m k : Int} (ht : Legal t) (ht' : Legal (t + k * p)) (hp : 0 < p) (hpi : p ≤ INF) (h : floorTo t p = .ok m) :
    floorTo (t + k * p) p = if m + k * p < I64_MIN then .error .overflow else .ok (m + k * p) := by
  obtain ⟨n, hn, h1, h2⟩ := floor_exists t hp
  rw [C142_floor_exact ht hp hpi hn h1 h2] at h
  split at h
  · exact nomatch h
  · injection h with h
    subst h
    exact C142_floor_exact ht' hp hpi (Int.dvd_add hn (Int.dvd_mul_left k p)) (by omega) (by omega)

/-- C142. The same for the ceiling of positive values. Missing: the other values, where the ceiling may be wrong (C11). -/
theorem C142_ceil_shift_partial {t p m k : Int} (ht : Legal t) (ht' : Legal (t + k * p)) (h0 : 0 < t) (h0' : 0 < t + k * p) (hp : 0 < p)
    (hpi : p ≤ INF) (h : ceilTo t p = .ok m) :
    ceilTo (t + k * p) p = if I64_MAX < m + k * p then .error .overflow else .ok (m + k * p) := by
  obtain ⟨n, hn, h1, h2⟩ := ceil_exists t hp
  rw [C142_ceil_exact ht hp hpi hn h1 h2, if_neg (by omega)] at h
  split at h
  · exact nomatch h
  · injection h with h
    subst h
    rw [C142_ceil_exact ht' hp hpi (Int.dvd_add hn (Int.dvd_mul_left k p)) (by omega) (by omega), if_neg (by omega)]

example : floorTo (-7) 5 = .ok (-10) ∧ floorTo (-7 + 3 * 5) 5 = .ok (-10 + 3 * 5) ∧ ceilTo 7 5 = .ok 10 ∧
    ceilTo (7 + 3 * 5) 5 = .ok (10 + 3 * 5) := by decide

/-- C142. Rounding down to a period, then to a multiple of it, is rounding down to the multiple at once, panics included. -/
theorem C142_floor_nested {t p q m : Int} (ht : Legal t) (hp : 0 < p) (hq : 0 < q) (hqi : q ≤ INF) (hpq : p ∣ q)
    (h : floorTo t p = .ok m) (hm : Legal m) : floorTo m q = floorTo t q := by
  have hle := Int.le_of_dvd hq hpq
  obtain ⟨a, ha, h1, h2⟩ := floor_exists t hp
  rw [C142_floor_exact ht hp (by omega) ha h1 h2] at h
  split at h
  · exact nomatch h
  · injection h with h
    subst h
    obtain ⟨b, hb, k1, k2⟩ := floor_exists t hq
    have := multiple_gap hp (Int.dvd_trans hpq hb) ha (by omega)
    rw [C142_floor_exact ht hq hqi hb k1 k2, C142_floor_exact hm hq hqi hb (by omega) (by omega)]

/-- C142. The same for the ceiling, for positive values and for periods of at least two ticks. -/
theorem C142_ceil_nested {t p q m : Int} (ht : Legal t) (hp : 0 < p) (hq : 0 < q) (hqi : q ≤ INF) (hpq : p ∣ q) (h1p : 0 < t ∨ 1 < p)
    (h : ceilTo t p = .ok m) (hm : Legal m) : ceilTo m q = ceilTo t q := by
  have hle := Int.le_of_dvd hq hpq
  obtain ⟨a, ha, h1, h2⟩ := ceil_exists t hp
  obtain ⟨b, hb, k1, k2⟩ := ceil_exists t hq
  have hbp := Int.dvd_trans hpq hb
  have hab := multiple_gap hp ha hbp (by omega)
  have unit : ∀ x : Int, 1 < p → p ∣ x → p ∣ x - 1 → False := by
    intro x hp1 e1 e2
    have := Int.dvd_sub e1 e2
    rw [show x - (x - 1) = 1 by omega] at this
    have := Int.le_of_dvd (by omega) this
    omega
  rw [C142_ceil_exact ht hp (by omega) ha h1 h2] at h
  by_cases c : t ≤ 0 ∧ p ∣ t - 1
  · rw [if_pos c] at h
    injection h with h
    subst h
    have hp1 : 1 < p := by omega
    rw [C142_ceil_exact ht hq hqi hb k1 k2]
    by_cases d : q ∣ t - 1
    · rw [if_pos ⟨c.1, d⟩, C142_ceil_exact hm hq hqi d (Int.le_refl _) (by omega),
        if_neg (fun x => unit _ hp1 c.2 (Int.dvd_trans hpq x.2)), if_neg (by ticks)]
    · rw [if_neg (fun x => d x.2)]
      have hb1 : b < t - 1 + q := by
        rcases Int.lt_or_le b (t - 1 + q) with x | x
        · exact x
        · exact absurd (by rw [show t - 1 = b - q by omega]; exact Int.dvd_sub hb (Int.dvd_refl q)) d
      rw [C142_ceil_exact hm hq hqi hb (by omega) hb1, if_neg (fun x => unit _ hp1 c.2 (Int.dvd_trans hpq x.2))]
  · rw [if_neg c] at h
    split at h
    · exact nomatch h
    · injection h with h
      subst h
      rw [C142_ceil_exact hm hq hqi hb (by omega) (by omega), C142_ceil_exact ht hq hqi hb k1 k2]
      have n1 : ¬ (t ≤ 0 ∧ q ∣ t - 1) := fun x => c ⟨x.1, Int.dvd_trans hpq x.2⟩
      have n2 : ¬ (a ≤ 0 ∧ q ∣ a - 1) := by
        intro x
        have : 1 < p := by omega
        exact unit a this ha (Int.dvd_trans hpq x.2)
      rw [if_neg n1, if_neg n2]

example : floorTo (-7) 5 = .ok (-10) ∧ floorTo (-10) 15 = .ok (-15) ∧ floorTo (-7) 15 = .ok (-15) ∧
    ceilTo (-7) 5 = .ok (-5) ∧ ceilTo (-5) 15 = .ok 0 ∧ ceilTo (-7) 15 = .ok 0 := by decide

/-- C142 is violated by the period of one tick: each ceiling of a value which is not positive gives the value just before, so that repeating it goes
down for ever. -/
theorem C142_unit_violated (t : Int) (ht : Date t) (h0 : t ≤ 0) : ceilTo t 1 = .ok (t - 1) ∧ (Date (t - 1) → ceilTo (t - 1) 1 = .ok (t - 2)) := by
  refine ⟨C11_ceil_violated t 1 ht h0 (by omega) (Int.one_dvd _), fun h => ?_⟩
  rw [C11_ceil_violated (t - 1) 1 h (by omega) (by omega) (Int.one_dvd _)]
  congr 1; omega

example : Date 0 ∧ Date (-1) := by decide

/-- C142. The units of a duration are nested: `t.hours().days()` is `t.days()`, and so on for the minutes, hours, days and weeks of every duration,
and for any two units of which one is a multiple of the other. -/
theorem C142_units_nested {f g : Int → Res Int} {u v t m : Int} (hf : (f, u) ∈ truncUnits) (hg : (g, v) ∈ truncUnits) (huv : u ∣ v)
    (hu1 : 1 < u) (ht : Date t) (h : f t = .ok m) : g m = g t := by
  obtain ⟨ef, hu, hui⟩ := truncUnits_eq hf
  obtain ⟨eg, hv, hvi⟩ := truncUnits_eq hg
  have hle := Int.le_of_dvd hv huv
  have hl : Legal t := ⟨by ticks, by ticks⟩
  rw [eg, eg]
  rw [ef] at h
  simp only [truncUnit, isStrictlyNegative, decide_eq_true_eq] at h ⊢
  by_cases h0 : t < 0
  · rw [if_pos h0] at h ⊢
    obtain ⟨a, ha, h1, h2⟩ := ceil_exists t hu
    have haz := multiple_gap hu ha (Int.dvd_zero u) (by omega)
    have hc := h
    rw [C142_ceil_exact hl hu hui ha h1 h2] at h
    have hm : Legal m := by
      split at h
      · injection h; ticks
      · split at h
        · exact nomatch h
        · injection h; ticks
    by_cases hm0 : m < 0
    · rw [if_pos hm0]
      exact C142_ceil_nested hl hu hv hvi huv (Or.inr hu1) hc hm
    · have hmz : m = 0 := by
        split at h
        · injection h; omega
        · split at h
          · exact nomatch h
          · injection h; omega
      subst hmz
      rw [if_neg (by omega), ← C142_ceil_nested hl hu hv hvi huv (Or.inr hu1) hc hm]
      have e1 := C142_floor_exact (t := 0) (m := 0) hm hv hvi (Int.dvd_zero v) (by omega) (by omega)
      have e2 := C142_ceil_exact (t := 0) (m := 0) hm hv hvi (Int.dvd_zero v) (by omega) (by omega)
      rw [e1, e2, if_neg (by ticks), if_neg, if_neg (by ticks)]
      rintro ⟨-, d⟩
      have := Int.le_of_dvd (a := v) (b := 1) (by omega) (by simpa using (Int.dvd_neg.2 d))
      omega
  · rw [if_neg h0] at h ⊢
    obtain ⟨a, ha, h1, h2⟩ := floor_exists t hu
    have haz := multiple_gap hu (Int.dvd_zero u) ha (by omega)
    have hc := h
    rw [C142_floor_exact hl hu hui ha h1 h2, if_neg (by ticks)] at h
    injection h with h
    subst h
    have hm : Legal a := ⟨by ticks, by ticks⟩
    rw [if_neg (by omega)]
    exact C142_floor_nested hl hu hv hvi huv hc hm

example : (tvHours, 3600 * TICKS) ∈ truncUnits ∧ (tvDays, 86400 * TICKS) ∈ truncUnits ∧ (3600 * TICKS) ∣ (86400 * TICKS) ∧
    tvHours (-90001 * TICKS) = .ok (-90000 * TICKS) ∧ tvDays (-90000 * TICKS) = .ok (-86400 * TICKS) ∧
    tvDays (-90001 * TICKS) = .ok (-86400 * TICKS) := by
  refine ⟨by simp [truncUnits], by simp [truncUnits], by decide, by decide, by decide, by decide⟩

/-- C142. The ceiling is the mirror image of the floor exactly when the value is negative or is not followed by a multiple of the period; it is
violated by all the others. -/
theorem C142_mirror_exact {t p m : Int} (ht : Legal t) (hp : 0 < p) (hpi : p ≤ INF) (h : floorTo t p = .ok m) (hm : -INF ≤ m) :
    ceilTo (-t) p = .ok (-m) ↔ t < 0 ∨ ¬ p ∣ t + 1 := by
  simp only [Legal] at ht
  obtain ⟨a, ha, h1, h2⟩ := floor_exists t hp
  rw [C142_floor_exact ht hp hpi ha h1 h2] at h
  split at h
  · exact nomatch h
  · injection h with h
    subst h
    rw [C142_ceil_exact (t := -t) (m := -a) ⟨by omega, by omega⟩ hp hpi (Int.dvd_neg.2 ha) (by omega) (by omega)]
    have e : p ∣ -t - 1 ↔ p ∣ t + 1 := by rw [← Int.dvd_neg, show -(-t - 1) = t + 1 by omega]
    by_cases c : -t ≤ 0 ∧ p ∣ -t - 1
    · rw [if_pos c]
      constructor
      · intro q; injection q; omega
      · rintro (q | q)
        · omega
        · exact absurd (e.1 c.2) q
    · rw [if_neg c, if_neg (by ticks)]
      refine ⟨fun _ => ?_, fun _ => rfl⟩
      rcases Int.lt_or_le t 0 with q | q
      · exact Or.inl q
      · exact Or.inr (fun d => c ⟨by omega, e.2 d⟩)

/-- C142 is violated for the mirror: with every period, the date `p - 1` has the floor `0` and its opposite the ceiling `-p`. -/
theorem C142_mirror_violated {p : Int} (hp : 0 < p) (hpi : p ≤ INF) : floorTo (p - 1) p = .ok 0 ∧ ceilTo (-(p - 1)) p = .ok (-p) := by
  constructor
  · rw [C142_floor_exact (m := 0) ⟨by ticks, by ticks⟩ hp hpi (Int.dvd_zero p) (by omega) (by omega), if_neg (by ticks)]
  · rw [C142_ceil_exact (m := 0) ⟨by ticks, by ticks⟩ hp hpi (Int.dvd_zero p) (by omega) (by omega),
      if_pos ⟨by omega, by rw [show -(p - 1) - 1 = -p by omega]; exact Int.dvd_neg.2 (Int.dvd_refl p)⟩]
    congr 1; omega

/-- C142 is violated by the infinities: `floor` makes `+oo` a finite date for every period which does not divide its number of ticks, `ceil` then
panics; `ceil` makes `-oo` finite, and `floor` panics, for every period which does not divide its number of ticks nor `2^63`. -/
theorem C142_infinite_violated {p : Int} (hp : 0 < p) (hpi : p ≤ INF) (hd : ¬ p ∣ INF) :
    (∃ m, floorTo INF p = .ok m ∧ Date m) ∧ ceilTo INF p = .error .overflow ∧
    (¬ p ∣ I64_MIN → (∃ m, ceilTo (-INF) p = .ok m ∧ Date m) ∧ floorTo (-INF) p = .error .overflow) := by
  have hd' : ¬ p ∣ -INF := fun h => hd (Int.dvd_neg.1 h)
  refine ⟨?_, ?_, fun hmin => ⟨?_, ?_⟩⟩
  · obtain ⟨m, hm, h1, h2⟩ := floor_exists INF hp
    refine ⟨m, ?_, ?_⟩
    · rw [C142_floor_exact ⟨by ticks, by ticks⟩ hp hpi hm h1 h2, if_neg (by ticks)]
    · have : m ≠ INF := fun e => hd (e ▸ hm)
      exact ⟨by ticks, by ticks⟩
  · obtain ⟨m, hm, h1, h2⟩ := ceil_exists INF hp
    have : m ≠ INF := fun e => hd (e ▸ hm)
    rw [C142_ceil_exact ⟨by ticks, by ticks⟩ hp hpi hm h1 h2, if_neg (by ticks), if_pos (by ticks)]
  · obtain ⟨m, hm, h1, h2⟩ := ceil_exists (-INF) hp
    have : m ≠ -INF := fun e => hd' (e ▸ hm)
    refine ⟨m, ?_, ⟨by ticks, ?_⟩⟩
    · rw [C142_ceil_exact ⟨by ticks, by ticks⟩ hp hpi hm h1 h2, if_neg, if_neg (by ticks)]
      rintro ⟨-, d⟩
      exact hmin d
    · have := multiple_gap hp hm (Int.dvd_zero p) (by ticks)
      ticks
  · obtain ⟨m, hm, h1, h2⟩ := floor_exists (-INF) hp
    have n1 : m ≠ -INF := fun e => hd' (e ▸ hm)
    have n2 : m ≠ I64_MIN := fun e => hmin (e ▸ hm)
    rw [C142_floor_exact ⟨by ticks, by ticks⟩ hp hpi hm h1 h2, if_pos (by ticks)]

example : (0 : Int) < 10 ∧ 10 ≤ INF ∧ ¬ (10 : Int) ∣ INF ∧ ¬ (10 : Int) ∣ I64_MIN := by decide

/-- C142 is violated by the first dates: for every period which is a power of two (a second, for example), the floor of the dates of the first
period is the raw value `i64::MIN`, which is not a duration; so is the ceiling of `-oo`. -/
theorem C142_legal_violated {t p : Int} (hp : 0 < p) (hpi : p ≤ INF) (hd : p ∣ I64_MIN) (ht : Legal t) (hlt : t < I64_MIN + p) :
    floorTo t p = .ok I64_MIN ∧ ceilTo (-INF) p = .ok I64_MIN ∧ ¬ Legal I64_MIN := by
  simp only [Legal] at ht
  refine ⟨?_, ?_, by decide⟩
  · rw [C142_floor_exact ht hp hpi hd (by ticks) hlt, if_neg (by omega)]
  · obtain ⟨m, hm, h1, h2⟩ := ceil_exists (-INF) hp
    rw [C142_ceil_exact ⟨by ticks, by ticks⟩ hp hpi hm h1 h2, if_pos ⟨by ticks, hd⟩]
    rfl

example : (0 : Int) < TICKS ∧ TICKS ≤ INF ∧ TICKS ∣ I64_MIN ∧ Legal (-INF + 5) ∧ -INF + 5 < I64_MIN + TICKS := by decide

end Chrono
