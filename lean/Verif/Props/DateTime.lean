import Verif.Spec.DateTime
import Verif.Props.Duration
import Verif.Props.Format

/-!
# Timestamps, the clock and chrono: C94, C95, C96
-/

set_option linter.unusedSimpArgs false

namespace Chrono
open Spec

/-! ## C94 conversions to and from chrono -/

theorem toNaive_eq {t : Int} (h : Legal t) :
    toNaive t = .ok ⟨t / TICKS, ((t % TICKS) * 10000000000 + 5000000000) / TICKS / 10⟩ := by
  have hn : 0 ≤ ((t % TICKS) * 10000000000 + 5000000000) / TICKS / 10 ∧
      ((t % TICKS) * 10000000000 + 5000000000) / TICKS / 10 < 1000000000 := by
    have h1 : 0 ≤ t % TICKS ∧ t % TICKS < TICKS := by ticks
    generalize t % TICKS = m at *
    ticks
  simp only [toNaive, subsecNanos_eq, bind, Except.bind]
  generalize ((t % TICKS) * 10000000000 + 5000000000) / TICKS / 10 = n at *
  rw [Int.emod_eq_of_lt (by omega) (by omega), fromTimestampOpt, if_pos]
  · rfl
  · refine ⟨?_, ?_, Or.inl hn.2⟩
    · unfold DT_MIN asSecs; ticks
    · unfold DT_MAX asSecs; ticks

theorem nanosOf_toNaive (t : Int) :
    nanosOf ⟨t / TICKS, ((t % TICKS) * 10000000000 + 5000000000) / TICKS / 10⟩ =
      (t * 1000000000 + 500000000) / TICKS := by
  have h1 : 0 ≤ t % TICKS ∧ t % TICKS < TICKS := by ticks
  have h2 : t = (t / TICKS) * TICKS + t % TICKS := by ticks
  simp only [nanosOf]
  generalize t % TICKS = m at *
  generalize t / TICKS = q at *
  subst h2
  ticks

/-- C94. A timestamp converts to a date without panicking, in the same second, and to less than a
nanosecond; later timestamps do not give earlier dates. -/
theorem C94_to_datetime (t : Int) (h : Legal t) : ∃ d, toDatetime t = .ok d ∧ ChronoDate d ∧
    d.nanos < 1000000000 ∧ d.secs * TICKS ≤ t ∧ t < (d.secs + 1) * TICKS ∧
    nanosOf d * TICKS < t * 1000000000 + TICKS ∧ t * 1000000000 - TICKS < nanosOf d * TICKS ∧
    ∀ t' d', Legal t' → t ≤ t' → toDatetime t' = .ok d' → nanosOf d ≤ nanosOf d' := by
  have hn : 0 ≤ ((t % TICKS) * 10000000000 + 5000000000) / TICKS / 10 ∧
      ((t % TICKS) * 10000000000 + 5000000000) / TICKS / 10 < 1000000000 := by
    have h1 : 0 ≤ t % TICKS ∧ t % TICKS < TICKS := by ticks
    generalize t % TICKS = m at *
    ticks
  refine ⟨_, toNaive_eq h, ⟨?_, ?_, hn.1, Or.inl hn.2⟩, hn.2, ?_, ?_, ?_, ?_, ?_⟩
  · unfold DT_MIN; ticks
  · unfold DT_MAX; ticks
  · ticks
  · ticks
  · rw [nanosOf_toNaive]; ticks
  · rw [nanosOf_toNaive]; ticks
  · intro t' d' h' hle hd
    rw [toDatetime, toNaive_eq h'] at hd
    injection hd with hd
    rw [← hd, nanosOf_toNaive, nanosOf_toNaive]
    ticks

theorem daysOfYears_eq (y : Int) (n : Nat) :
    daysOfYears y n = 365 * n + ((y + n - 1) / 4 - (y + n - 1) / 100 + (y + n - 1) / 400) - ((y - 1) / 4 - (y - 1) / 100 + (y - 1) / 400) := by
  induction n with
  | zero => simp only [daysOfYears]; omega
  | succ n ih =>
    rw [daysOfYears, ih, yearDays]
    split <;> omega

/-- **C94.** The dates of chrono are those of the years -262143 to 262142. -/
theorem C94_calendar (d : DateTime) : ChronoDate d ↔
    -86400 * daysOfYears (-262143) 264113 ≤ d.secs ∧ d.secs < 86400 * daysOfYears 1970 260173 ∧ 0 ≤ d.nanos ∧
      (d.nanos < 1000000000 ∨ d.nanos < 2000000000 ∧ d.secs % 60 = 59) := by
  rw [daysOfYears_eq, daysOfYears_eq, ChronoDate, DT_MIN, DT_MAX]
  omega

theorem timestampNanosOpt_eq {d : DateTime} (hd : ChronoDate d) :
    timestampNanosOpt d = if I64_MIN ≤ nanosOf d ∧ nanosOf d ≤ I64_MAX then some (nanosOf d) else none := by
  obtain ⟨h1, h2, h3, h4⟩ := hd
  have h5 : d.nanos < 2000000000 := by omega
  have hN : nanosOf d = d.secs * 1000000000 + d.nanos := rfl
  generalize nanosOf d = N at *
  simp only [timestampNanosOpt]
  by_cases hs : d.secs < 0
  · rw [if_pos hs, if_pos hs]
    have e : (d.secs + 1) * 1000000000 + (d.nanos - 1000000000) = N := by omega
    rw [e]
    by_cases hb : I64_MIN ≤ (d.secs + 1) * 1000000000 ∧ (d.secs + 1) * 1000000000 ≤ I64_MAX
    · rw [if_pos hb]
    · rw [if_neg hb, if_neg]
      unfold DT_MIN DT_MAX at *
      ticks
  · rw [if_neg hs, if_neg hs, ← hN]
    by_cases hb : I64_MIN ≤ d.secs * 1000000000 ∧ d.secs * 1000000000 ≤ I64_MAX
    · rw [if_pos hb]
    · rw [if_neg hb, if_neg]
      unfold DT_MIN DT_MAX at *
      ticks

/-- C94, partial: a date converts to the timestamp of the same instant truncated (towards 1970) to a
tick, to `+oo` if it is after the last representable timestamp, and the conversion panics if the date is
out of the range of 64-bit nanoseconds. Missing: the dates between the first 64-bit nanosecond (1677)
and the first representable timestamp (1697). -/
theorem C94_of_datetime_partial (d : DateTime) (hd : ChronoDate d) :
    (nanosOf d < I64_MIN ∨ I64_MAX < nanosOf d → ofDatetime d = .error .unwrapNone) ∧
    (nanosOf d ≤ I64_MAX → 8589934592 * 1000000000 ≤ nanosOf d → ofDatetime d = .ok INF) ∧
    (-8589934592 * 1000000000 < nanosOf d → nanosOf d < 8589934592 * 1000000000 →
      ∃ t, ofDatetime d = .ok t ∧ Date t ∧ t.natAbs * 1000000000 ≤ (nanosOf d).natAbs * 2 ^ 30 ∧
        (nanosOf d).natAbs * 2 ^ 30 < t.natAbs * 1000000000 + 1000000000 ∧
        (0 ≤ nanosOf d → 0 ≤ t) ∧ (nanosOf d ≤ 0 → t ≤ 0)) := by
  unfold ofDatetime
  rw [timestampNanosOpt_eq hd]
  generalize nanosOf d = n
  refine ⟨fun h => ?_, fun h1 h2 => ?_, fun h1 h2 => ?_⟩
  · rw [if_neg (by omega)]
  · rw [if_pos (by ticks)]
    exact (C07_subsec n (by ticks)).2.2.2.2.2 h2
  · rw [if_pos (by ticks)]
    refine ⟨_, (C07_subsec n (by ticks)).2.2.1 h1 h2, ?_⟩
    have hT : TICKS = 1073741824 := rfl
    rw [hT]
    by_cases h0 : 0 ≤ n
    · rw [Int.tdiv_eq_ediv_of_nonneg (by omega)]
      unfold Date INF
      omega
    · have e : (n * 1073741824).tdiv 1000000000 = -((-n * 1073741824) / 1000000000) := by
        have : n * 1073741824 = -(-n * 1073741824) := by omega
        rw [this, Int.neg_tdiv, Int.tdiv_eq_ediv_of_nonneg (by omega)]
      rw [e]
      unfold Date INF
      omega

/-- C94. A finite timestamp converted to a date and back is the same, or the next tick towards 1970. -/
theorem C94_roundtrip (t : Int) (h : Date t) (d : DateTime) (hd : toDatetime t = .ok d) :
    ∃ t', ofDatetime d = .ok t' ∧ (t' = t ∨ 0 < t ∧ t' = t - 1 ∨ t < 0 ∧ t' = t + 1) := by
  obtain ⟨d0, e0, hc, _⟩ := C94_to_datetime t (by ticks)
  rw [hd] at e0; injection e0 with e0; subst e0
  have hN : nanosOf d = (t * 1000000000 + 500000000) / TICKS := by
    rw [toDatetime, toNaive_eq (by ticks)] at hd
    injection hd with hd
    rw [← hd, nanosOf_toNaive]
  obtain ⟨t', e1, e2, e3, e4, e5, e6⟩ := (C94_of_datetime_partial d hc).2.2
    (by rw [hN]; ticks) (by rw [hN]; ticks)
  refine ⟨t', e1, ?_⟩
  have b1 : nanosOf d * 1073741824 ≤ t * 1000000000 + 500000000 := by rw [hN]; ticks
  have b2 : t * 1000000000 + 500000000 < nanosOf d * 1073741824 + 1073741824 := by rw [hN]; ticks
  clear hN e1
  generalize nanosOf d = n at *
  clear hd hc
  omega

/-- C94. A date (not in a leap second) within the representable timestamps, converted to a timestamp
and back, moves by at most one nanosecond, towards 1970. -/
theorem C94_roundtrip_date (d : DateTime) (hd : ChronoDate d)
    (h1 : -8589934592 * 1000000000 < nanosOf d) (h2 : nanosOf d < 8589934592 * 1000000000) :
    ∃ t d', ofDatetime d = .ok t ∧ toDatetime t = .ok d' ∧
      (nanosOf d' = nanosOf d ∨ 0 < nanosOf d ∧ nanosOf d' = nanosOf d - 1 ∨
        nanosOf d < 0 ∧ nanosOf d' = nanosOf d + 1) := by
  obtain ⟨t, e1, e2, e3, e4, e5, e6⟩ := (C94_of_datetime_partial d hd).2.2 h1 h2
  refine ⟨t, _, e1, toNaive_eq (by ticks), ?_⟩
  rw [nanosOf_toNaive]
  have hN : ∃ m, (t * 1000000000 + 500000000) / TICKS = m := ⟨_, rfl⟩
  obtain ⟨m, hm⟩ := hN
  rw [hm]
  have b1 : m * 1073741824 ≤ t * 1000000000 + 500000000 := by rw [← hm]; ticks
  have b2 : t * 1000000000 + 500000000 < m * 1073741824 + 1073741824 := by rw [← hm]; ticks
  clear hm e1 hd
  generalize nanosOf d = n at *
  omega

/-- C94 is violated for all the dates that 64-bit nanoseconds can count but timestamps cannot represent: those before
1697-10-17 11:03:27 UTC become timestamps after 1970, those of the next second are either illegal or panic. -/
theorem C94_violated (d : DateTime) (hd : ChronoDate d) (h1 : I64_MIN ≤ nanosOf d) (h2 : nanosOf d ≤ -8589934592 * 1000000000) :
    (nanosOf d ≤ -8589934593 * 1000000000 → ∃ t, ofDatetime d = .ok t ∧ Legal t ∧ 0 < t) ∧
    (-8589934593 * 1000000000 < nanosOf d → ofDatetime d = .ok I64_MIN ∨ ofDatetime d = .error .overflow) := by
  unfold ofDatetime
  rw [timestampNanosOpt_eq hd]
  generalize nanosOf d = n at *
  have hn : I64_MIN ≤ n ∧ n ≤ I64_MAX := ⟨h1, by ticks⟩
  have hq : n.tdiv 1000000000 = -(-n / 1000000000) := tdiv_of_nonpos (by omega)
  rw [if_pos hn]
  constructor
  · intro h
    obtain ⟨r, f1, f2, f3, f4⟩ := fromFract_run hn (Or.inr (Or.inr rfl))
    have f4 := f4 (by omega)
    show ∃ t, fromFract n 1000000000 = .ok t ∧ _
    rw [r, hq]
    rw [hq] at f1 f2 f4
    have c1 : -n / 1000000000 ≤ 9223372036 := by ticks
    have c2 : 8589934593 ≤ -n / 1000000000 := by omega
    generalize -n / 1000000000 = q at *
    generalize n - -q * 1000000000 = e at *
    have hs : shl30 (-q) = -q * 1073741824 + 18446744073709551616 := by
      simp only [shl30, Int.bmod, TICKS]; omega
    have hv : -1073741824 < (e * TICKS).tdiv 1000000000 ∧ (e * TICKS).tdiv 1000000000 ≤ 0 := by
      simp only [TICKS]
      rw [tdiv_of_nonpos (by omega)]; omega
    generalize (e * TICKS).tdiv 1000000000 = v at *
    rw [if_neg (by ticks), hs]
    refine ⟨_, by rw [chk64, if_pos (by ticks)], by ticks, by ticks⟩
  · intro h
    exact (C05_fract_exact_partial fromNanos 1000000000 n (by simp) hn).2 ⟨by omega, by rw [hq]; omega⟩

/-- 1690-01-01 00:00:00 UTC -/
example : ChronoDate ⟨-8835868800, 0⟩ ∧ I64_MIN ≤ nanosOf ⟨-8835868800, 0⟩ ∧
    nanosOf ⟨-8835868800, 0⟩ ≤ -8589934593 * 1000000000 ∧ ofDatetime ⟨-8835868800, 0⟩ = .ok 8959302191772860416 := by decide

example : toDatetime 3221225479 = .ok ⟨3, 6⟩ ∧ toDatetime (-1) = .ok ⟨-1, 999999999⟩ ∧
    ofDatetime ⟨3, 7⟩ = .ok 3221225479 ∧ ChronoDate ⟨3, 7⟩ ∧ ofDatetime ⟨-1, 999999999⟩ = .ok (-1) ∧
    ofDatetime ⟨9300000000, 0⟩ = .error .unwrapNone ∧ ofDatetime ⟨9000000000, 0⟩ = .ok INF := by decide

/-! ## C95 the clock -/

theorem fromStd_eq {sec ns : Int} (h : Clock sec ns) (hs : sec ≤ 2147483647) :
    fromStdDuration sec ns = .ok (sec * TICKS + ns * TICKS / 1000000000) := by
  obtain ⟨h1, h2, h3, h4⟩ := h
  have hdv : div64 (ns * TICKS) 1000000000 = .ok (ns * TICKS / 1000000000) := by
    rw [div64, if_neg (by decide), tdiv_of_nonneg (by ticks), chk64, if_pos]; ticks
  unfold fromStdDuration
  rw [if_neg (by omega), shl30_exact (by omega) (by omega), shl30_exact (by omega) (by omega), hdv]
  show chk64 _ = _
  rw [chk64, if_pos]; ticks

/-- C95, partial: until 2038-01-19 03:14:07 UTC, `now()` is the time of the clock truncated to a tick. A
clock before 1970 makes it panic. Missing: the clock after that date. -/
theorem C95_now_partial : tsNow none = .error .unwrapNone ∧
    ∀ sec ns, Clock sec ns → sec ≤ 2147483647 → ∃ t, tsNow (some (sec, ns)) = .ok t ∧ Date t ∧
      t * 1000000000 ≤ (sec * 1000000000 + ns) * TICKS ∧
      (sec * 1000000000 + ns) * TICKS < (t + 1) * 1000000000 := by
  refine ⟨rfl, fun sec ns h hs => ⟨_, fromStd_eq h hs, ?_⟩⟩
  obtain ⟨h1, h2, h3, h4⟩ := h
  ticks

/-- C95, partial: `elapsed()` on a timestamp given by `now()` is the time the clock has run since, to
less than a tick, and is not negative if the clock has not gone back. -/
theorem C95_elapsed_partial (s1 n1 s2 n2 t : Int) (h1 : Clock s1 n1) (h2 : Clock s2 n2)
    (e1 : s1 ≤ 2147483647) (e2 : s2 ≤ 2147483647) (ht : tsNow (some (s1, n1)) = .ok t) :
    ∃ e, tsElapsed (some (s2, n2)) t = .ok e ∧
      (e - 1) * 1000000000 < ((s2 * 1000000000 + n2) - (s1 * 1000000000 + n1)) * TICKS ∧
      ((s2 * 1000000000 + n2) - (s1 * 1000000000 + n1)) * TICKS < (e + 1) * 1000000000 ∧
      (s1 * 1000000000 + n1 ≤ s2 * 1000000000 + n2 → 0 ≤ e) := by
  obtain ⟨t1, a1, a2, a3, a4⟩ := C95_now_partial.2 s1 n1 h1 e1
  obtain ⟨t2, b1, b2, b3, b4⟩ := C95_now_partial.2 s2 n2 h2 e2
  rw [ht] at a1; injection a1 with a1; subst a1
  obtain ⟨h11, h12, h13, h14⟩ := h1
  obtain ⟨h21, h22, h23, h24⟩ := h2
  refine ⟨t2 - t, ?_, ?_, ?_, ?_⟩
  · simp only [tsElapsed, b1, bind, Except.bind]
    exact tvAdd_exact (b := -t) b2 (by ticks) (by ticks)
  · ticks
  · ticks
  · ticks

/-- C95, partial: until the same date, `elapsed()` returns on every timestamp, and it is not negative iff the timestamp is not after the
clock: the time from the timestamp to the clock to less than a tick, `+oo` if there is no such duration, and the opposite of an infinite
timestamp. -/
theorem C95_elapsed_any_partial {sec ns : Int} (h : Clock sec ns) (hs : sec ≤ 2147483647) {t : Int} (ht : Legal t) :
    ∃ e, tsElapsed (some (sec, ns)) t = .ok e ∧ Legal e ∧
      (0 ≤ e ↔ t = -INF ∨ Date t ∧ t * 1000000000 ≤ (sec * 1000000000 + ns) * TICKS) ∧
      (t = INF → e = -INF) ∧ (t = -INF → e = INF) ∧
      (Date t → e ≠ INF → (e + t) * 1000000000 ≤ (sec * 1000000000 + ns) * TICKS ∧
        (sec * 1000000000 + ns) * TICKS < (e + t + 1) * 1000000000) ∧
      (Date t → e = INF → INF * 1000000000 ≤ (sec * 1000000000 + ns) * TICKS - t * 1000000000) := by
  obtain ⟨n, b1, b2, b3, b4⟩ := C95_now_partial.2 sec ns h hs
  obtain ⟨h1, h2, h3, h4⟩ := h
  have n0 : 0 ≤ n := by ticks
  have e : tsElapsed (some (sec, ns)) t = tvAdd n (-t) := by
    simp only [tsElapsed, b1, bind, Except.bind]; rfl
  rw [e, C01_add_table n (-t) (by ticks) (by ticks)]
  have f1 : ext n = .fin n := by simp only [ext]; rw [if_neg (by ticks), if_neg (by ticks)]
  rw [f1]
  by_cases c1 : t = INF
  · have : ext (-t) = .negInf := by rw [c1]; decide
    rw [this]
    refine ⟨-INF, rfl, by decide, ?_, fun _ => rfl, ?_, ?_, ?_⟩ <;> ticks
  · by_cases c2 : t = -INF
    · have : ext (-t) = .posInf := by rw [c2]; decide
      rw [this]
      refine ⟨INF, rfl, by decide, ?_, ?_, fun _ => rfl, ?_, ?_⟩ <;> ticks
    · have : ext (-t) = .fin (-t) := by simp only [ext]; rw [if_neg (by ticks), if_neg (by ticks)]
      rw [this]
      by_cases c3 : n - t < INF
      · refine ⟨n - t, ?_, ?_, ?_, ?_, ?_, ?_, ?_⟩
        · show Except.ok _ = _
          congr 1
          ticks
        all_goals ticks
      · refine ⟨INF, ?_, ?_, ?_, ?_, ?_, ?_, ?_⟩
        · show Except.ok _ = _
          congr 1
          ticks
        · decide
        · ticks
        · ticks
        · exact fun _ => rfl
        · exact fun _ h => absurd rfl h
        · intro _ _; ticks

/-- C95 is violated from 2038-01-19 03:14:08 UTC on, whatever the clock says: `now()` is `+oo`, the time
elapsed since any earlier date is infinite, and `now().elapsed()` panics. -/
theorem C95_violated (sec ns : Int) (h : Clock sec ns) (hs : 2147483647 < sec) :
    tsNow (some (sec, ns)) = .ok INF ∧ (∀ t, Date t → tsElapsed (some (sec, ns)) t = .ok INF) ∧
    tsElapsed (some (sec, ns)) INF = .error .assertFail := by
  have e : tsNow (some (sec, ns)) = .ok INF := by
    show fromStdDuration sec ns = _
    rw [fromStdDuration, if_pos hs]; rfl
  refine ⟨e, fun t ht => ?_, ?_⟩
  · simp only [tsElapsed, e, bind, Except.bind]
    show tvAdd INF (-t) = _
    rw [C01_add_table INF (-t) (by ticks) (by ticks)]
    have h1 : ext INF = .posInf := by decide
    have h2 : ext (-t) = .fin (-t) := by
      simp only [ext]; rw [if_neg (by ticks), if_neg (by ticks)]
    rw [h1, h2]
  · simp only [tsElapsed, e, bind, Except.bind]
    decide

example : Clock 1700000000 5 ∧ tsNow (some (1700000000, 5)) = .ok 1825361100800000005 ∧
    tsElapsed (some (1700000001, 5)) 1825361100800000005 = .ok 1073741824 ∧ Clock 2147483648 0 := by decide

example : Legal 1825361100800000015 ∧ tsElapsed (some (1700000000, 5)) 1825361100800000015 = .ok (-10) ∧
    tsElapsed (some (1700000000, 5)) (-9000000000000000000) = .ok INF := by decide

/-! ## C96 displayed timestamps -/

/-- C96. `Display` of a timestamp never panics: from 1970 on it is the text of the date it converts to,
before it is the displayed duration to 1970; the infinities are `+oo` and `-oo`. `dt` is the text chrono
gives to a date. -/
theorem C96_display (dt : DateTime → List Char) :
    (∀ t, 0 ≤ t → t < INF → ∃ d, toDatetime t = .ok d ∧ displayTs dt t = .ok (dt d)) ∧
    (∀ t, -INF < t → t < 0 → ∃ s, displayTv (-t) = .ok s ∧
      displayTs dt t = .ok (s ++ " before 1970-01-01 00:00:00 UTC".toList)) ∧
    displayTs dt INF = .ok "+oo".toList ∧ displayTs dt (-INF) = .ok "-oo".toList := by
  refine ⟨fun t h0 h1 => ?_, fun t h0 h1 => ?_, rfl, rfl⟩
  · obtain ⟨d, hd, _⟩ := C94_to_datetime t (by ticks)
    refine ⟨d, hd, ?_⟩
    rw [displayTs, if_pos (by simp [isPositive]; omega), if_neg (by simp [isFutureInfinite]; omega), hd]
    rfl
  · obtain ⟨s, hs⟩ := displayTv_total (-t) ⟨by omega, by omega⟩
    refine ⟨s, hs, ?_⟩
    rw [displayTs, if_neg (by simp [isPositive]; omega), if_neg (by simp [isPastInfinite]; omega), tvNeg, hs]
    rfl

theorem displayTs_date (dt : DateTime → List Char) {t : Int} (h : Date t) : ∃ s, displayTs dt t = .ok s := by
  obtain ⟨h1, h2⟩ := h
  by_cases c : 0 ≤ t
  · obtain ⟨d, _, e⟩ := (C96_display dt).1 t c h2; exact ⟨_, e⟩
  · obtain ⟨d, _, e⟩ := (C96_display dt).2.1 t h1 (by omega); exact ⟨_, e⟩

/-- C96. `Display` of a non-empty interval of timestamps is made of the texts of its finite bounds, in
brackets open at the infinities, or between braces for a single date. -/
theorem C96_interval (dt : DateTime → List Char) {i : Iv} (h : WF i) :
    (∃ a s, i = ⟨a, a⟩ ∧ displayTs dt a = .ok s ∧ displayIv (displayTs dt) i = .ok ("{".toList ++ s ++ "}".toList)) ∨
    (∃ a b s r, i = ⟨a, b⟩ ∧ -INF < a ∧ a < b ∧ b < INF ∧ displayTs dt a = .ok s ∧ displayTs dt b = .ok r ∧
      displayIv (displayTs dt) i = .ok ("[".toList ++ s ++ ",".toList ++ r ++ "]".toList)) ∨
    (∃ a s, i = ⟨a, INF⟩ ∧ -INF < a ∧ displayTs dt a = .ok s ∧
      displayIv (displayTs dt) i = .ok ("[".toList ++ s ++ ",+oo[".toList)) ∨
    (∃ b s, i = ⟨-INF, b⟩ ∧ b < INF ∧ displayTs dt b = .ok s ∧
      displayIv (displayTs dt) i = .ok ("]-oo,".toList ++ s ++ "]".toList)) ∨
    (i = ⟨-INF, INF⟩ ∧ displayIv (displayTs dt) i = .ok "]-oo,+oo[".toList) :=
  displayIv_texts (fun _ => displayTs_date dt) h

/-- C96. `Display` of a non-empty set of timestamps is the texts of its intervals separated by `U`. With a
valid format (`fmt` is what chrono writes for a date in this format), `format_timeset` does not panic
either, and gives the same text as `Display` except that every date, also before 1970, is written by
chrono. -/
theorem C96_sets (dt fmt : DateTime → List Char) {s : List Iv} (hne : s ≠ []) (hs : Canon s) :
    (∃ texts, s.mapM (displayIv (displayTs dt)) = .ok texts ∧
      displaySet (displayTs dt) s = .ok (['U'].intercalate texts)) ∧
    (∃ texts, s.mapM (displayIv (formatTs fun d => .ok (fmt d))) = .ok texts ∧
      formatTimeset (formatTs fun d => .ok (fmt d)) s = .ok (['U'].intercalate texts)) := by
  have d : ∀ t, Date t → ∃ r, formatTs (fun d => .ok (fmt d)) t = .ok r := fun t ht => by
    obtain ⟨d, hd, _⟩ := C94_to_datetime t (by ticks)
    exact ⟨_, by rw [formatTs, hd]; rfl⟩
  refine ⟨displaySet_words (fun _ => displayTs_date dt) hne hs.wf, ?_⟩
  obtain ⟨ts, h1, h2⟩ := displaySet_words d hne hs.wf
  exact ⟨ts, h1, by rw [formatTimeset_eq (fun _ _ => rfl) hne hs.wf, h2]⟩

example : Canon [⟨0, 5⟩, ⟨20, INF⟩] ∧
    displaySet (displayTs fun d => intStr d.secs) [⟨-INF, -1073741824⟩, ⟨0, 0⟩, ⟨2147483648, INF⟩] =
      .ok "]-oo,1s before 1970-01-01 00:00:00 UTC]U{0}U[2,+oo[".toList := by decide +kernel

end Chrono
