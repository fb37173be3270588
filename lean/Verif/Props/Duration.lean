import Verif.Lemmas.TimeValue

/-!
# Durations and timestamps: C01 – C14

`Timestamp` wraps `TimeValue` and forwards every operation, so each theorem is about both.
-/

namespace Chrono
open Spec

/-! ## C01 addition -/

/-- C01. The full table of `a + b`: opposite infinities panic, an infinity absorbs, otherwise the
exact sum of the ticks, rounded to the infinity it overflows to. -/
theorem C01_add_table (a b : Int) (ha : Legal a) (hb : Legal b) :
    tvAdd a b =
      match ext a, ext b with
      | .posInf, .negInf => .error .assertFail
      | .negInf, .posInf => .error .assertFail
      | .posInf, _ => .ok INF
      | .negInf, _ => .ok (-INF)
      | .fin _, .posInf => .ok INF
      | .fin _, .negInf => .ok (-INF)
      | .fin x, .fin y => .ok (if x + y ≥ INF then INF else if x + y ≤ -INF then -INF else x + y) := by
  rw [tvAdd_eq ha hb]
  simp only [ext]
  have h0 : (-INF : Int) ≠ INF := by ticks
  have h1 : (INF : Int) ≠ -INF := by ticks
  by_cases h2 : a = INF <;> by_cases h3 : a = -INF <;> by_cases h4 : b = INF <;>
    by_cases h5 : b = -INF <;> simp_all [round]

example : Legal 5 ∧ Legal INF ∧ tvAdd 5 INF = .ok INF ∧ tvAdd (INF - 1) 7 = .ok INF ∧
    tvAdd INF (-INF) = .error .assertFail := by decide

/-! ## C02 algebra of addition -/

/-- C02. Addition is commutative, panics included. -/
theorem C02_add_comm (a b : Int) (ha : Legal a) (hb : Legal b) : tvAdd a b = tvAdd b a := by
  rw [tvAdd_eq ha hb, tvAdd_eq hb ha, Int.add_comm a b]
  repeat' split
  all_goals first | rfl | (exfalso; ticks)

/-- C02. Addition is monotone where defined. -/
theorem C02_add_mono (a a' b x y : Int) (ha : Legal a) (ha' : Legal a') (hb : Legal b) (h : a ≤ a')
    (hx : tvAdd a b = .ok x) (hy : tvAdd a' b = .ok y) : x ≤ y := by
  rw [tvAdd_eq ha hb] at hx; rw [tvAdd_eq ha' hb] at hy
  simp only [round] at hx hy
  repeat' split at hx
  all_goals (repeat' split at hy)
  all_goals first | (cases hx; done) | (cases hy; done) | (injection hx; injection hy; ticks)

/-- C02. 0 is a unit. -/
theorem C02_add_zero (a : Int) (ha : Legal a) : tvAdd a 0 = .ok a ∧ tvAdd 0 a = .ok a := by
  have h0 : Legal 0 := by decide
  rw [tvAdd_eq ha h0, tvAdd_eq h0 ha]
  simp only [round]
  constructor <;> (repeat' split) <;> first | rfl | (congr 1; ticks) | (exfalso; ticks)

/-- C02. Summing a list gives the exact sum when no prefix leaves the finite range. -/
theorem C02_sum_exact (l : List Int) (hl : ∀ x ∈ l, Date x) (hp : ∀ n, Date (l.take n).sum) :
    tvSum l = .ok l.sum := by
  have gen : ∀ (l : List Int) (acc : Int), (∀ x ∈ l, Date x) →
      (∀ n, Date (acc + (l.take n).sum)) → l.foldlM tvAdd acc = (.ok (acc + l.sum) : Res Int) := by
    intro l
    induction l with
    | nil => intro acc _ _; simp [pure, Except.pure]
    | cons x xs ih =>
      intro acc hx hp
      have h0 : Date acc := by simpa using hp 0
      have h1 : Date (acc + x) := by simpa using hp 1
      rw [List.foldlM_cons, tvAdd_exact h0 (hx x (by simp)) h1]
      show xs.foldlM tvAdd (acc + x) = _
      rw [ih (acc + x) (fun y hy => hx y (by simp [hy])) (fun n => by
        have := hp (n + 1); simp at this; rwa [← Int.add_assoc] at this)]
      simp [Int.add_assoc]
  have := gen l 0 hl (by simpa using hp)
  simpa [tvSum] using this

example : (∀ x ∈ [3, -5, 7], Date x) ∧ tvSum [3, -5, 7] = .ok 5 := by decide

/-! ## C03 negation and subtraction -/

/-- C03. Negation is an involution, reverses the order and exchanges the infinities. -/
theorem C03_neg (a b : Int) :
    tvNeg (tvNeg a) = a ∧ (a ≤ b ↔ tvNeg b ≤ tvNeg a) ∧ tvNeg INF = -INF ∧
      (Legal a → Legal (tvNeg a)) := by
  refine ⟨by simp [tvNeg], by simp only [tvNeg]; omega, rfl, ?_⟩
  intro h; simp only [tvNeg]; ticks

/-- C03. Subtraction undoes addition when nothing overflows. -/
theorem C03_add_sub_cancel (a b x : Int) (ha : Date a) (hb : Date b) (hx : tvAdd a b = .ok x)
    (hfin : Date x) : tvSub x b = .ok a := by
  rw [tvAdd_fin ha hb] at hx
  injection hx with hx
  have hab : x = a + b := by
    simp only [round] at hx; (repeat' split at hx) <;> ticks
  have : Date (tvNeg b) := by simp only [tvNeg]; ticks
  rw [tvSub, tvAdd_exact hfin this] <;> simp only [tvNeg]
  · congr 1; omega
  · have : x + -b = a := by omega
    rwa [this]

/-- C03. A date plus the difference to another date is that other date. -/
theorem C03_ts_sub_add (d1 d2 d : Int) (h1 : Date d1) (h2 : Date d2) (hd : tsSub d2 d1 = .ok d)
    (hfin : Date d) : tsAdd d1 d = .ok d2 := by
  have hn : Date (tvNeg d1) := by simp only [tvNeg]; ticks
  rw [tsSub, tvSub, tvAdd_fin h2 hn] at hd
  injection hd with hd
  have hx : d = d2 - d1 := by
    simp only [round, tvNeg] at hd; (repeat' split at hd) <;> ticks
  rw [tsAdd, tvAdd_exact h1 hfin]
  · congr 1; omega
  · have : d1 + d = d2 := by omega
    rwa [this]

example : Date 10 ∧ Date 4 ∧ tsSub 10 4 = .ok 6 ∧ tsAdd 4 6 = .ok 10 := by decide

/-- C03. Every subtraction is the addition of the opposite, and the operators mixing dates and durations add and subtract the
ticks: with the table of C01 this settles all of them, panics included. -/
theorem C03_operators (a b : Int) (ha : Legal a) (hb : Legal b) :
    tvSub a b = tvAdd a (-b) ∧ tsSub a b = tvAdd a (-b) ∧ tsSubDur a b = tvAdd a (-b) ∧ tvSubTs a b = tvAdd a (-b) ∧
    tsAdd a b = tvAdd a b ∧ tvAddTs a b = tvAdd a b := by
  have hn : Legal (-b) := by ticks
  refine ⟨rfl, rfl, rfl, ?_, rfl, ?_⟩
  · exact C02_add_comm _ _ hn ha
  · exact C02_add_comm _ _ hb ha

example : Legal INF ∧ Legal 5 ∧ tvSubTs 7 5 = .ok 2 ∧ tvAddTs 7 5 = .ok 12 ∧ tvSubTs INF 5 = .ok INF := by decide

/-! ## C04 neighbours -/

/-- C04. `just_after` / `just_before` step to the adjacent tick of a finite point and nothing lies in
between; they fix the infinities; they are monotone. -/
theorem C04_neighbours (t u : Int) (ht : Legal t) (_hu : Legal u) :
    (Date t → t < justAfter t ∧ justBefore t < t ∧ ∀ x, ¬ (t < x ∧ x < justAfter t) ∧
      ¬ (justBefore t < x ∧ x < t)) ∧
    justAfter INF = INF ∧ justBefore INF = INF ∧ justAfter (-INF) = -INF ∧
    justBefore (-INF) = -INF ∧
    (t ≤ u → justAfter t ≤ justAfter u ∧ justBefore t ≤ justBefore u) ∧
    Legal (justAfter t) ∧ Legal (justBefore t) := by
  refine ⟨?_, by decide, by decide, by decide, by decide, ?_, ?_, ?_⟩
  · intro h; rw [justAfter_date h, justBefore_date h]
    exact ⟨by omega, by omega, fun x => by omega⟩
  all_goals
    simp only [justAfter_eq, justBefore_eq]
    repeat' split
    all_goals ticks

/-- C04. They are mutually inverse unless an infinity is reached. -/
theorem C04_inverse (t : Int) (ht : Date t) :
    (Date (justAfter t) → justBefore (justAfter t) = t) ∧
    (Date (justBefore t) → justAfter (justBefore t) = t) := by
  rw [justAfter_date ht, justBefore_date ht]
  exact ⟨fun h => by rw [justBefore_date h]; omega, fun h => by rw [justAfter_date h]; omega⟩

example : Date 0 ∧ justAfter 0 = 1 ∧ justBefore 0 = -1 ∧ justAfter (INF - 1) = INF := by decide

/-! ## C05 legal range -/

theorem shl30_exact {n : Int} (h1 : -8589934592 ≤ n) (h2 : n < 8589934592) : shl30 n = n * TICKS := by
  simp only [shl30, TICKS]
  rw [Int.bmod_eq_of_le] <;> omega

/-- C05. `from_ticks`, addition, scaling, the roundings of tick overflow: never outside
`[-INF, INF]`; in particular never `i64::MIN`. -/
theorem C05_arith_legal_partial (a b n : Int) (ha : Legal a) (hb : Legal b) :
    (∀ t, t ≤ I64_MAX → Legal (fromTicks t)) ∧ (∀ x, tvAdd a b = .ok x → Legal x) ∧
    (∀ x, tvSub a b = .ok x → Legal x) ∧ Legal (tvNeg a) ∧ Legal (mulSmall a n) ∧
    Legal (mulBig a n) ∧ Legal (mulUBig a n.toNat) := by
  have hneg : Legal (tvNeg b) := by simp only [tvNeg]; ticks
  have add : ∀ b, Legal b → ∀ x, tvAdd a b = .ok x → Legal x := by
    intro b hb x hx
    rw [tvAdd_eq ha hb] at hx
    repeat' split at hx
    all_goals first
      | (cases hx; done)
      | (injection hx with hx; subst hx; first | exact round_legal _ | ticks)
  refine ⟨?_, add b hb, add _ hneg, ?_, ?_, ?_, ?_⟩
  · intro t ht; simp only [fromTicks]; ticks
  · simp only [tvNeg]; ticks
  · rw [mulSmall, fromTicks_sat]; exact round_legal _
  · simp only [mulBig]
    repeat' split
    · ticks
    · ticks
    · rw [fromTicks_sat]; exact round_legal _
  · simp only [mulUBig]
    split
    · ticks
    · rw [fromTicks_sat]; exact round_legal _

/-- C05, partial: the unit constructors stay in range when the count of seconds is at least
`-MAX_SEC`. Missing: smaller counts, where the claim is false (next theorem). -/
theorem C05_from_secs_legal_partial (n : Int) (h : -MAX_SEC ≤ n) : Legal (fromSecs n) := by
  simp only [fromSecs]
  split
  · ticks
  · rw [shl30_exact (by ticks) (by ticks)]; ticks

/-- C05 is violated: `from_secs(-2^33)` is the illegal raw value `i64::MIN`. -/
theorem C05_from_secs_violated : ∃ n, I64_MIN ≤ n ∧ n ≤ I64_MAX ∧ ¬ Legal (fromSecs n) :=
  ⟨-8589934592, by decide⟩

/-- C05, exactly: `from_secs(n)` is out of range for the negative `n` which are `2^33` modulo `2^34`, and for these only. -/
theorem C05_from_secs_exact_partial (n : Int) : Legal (fromSecs n) ↔ ¬ (n < 0 ∧ n % 17179869184 = 8589934592) := by
  unfold fromSecs
  split
  · ticks
  · simp only [shl30, Int.bmod]
    ticks

/-- C05, exactly: the same for the longer units (of `u` seconds), unless the count of seconds saturates. -/
theorem C05_units_exact_partial (f : Int → Int) (u n : Int)
    (hf : (f, u) ∈ [(fromMins, 60), (fromHours, 3600), (fromDays, 86400), (fromWeeks, 604800), (fromMonths, 2629746),
      (fromYears, 31556952)]) :
    Legal (f n) ↔ ¬ (n < 0 ∧ I64_MIN ≤ n * u ∧ n * u % 17179869184 = 8589934592) := by
  have key : Legal (fromSecs (sat64 (n * u))) ↔ ¬ (n * u < 0 ∧ I64_MIN ≤ n * u ∧ n * u % 17179869184 = 8589934592) := by
    rw [C05_from_secs_exact_partial]
    generalize n * u = m
    simp only [sat64]
    split
    · ticks
    · split <;> ticks
  simp only [List.mem_cons, Prod.mk.injEq, List.not_mem_nil, or_false] at hf
  have e : f n = fromSecs (sat64 (n * u)) := by
    rcases hf with h | h | h | h | h | h <;>
      (obtain ⟨rfl, rfl⟩ := h
       simp only [fromMins, fromHours, fromDays, fromWeeks, fromMonths, fromYears, Int.reduceMul, Int.reduceDiv])
  rw [e, key]
  have up : 0 < u := by omega
  have sg : n * u < 0 ↔ n < 0 := by
    constructor
    · intro h
      rcases Int.lt_or_le n 0 with c | c
      · exact c
      · have := Int.mul_nonneg c (Int.le_of_lt up)
        omega
    · exact fun h => Int.mul_neg_of_neg_of_pos h up
  rw [sg]

/-! ## C06 whole-second constructors -/

/-- C06, partial: `from_secs(n)` is exactly `n` seconds if representable and `+oo` above; also exact
for negative `n` down to the smallest representable second. Missing: smaller `n` (false, below). -/
theorem C06_from_secs_partial (n : Int) (h : -MAX_SEC ≤ n) :
    fromSecs n = if n * TICKS ≥ INF then INF else n * TICKS := by
  simp only [fromSecs]
  repeat' split
  · rfl
  · ticks
  · ticks
  · rw [shl30_exact (by ticks) (by ticks)]

/-- C06, partial: the same for minutes, hours, days, weeks, months, years, for every `i64` count not
below the smallest representable one. -/
theorem C06_units_partial (n : Int) (_hn : I64_MIN ≤ n ∧ n ≤ I64_MAX) :
    (-MAX_SEC ≤ n * 60 → fromMins n = if n * 60 * TICKS ≥ INF then INF else n * 60 * TICKS) ∧
    (-MAX_SEC ≤ n * 3600 → fromHours n = if n * 3600 * TICKS ≥ INF then INF else n * 3600 * TICKS) ∧
    (-MAX_SEC ≤ n * 86400 → fromDays n = if n * 86400 * TICKS ≥ INF then INF else n * 86400 * TICKS) ∧
    (-MAX_SEC ≤ n * 604800 → fromWeeks n = if n * 604800 * TICKS ≥ INF then INF else n * 604800 * TICKS) ∧
    (-MAX_SEC ≤ n * 2629746 → fromMonths n = if n * 2629746 * TICKS ≥ INF then INF else n * 2629746 * TICKS) ∧
    (-MAX_SEC ≤ n * 31556952 → fromYears n = if n * 31556952 * TICKS ≥ INF then INF else n * 31556952 * TICKS) := by
  have key : ∀ s : Int, -MAX_SEC ≤ s →
      fromSecs (sat64 s) = if s * TICKS ≥ INF then INF else s * TICKS := by
    intro s hs
    by_cases hs2 : s ≤ I64_MAX
    · have : sat64 s = s := by simp only [sat64]; (repeat' split) <;> ticks
      rw [this, C06_from_secs_partial s hs]
    · have h1 : sat64 s = I64_MAX := by simp only [sat64]; (repeat' split) <;> ticks
      rw [h1, if_pos (by ticks)]
      decide
  refine ⟨key _, key _, ?_, ?_, ?_, ?_⟩
  · have : fromDays n = fromSecs (sat64 (n * 86400)) := rfl
    rw [this]; exact key _
  · have : fromWeeks n = fromSecs (sat64 (n * 604800)) := rfl
    rw [this]; exact key _
  · have : fromMonths n = fromSecs (sat64 (n * 2629746)) := rfl
    rw [this]; exact key _
  · have : fromYears n = fromSecs (sat64 (n * 31556952)) := rfl
    rw [this]; exact key _

example : -MAX_SEC ≤ (-90 : Int) ∧ fromSecs (-90) = -96636764160 ∧ fromSecs 8589934592 = INF ∧
    fromYears 300 = INF ∧ fromYears (-200) = -6776803840072089600 := by decide

/-- C06 is violated: no count at all below `-MAX_SEC` gives `-oo`; the bits shifted out wrap. -/
theorem C06_from_secs_violated : (∀ n, n < -MAX_SEC → fromSecs n ≠ -INF) ∧
    fromSecs (-8589934593) = 9223372035781033984 ∧ fromSecs I64_MIN = 0 := by
  refine ⟨?_, by decide, by decide⟩
  intro n hn h
  have : ¬ n > MAX_SEC := by ticks
  simp only [fromSecs, this, if_false, shl30] at h
  have h3 : (n * TICKS).bmod 18446744073709551616 % TICKS = 0 := by
    simp only [Int.bmod, TICKS]
    omega
  rw [h] at h3
  exact absurd h3 (by decide)

/-- C06 below the range, exactly: `from_secs(n)` is `n` seconds modulo `2^64` ticks, and a count of a longer unit (of `u` seconds) which is less
than `i64::MIN` seconds is 0. -/
theorem C06_below_exact :
    (∀ n, n < -MAX_SEC → I64_MIN ≤ fromSecs n ∧ fromSecs n ≤ I64_MAX ∧ 18446744073709551616 ∣ n * TICKS - fromSecs n) ∧
    ∀ f u, (f, u) ∈ [(fromMins, 60), (fromHours, 3600), (fromDays, 86400), (fromWeeks, 604800), (fromMonths, 2629746),
      (fromYears, 31556952)] → ∀ n, (I64_MIN ≤ n * u → n * u < -MAX_SEC → f n = fromSecs (n * u)) ∧ (n * u < I64_MIN → f n = 0) := by
  constructor
  · intro n hn
    have : ¬ n > MAX_SEC := by ticks
    simp only [fromSecs, this, if_false, shl30, Int.bmod]
    ticks
  · intro f u hf n
    have e : f n = fromSecs (sat64 (n * u)) := by
      simp only [List.mem_cons, Prod.mk.injEq, List.not_mem_nil, or_false] at hf
      rcases hf with h | h | h | h | h | h <;>
        (obtain ⟨rfl, rfl⟩ := h
         simp only [fromMins, fromHours, fromDays, fromWeeks, fromMonths, fromYears, Int.reduceMul, Int.reduceDiv])
    rw [e]
    generalize n * u = m
    constructor
    · intro h1 h2
      rw [show sat64 m = m by simp only [sat64]; (repeat' split) <;> ticks]
    · intro h
      rw [show sat64 m = I64_MIN by simp only [sat64]; (repeat' split) <;> ticks]
      decide

example : fromSecs (-8589934593) = 9223372035781033984 ∧ fromYears (-300000000000) = 0 := by decide

/-! ## C07 sub-second constructors -/

theorem tdiv_of_nonneg {a b : Int} (ha : 0 ≤ a) : a.tdiv b = a / b := Int.tdiv_eq_ediv_of_nonneg ha
theorem tdiv_of_nonpos {a b : Int} (ha : a ≤ 0) : a.tdiv b = -((-a) / b) := by
  rw [← tdiv_of_nonneg (by omega : 0 ≤ -a), Int.neg_tdiv, Int.neg_neg]

theorem fromFract_run {n u : Int} (hn : I64_MIN ≤ n ∧ n ≤ I64_MAX) (hu : u = 1000 ∨ u = 1000000 ∨ u = 1000000000) :
    fromFract n u = (if n.tdiv u > MAX_SEC then .ok INF else
      chk64 (shl30 (n.tdiv u) + ((n - n.tdiv u * u) * TICKS).tdiv u)) ∧
    -u < n - n.tdiv u * u ∧ n - n.tdiv u * u < u ∧ (0 ≤ n → 0 ≤ n - n.tdiv u * u) ∧ (n ≤ 0 → n - n.tdiv u * u ≤ 0) := by
  have hck : ∀ x : Int, I64_MIN ≤ x → x ≤ I64_MAX → chk64 x = .ok x := by
    intro x h1 h2; simp [chk64, h1, h2]
  have hdv : ∀ a : Int, I64_MIN ≤ a → a ≤ I64_MAX → div64 a u = .ok (a.tdiv u) := by
    intro a h1 h2
    have hu0 : u ≠ 0 := by omega
    have : (a.tdiv u) ≥ I64_MIN ∧ (a.tdiv u) ≤ I64_MAX := by
      rcases hu with rfl | rfl | rfl <;> rcases Int.le_total 0 a with h | h <;>
        (first | rw [tdiv_of_nonneg h] | rw [tdiv_of_nonpos h]) <;> ticks
    rw [div64, if_neg hu0, hck _ this.1 this.2]
  have hq : ∃ q : Int, n.tdiv u = q := ⟨_, rfl⟩
  obtain ⟨q, hq⟩ := hq
  have hqb : I64_MIN ≤ q * u ∧ q * u ≤ I64_MAX ∧ I64_MIN ≤ n - q * u ∧ n - q * u ≤ I64_MAX := by
    rw [← hq]
    rcases hu with rfl | rfl | rfl <;> rcases Int.le_total 0 n with h | h <;>
      (first | rw [tdiv_of_nonneg h] | rw [tdiv_of_nonpos h]) <;> ticks
  have hfr : -u < n - q * u ∧ n - q * u < u ∧ (0 ≤ n → 0 ≤ n - q * u) ∧ (n ≤ 0 → n - q * u ≤ 0) := by
    rw [← hq]
    rcases hu with rfl | rfl | rfl <;> rcases Int.le_total 0 n with h | h <;>
      (first | rw [tdiv_of_nonneg h] | rw [tdiv_of_nonpos h]) <;> omega
  rw [hq]
  refine ⟨?_, hfr⟩
  unfold fromFract
  rw [hdv n hn.1 hn.2, hq]
  show (chk64 (q * u)).bind _ = _
  rw [hck _ hqb.1 hqb.2.1]
  show (chk64 (n - q * u)).bind _ = _
  rw [hck _ hqb.2.2.1 hqb.2.2.2]
  show (if q > MAX_SEC then _ else _) = _
  split
  · rfl
  · rw [shl30_exact (n := n - q * u) (by omega) (by omega), hdv _ (by ticks) (by ticks)]
    rfl

/-- C05, exactly: `from_millis`, `from_micros` and `from_nanos` return a legal duration unless the whole seconds of the count are
negative and `2^33` modulo `2^34`; they then return `i64::MIN` or panic. -/
theorem C05_fract_exact_partial (f : Int → Res Int) (u n : Int)
    (hf : (f, u) ∈ [(fromMillis, 1000), (fromMicros, 1000000), (fromNanos, 1000000000)]) (hn : I64_MIN ≤ n ∧ n ≤ I64_MAX) :
    ((∃ x, f n = .ok x ∧ Legal x) ↔ ¬ (n < 0 ∧ n.tdiv u % 17179869184 = 8589934592)) ∧
    (n < 0 ∧ n.tdiv u % 17179869184 = 8589934592 → f n = .ok I64_MIN ∨ f n = .error .overflow) := by
  simp only [List.mem_cons, Prod.mk.injEq, List.not_mem_nil, or_false] at hf
  have e : f n = fromFract n u := by
    rcases hf with h | h | h <;> (obtain ⟨rfl, rfl⟩ := h; rfl)
  have hu : u = 1000 ∨ u = 1000000 ∨ u = 1000000000 := by omega
  obtain ⟨r, f1, f2, f3, f4⟩ := fromFract_run hn hu
  have hs : n < 0 → n.tdiv u ≤ 0 := by
    intro h
    rw [tdiv_of_nonpos (by omega)]
    have := Int.ediv_nonneg (by omega : 0 ≤ -n) (by omega : 0 ≤ u)
    omega
  have hs' : 0 ≤ n → 0 ≤ n.tdiv u := by
    intro h
    rw [tdiv_of_nonneg h]
    exact Int.ediv_nonneg h (by omega)
  rw [e, r]
  generalize n.tdiv u = q at *
  generalize n - q * u = d at *
  have g : -TICKS < (d * TICKS).tdiv u ∧ (d * TICKS).tdiv u < TICKS ∧ (0 ≤ d → 0 ≤ (d * TICKS).tdiv u) ∧
      (d ≤ 0 → (d * TICKS).tdiv u ≤ 0) := by
    simp only [TICKS]
    rcases hu with rfl | rfl | rfl <;> rcases Int.le_total 0 d with h | h
    all_goals
      first
        | (rw [tdiv_of_nonneg (by omega)]; omega)
        | (rw [tdiv_of_nonpos (by omega)]; omega)
  obtain ⟨g1, g2, g3, g4⟩ := g
  generalize (d * TICKS).tdiv u = v at *
  by_cases c : q > MAX_SEC
  · rw [if_pos c]
    have : ¬ n < 0 := by ticks
    exact ⟨⟨fun _ h => this h.1, fun _ => ⟨INF, rfl, by decide⟩⟩, fun h => absurd h.1 this⟩
  · rw [if_neg c]
    have w : -9223372036854775808 ≤ shl30 q ∧ shl30 q ≤ 9223372035781033984 ∧ shl30 q % 1073741824 = 0 ∧
        (shl30 q = -9223372036854775808 ↔ q % 17179869184 = 8589934592) := by
      simp only [shl30, Int.bmod, TICKS]
      omega
    obtain ⟨w1, w2, w3, w4⟩ := w
    generalize shl30 q = z at *
    by_cases b : n < 0 ∧ q % 17179869184 = 8589934592
    · have hz := w4.2 b.2
      have hv := g4 (f4 (by omega))
      by_cases v0 : v = 0
      · have : chk64 (z + v) = .ok I64_MIN := by
          unfold chk64; rw [hz, v0]; rfl
        rw [this]
        refine ⟨⟨?_, fun h => absurd b h⟩, fun _ => Or.inl rfl⟩
        rintro ⟨x, hx, hl⟩
        cases hx
        exact absurd hl (by decide)
      · have : chk64 (z + v) = .error .overflow := by
          unfold chk64; rw [if_neg (by ticks)]
        rw [this]
        refine ⟨⟨?_, fun h => absurd b h⟩, fun _ => Or.inr rfl⟩
        rintro ⟨x, hx, -⟩
        cases hx
    · refine ⟨⟨fun _ => b, fun _ => ⟨z + v, ?_, ?_⟩⟩, fun h => absurd h b⟩
      · unfold chk64
        rw [if_pos]
        by_cases nn : n < 0
        · have : z ≠ -9223372036854775808 := fun h => b ⟨nn, w4.1 h⟩
          ticks
        · have := g3 (f3 (by omega))
          ticks
      · by_cases nn : n < 0
        · have : z ≠ -9223372036854775808 := fun h => b ⟨nn, w4.1 h⟩
          ticks
        · have := g3 (f3 (by omega))
          have := hs' (by omega)
          have : z ≠ -9223372036854775808 := by
            intro h
            have := w4.1 h
            ticks
          ticks

example : Legal (fromSecs (-17179869184)) ∧ ¬ Legal (fromMins (-2147483648)) ∧ fromMillis (-8589934592000) = .ok I64_MIN ∧
    fromMillis (-8589934592001) = .error .overflow ∧ fromNanos (-8589934592000000001) = .error .overflow ∧
    fromNanos (-8589934592000000002) = .error .overflow ∧ Legal (fromYears (-272)) := by decide

theorem fromFract_exact {n u : Int} (hn : I64_MIN ≤ n ∧ n ≤ I64_MAX)
    (hu : u = 1000 ∨ u = 1000000 ∨ u = 1000000000) :
    (-8589934592 * u < n → n < 8589934592 * u → fromFract n u = .ok ((n * TICKS).tdiv u)) ∧
    (8589934592 * u ≤ n → fromFract n u = .ok INF) := by
  have hck : ∀ x : Int, I64_MIN ≤ x → x ≤ I64_MAX → chk64 x = .ok x := by
    intro x h1 h2; simp [chk64, h1, h2]
  have hdv : ∀ a : Int, I64_MIN ≤ a → a ≤ I64_MAX → div64 a u = .ok (a.tdiv u) := by
    intro a h1 h2
    have hu0 : u ≠ 0 := by omega
    have : (a.tdiv u) ≥ I64_MIN ∧ (a.tdiv u) ≤ I64_MAX := by
      rcases hu with rfl | rfl | rfl <;> rcases Int.le_total 0 a with h | h <;>
        (first | rw [tdiv_of_nonneg h] | rw [tdiv_of_nonpos h]) <;> ticks
    rw [div64, if_neg hu0, hck _ this.1 this.2]
  have hq : ∃ q : Int, n.tdiv u = q := ⟨_, rfl⟩
  obtain ⟨q, hq⟩ := hq
  have hqb : I64_MIN ≤ q * u ∧ q * u ≤ I64_MAX ∧ I64_MIN ≤ n - q * u ∧ n - q * u ≤ I64_MAX := by
    rw [← hq]
    rcases hu with rfl | rfl | rfl <;> rcases Int.le_total 0 n with h | h <;>
      (first | rw [tdiv_of_nonneg h] | rw [tdiv_of_nonpos h]) <;> ticks
  have hrun : fromFract n u = if q > MAX_SEC then .ok INF else
      (div64 (shl30 (n - q * u)) u).bind (fun f => chk64 (shl30 q + f)) := by
    unfold fromFract
    rw [hdv n hn.1 hn.2, hq]
    show (chk64 (q * u)).bind _ = _
    rw [hck _ hqb.1 hqb.2.1]
    show (chk64 (n - q * u)).bind _ = _
    rw [hck _ hqb.2.2.1 hqb.2.2.2]
    show (if q > MAX_SEC then _ else _) = _
    split <;> rfl
  rw [hrun]
  constructor
  · intro hlo hhi
    have hq2 : -8589934592 < q ∧ q ≤ MAX_SEC := by
      rw [← hq]
      rcases hu with rfl | rfl | rfl <;> rcases Int.le_total 0 n with h | h <;>
        (first | rw [tdiv_of_nonneg h] | rw [tdiv_of_nonpos h]) <;> ticks
    rw [if_neg (by omega)]
    have hfr : -1000000000 < n - q * u ∧ n - q * u < 1000000000 := by
      rw [← hq]
      rcases hu with rfl | rfl | rfl <;> rcases Int.le_total 0 n with h | h <;>
        (first | rw [tdiv_of_nonneg h] | rw [tdiv_of_nonpos h]) <;> omega
    rw [shl30_exact (by omega) (by omega), shl30_exact (by omega) (by ticks)]
    rw [hdv _ (by ticks) (by ticks)]
    show chk64 _ = _
    have hval : q * TICKS + ((n - q * u) * TICKS).tdiv u = (n * TICKS).tdiv u := by
      rw [← hq]
      rcases hu with rfl | rfl | rfl <;> rcases Int.le_total 0 n with h | h
      all_goals
        (first | rw [tdiv_of_nonneg h] | rw [tdiv_of_nonpos h])
        simp only [TICKS]
        first
          | (rw [tdiv_of_nonneg (by omega), tdiv_of_nonneg (by omega)]; omega)
          | (rw [tdiv_of_nonpos (by omega), tdiv_of_nonpos (by omega)]; omega)
    rw [hval, hck]
    all_goals
      rcases hu with rfl | rfl | rfl <;> rcases Int.le_total 0 n with h | h
      all_goals
        simp only [TICKS, I64_MIN, I64_MAX] at *
        first
          | (rw [tdiv_of_nonneg (by omega)]; omega)
          | (rw [tdiv_of_nonpos (by omega)]; omega)
  · intro hbig
    rw [if_pos]
    rw [← hq]
    rcases hu with rfl | rfl | rfl <;> rw [tdiv_of_nonneg (by omega)] <;> ticks

/-- C07. `from_millis/micros/nanos(n)` is `n/unit` seconds in ticks truncated towards zero whenever
this is representable, and `+oo` above. -/
theorem C07_subsec (n : Int) (hn : I64_MIN ≤ n ∧ n ≤ I64_MAX) :
    (-8589934592 * 1000 < n → n < 8589934592 * 1000 → fromMillis n = .ok ((n * TICKS).tdiv 1000)) ∧
    (-8589934592 * 1000000 < n → n < 8589934592 * 1000000 →
      fromMicros n = .ok ((n * TICKS).tdiv 1000000)) ∧
    (-8589934592 * 1000000000 < n → n < 8589934592 * 1000000000 →
      fromNanos n = .ok ((n * TICKS).tdiv 1000000000)) ∧
    (8589934592 * 1000 ≤ n → fromMillis n = .ok INF) ∧
    (8589934592 * 1000000 ≤ n → fromMicros n = .ok INF) ∧
    (8589934592 * 1000000000 ≤ n → fromNanos n = .ok INF) := by
  have a := fromFract_exact (u := 1000) hn (by simp)
  have b := fromFract_exact (u := 1000000) hn (by simp)
  have c := fromFract_exact (u := 1000000000) hn (by simp)
  exact ⟨a.1, b.1, c.1, a.2, b.2, c.2⟩

/-- C07. Consequences: each of the three constructors is monotone and odd where representable. -/
theorem C07_mono_odd (f : Int → Res Int) (u : Int)
    (hf : (f, u) ∈ [(fromMillis, 1000), (fromMicros, 1000000), (fromNanos, 1000000000)])
    (m n x y : Int) (hm : -8589934592 * u < m) (hn : n < 8589934592 * u) (hmn : m ≤ n)
    (hm' : -n ≤ 8589934592 * u) (hm64 : I64_MIN < m) (hn64 : n ≤ I64_MAX)
    (hx : f m = .ok x) (hy : f n = .ok y) : x ≤ y ∧ f (-m) = .ok (-x) := by
  have hu : u = 1000 ∨ u = 1000000 ∨ u = 1000000000 := by
    simp only [List.mem_cons, Prod.mk.injEq, List.not_mem_nil, or_false] at hf; omega
  have hfu : f = fun n => fromFract n u := by
    simp only [List.mem_cons, Prod.mk.injEq, List.not_mem_nil, or_false] at hf
    rcases hf with ⟨rfl, rfl⟩ | ⟨rfl, rfl⟩ | ⟨rfl, rfl⟩ <;> rfl
  subst hfu
  simp only at hx hy ⊢
  rw [(fromFract_exact (by ticks) hu).1 hm (by omega)] at hx
  rw [(fromFract_exact (by ticks) hu).1 (by omega) hn] at hy
  injection hx with hx; injection hy with hy
  refine ⟨?_, ?_⟩
  · rw [← hx, ← hy]; simp only [TICKS]
    rcases hu with rfl | rfl | rfl <;> rcases Int.le_total 0 m with h | h <;>
      rcases Int.le_total 0 n with h' | h' <;>
      first
      | (rw [tdiv_of_nonneg (by omega : 0 ≤ m * 1073741824),
          tdiv_of_nonneg (by omega : 0 ≤ n * 1073741824)]; omega)
      | (rw [tdiv_of_nonpos (by omega : m * 1073741824 ≤ 0),
          tdiv_of_nonneg (by omega : 0 ≤ n * 1073741824)]; omega)
      | (rw [tdiv_of_nonpos (by omega : m * 1073741824 ≤ 0),
          tdiv_of_nonpos (by omega : n * 1073741824 ≤ 0)]; omega)
  · rw [(fromFract_exact (n := -m) (by ticks) hu).1 (by omega) (by omega), Int.neg_mul,
      Int.neg_tdiv, hx]

example : fromMillis 1500 = .ok 1610612736 ∧ fromMillis (-1) = .ok (-1073741) ∧
    fromNanos 1 = .ok 1 := by decide

/-- C07 outside the stated range: very negative counts never saturate, they wrap (or panic). -/
theorem C07_underflow_violated (f : Int → Res Int) (u n : Int)
    (hf : (f, u) ∈ [(fromMillis, 1000), (fromMicros, 1000000), (fromNanos, 1000000000)]) (hn : I64_MIN ≤ n ∧ n ≤ I64_MAX)
    (h : n ≤ -8589934592 * u) : f n ≠ .ok (-INF) := by
  simp only [List.mem_cons, Prod.mk.injEq, List.not_mem_nil, or_false] at hf
  have e : f n = fromFract n u := by
    rcases hf with h | h | h <;> (obtain ⟨rfl, rfl⟩ := h; rfl)
  have hu : u = 1000 ∨ u = 1000000 ∨ u = 1000000000 := by omega
  obtain ⟨r, f1, f2, f3, f4⟩ := fromFract_run hn hu
  have hq : ¬ n.tdiv u > MAX_SEC := by
    rcases hu with rfl | rfl | rfl <;> rw [tdiv_of_nonpos (by omega)] <;> ticks
  have hd := f4 (by omega)
  rw [e, r, if_neg hq]
  generalize n.tdiv u = q at *
  generalize n - q * u = d at *
  have g : -TICKS + 1 < (d * TICKS).tdiv u ∧ (d * TICKS).tdiv u ≤ 0 := by
    rw [tdiv_of_nonpos (by ticks)]
    rcases hu with rfl | rfl | rfl <;> ticks
  generalize (d * TICKS).tdiv u = x at *
  have h3 : (q * TICKS).bmod 18446744073709551616 % TICKS = 0 := by
    simp only [Int.bmod, TICKS]
    omega
  intro hc
  unfold chk64 at hc
  split at hc
  · injection hc with hc
    unfold shl30 at hc
    ticks
  · cases hc

example : fromMillis (-8589934592000) = .ok I64_MIN ∧ fromMillis (-8589934593000) = .ok 9223372035781033984 := by decide

/-! ## C08 accessors -/

theorem subsecNanos_eq (t : Int) :
    subsecNanos t = .ok (((t % TICKS) * 10000000000 + 5000000000) / TICKS / 10) := by
  have h1 : 0 ≤ t % TICKS ∧ t % TICKS < TICKS := by ticks
  have e1 : chkU64 ((t % TICKS) * 10000000000) = .ok ((t % TICKS) * 10000000000) := by
    simp only [chkU64]; rw [if_pos]; ticks
  have e2 : chkU64 ((t % TICKS) * 10000000000 + 5000000000) =
      .ok ((t % TICKS) * 10000000000 + 5000000000) := by
    simp only [chkU64]; rw [if_pos]; ticks
  unfold subsecNanos
  rw [e1]
  show (chkU64 ((t % TICKS) * 10000000000 + 5000000000)).bind _ = _
  rw [e2]
  show Except.ok (Int.bmod _ _) = _
  rw [Int.bmod_eq_of_le] <;> ticks

/-- C08. `as_secs` is the floor in seconds, the sub-second accessors never overflow, are in range and
coherent, and seconds and nanoseconds together are within one nanosecond of the exact value
(`t / 2^30` seconds). -/
theorem C08_decompose (t : Int) : ∃ ns us ms, subsecNanos t = .ok ns ∧ subsecMicros t = .ok us ∧
    subsecMillis t = .ok ms ∧
    asSecs t * TICKS ≤ t ∧ t < (asSecs t + 1) * TICKS ∧
    0 ≤ ns ∧ ns ≤ 999999999 ∧ us = ns / 1000 ∧ ms = ns / 1000000 ∧
    (asSecs t * 1000000000 + ns) * TICKS < t * 1000000000 + TICKS ∧
    t * 1000000000 - TICKS < (asSecs t * 1000000000 + ns) * TICKS := by
  have h := subsecNanos_eq t
  have hn : ∃ ns, ((t % TICKS) * 10000000000 + 5000000000) / TICKS / 10 = ns := ⟨_, rfl⟩
  obtain ⟨ns, hns⟩ := hn
  rw [hns] at h
  have h0 : 0 ≤ ns := by rw [← hns]; ticks
  refine ⟨ns, ns / 1000, ns / 1000000, h, ?_, ?_, ?_⟩
  · rw [subsecMicros, h]; show Except.ok (ns.tdiv 1000) = _; rw [tdiv_of_nonneg h0]
  · rw [subsecMillis, h]; show Except.ok (ns.tdiv 1000000) = _; rw [tdiv_of_nonneg h0]
  · have hb : ∃ b, ((t % TICKS) * 10000000000 + 5000000000) / TICKS = b := ⟨_, rfl⟩
    obtain ⟨b, hb⟩ := hb
    rw [hb] at hns
    have hm : ∃ m, t % TICKS = m := ⟨_, rfl⟩
    obtain ⟨m, hm⟩ := hm
    have hs : ∃ s, t / TICKS = s := ⟨_, rfl⟩
    obtain ⟨s, hs⟩ := hs
    have ht : t = s * TICKS + m := by ticks
    have hm2 : 0 ≤ m ∧ m < TICKS := by ticks
    rw [hm] at hb
    have hb1 : b * TICKS ≤ m * 10000000000 + 5000000000 := by rw [← hb]; ticks
    have hb2 : m * 10000000000 + 5000000000 < (b + 1) * TICKS := by rw [← hb]; ticks
    have hn1 : 10 * ns ≤ b ∧ b ≤ 10 * ns + 9 := by omega
    simp only [asSecs, hs]
    subst ht
    clear hb hm hs hns h
    refine ⟨?_, ?_, h0, ?_, trivial, trivial, ?_, ?_⟩ <;> ticks

example : asSecs (-1) = -1 ∧ subsecNanos (-1) = .ok 999999999 ∧ subsecNanos 536870912 = .ok 500000000 := by
  decide

/-! ## C09 standard durations -/

/-- C09. `std::time::Duration` → `TimeValue` → `std::time::Duration` returns the same number of
seconds and the same sub-second nanoseconds or one less (up to 2^31-1 s; longer durations become
`+oo`). -/
theorem C09_std_roundtrip (sec ns : Int) (hs : 0 ≤ sec) (hn : 0 ≤ ns ∧ ns ≤ 999999999) :
    (sec ≤ 2147483647 → ∃ t ns', fromStdDuration sec ns = .ok t ∧ toStdDuration t = .ok (sec, ns') ∧
      (ns' = ns ∨ ns' = ns - 1)) ∧
    (2147483647 < sec → fromStdDuration sec ns = .ok INF) := by
  constructor
  · intro hsec
    have hdv : div64 (ns * TICKS) 1000000000 = .ok (ns * TICKS / 1000000000) := by
      rw [div64, if_neg (by decide), tdiv_of_nonneg (by ticks), chk64, if_pos]; ticks
    have h1 : fromStdDuration sec ns = .ok (sec * TICKS + ns * TICKS / 1000000000) := by
      unfold fromStdDuration
      rw [if_neg (by omega), shl30_exact (by omega) (by omega), shl30_exact (by omega) (by omega), hdv]
      show chk64 _ = _
      rw [chk64, if_pos]; ticks
    have hf : ∃ f, ns * TICKS / 1000000000 = f := ⟨_, rfl⟩
    obtain ⟨f, hf⟩ := hf
    rw [hf] at h1
    have hf0 : 0 ≤ f ∧ f < TICKS := by rw [← hf]; ticks
    have hm : (sec * TICKS + f) % TICKS = f := by ticks
    have hsn := subsecNanos_eq (sec * TICKS + f)
    rw [hm] at hsn
    refine ⟨_, ((f * 10000000000 + 5000000000) / TICKS / 10), h1, ?_, ?_⟩
    · unfold toStdDuration
      rw [if_pos (by ticks), hsn]
      show Except.ok (_, _) = _
      congr 2
      · simp only [asU64, asSecs]; ticks
      · ticks
    · have key : ns - 1 ≤ (f * 10000000000 + 5000000000) / TICKS / 10 ∧
          (f * 10000000000 + 5000000000) / TICKS / 10 ≤ ns := by
        have e1 : f * 1000000000 ≤ ns * TICKS := by rw [← hf]; ticks
        have e2 : ns * TICKS < f * 1000000000 + 1000000000 := by rw [← hf]; ticks
        clear hf
        ticks
      omega
  · intro h; simp [fromStdDuration, h, pure, Except.pure]

/-- C09. A negative duration has no `std::time::Duration`: the conversion panics. -/
theorem C09_std_negative (t : Int) (h : t < 0) : toStdDuration t = .error .assertFail := by
  unfold toStdDuration; rw [if_neg (by omega)]

/-- C09. A duration out of the range of chrono's nanoseconds (`None`), or of more than 8589934591 seconds, becomes `+oo`. -/
theorem C09_chrono_overflow : fromChronoNanos none = .ok INF ∧
    ∀ n, 8589934592 * 1000000000 ≤ n → n ≤ I64_MAX → fromChronoNanos (some n) = .ok INF :=
  ⟨rfl, fun n h1 h2 => (C07_subsec n (by ticks)).2.2.2.2.2 h1⟩

/-- C09. `chrono::Duration` nanoseconds round-trip, up to one nanosecond less. -/
theorem C09_chrono_roundtrip (n : Int) (h0 : 0 ≤ n) (h1 : n < 8589934592 * 1000000000) :
    ∃ t, fromChronoNanos (some n) = .ok t ∧ (toChronoNanos t = n ∨ toChronoNanos t = n - 1) := by
  refine ⟨_, (C07_subsec n (by ticks)).2.2.1 (by omega) h1, ?_⟩
  rw [tdiv_of_nonneg (by ticks)]
  have hf : ∃ f, n * TICKS / 1000000000 = f := ⟨_, rfl⟩
  obtain ⟨f, hf⟩ := hf
  rw [hf]
  have e1 : f * 1000000000 ≤ n * TICKS := by rw [← hf]; ticks
  have e2 : n * TICKS < f * 1000000000 + 1000000000 := by rw [← hf]; ticks
  clear hf
  simp only [toChronoNanos, asI64]
  rw [Int.bmod_eq_of_le] <;> ticks

example : fromStdDuration 3 7 = .ok 3221225479 ∧ toStdDuration 3221225479 = .ok (3, 6) := by decide

/-! ## C10 floor -/

theorem chk64_ok {x : Int} (h1 : I64_MIN ≤ x) (h2 : x ≤ I64_MAX) : chk64 x = .ok x := by
  simp [chk64, h1, h2]

theorem div_facts {a p : Int} (hp : 0 < p) : ∃ q r, a / p = q ∧ a = q * p + r ∧ 0 ≤ r ∧ r < p :=
  ⟨a / p, a % p, rfl, by rw [Int.mul_comm]; exact (Int.mul_ediv_add_emod a p).symm,
    Int.emod_nonneg _ (by omega), Int.emod_lt_of_pos _ hp⟩

theorem ediv_uniq {a p k r : Int} (_hp : 0 < p) (h : a = p * k + r) (h1 : 0 ≤ r) (h2 : r < p) :
    a / p = k := by
  subst h
  rw [Int.mul_add_ediv_left _ _ (by omega), Int.ediv_eq_zero_of_lt h1 h2, Int.add_zero]

theorem le_mul_pos {q p : Int} (hq : 0 ≤ q) (hp : 0 < p) : q ≤ q * p := by
  have h := Int.mul_le_mul_of_nonneg_left (show (1 : Int) ≤ p by omega) hq
  omega

theorem div64_pos {a p : Int} (hp : 0 < p) (ha : I64_MIN ≤ a ∧ a ≤ I64_MAX) :
    div64 a p = .ok (a.tdiv p) := by
  rw [div64, if_neg (by omega), chk64_ok]
  · rcases Int.le_total 0 a with h | h
    · rw [tdiv_of_nonneg h]
      have := Int.ediv_nonneg h (by omega : 0 ≤ p)
      ticks
    · rw [tdiv_of_nonpos h]
      obtain ⟨q, r, hq, he, h1, h2⟩ := div_facts (a := -a) hp
      have : 0 ≤ q := by rw [← hq]; exact Int.ediv_nonneg (by omega) (by omega)
      have := le_mul_pos this hp
      rw [hq]
      ticks
  · rcases Int.le_total 0 a with h | h
    · rw [tdiv_of_nonneg h]
      have := Int.ediv_le_self p h
      ticks
    · rw [tdiv_of_nonpos h]
      have := Int.ediv_nonneg (by omega : 0 ≤ -a) (by omega : 0 ≤ p)
      ticks

/-- C10. For a positive period, `floor` returns the greatest multiple of the period not after `t`, if
that multiple is representable. -/
theorem C10_floor (t p m : Int) (ht : Date t) (hp : 0 < p) (hp' : p ≤ INF)
    (hm : p ∣ m) (hle : m ≤ t) (hlt : t < m + p) (hrep : -INF ≤ m) : floorTo t p = .ok m := by
  obtain ⟨k, rfl⟩ := hm
  unfold floorTo
  split
  · rename_i h
    rw [div64_pos hp (by ticks), tdiv_of_nonneg (by omega)]
    have : t / p = k := by
      apply ediv_uniq hp (r := t - p * k) <;> grind
    rw [this]
    show chk64 (k * p) = _
    rw [Int.mul_comm]
    exact chk64_ok (by ticks) (by ticks)
  · rename_i h
    rw [chk64_ok (by ticks) (by ticks)]
    show (do let b ← chk64 ((← div64 (t + 1) p) - 1); chk64 (b * p)) = _
    rw [div64_pos hp (by ticks), tdiv_of_nonpos (by omega)]
    have : (-(t + 1)) / p = -k - 1 := by
      apply ediv_uniq hp (r := -(t + 1) - p * (-k - 1)) <;> grind
    rw [this]
    show (do let b ← chk64 (- (-k - 1) - 1); chk64 (b * p)) = _
    have : -(-k - 1) - 1 = k := by omega
    rw [this]
    have hk : k < 0 := by
      rcases Int.lt_or_le k 0 with h0 | h0
      · exact h0
      · have := Int.mul_nonneg (by omega : 0 ≤ p) h0; omega
    have : k ≥ p * k := by
      have := le_mul_pos (by omega : 0 ≤ -k) hp
      grind
    rw [chk64_ok (by ticks) (by ticks)]
    show chk64 (k * p) = _
    rw [Int.mul_comm]
    exact chk64_ok (by ticks) (by ticks)

/-- C10. Flooring is idempotent. -/
theorem C10_floor_idem (t p m : Int) (ht : Date t) (hp : 0 < p) (hp' : p ≤ INF)
    (h : floorTo t p = .ok m) (hm : Date m) : floorTo m p = .ok m := by
  have hmul : p ∣ m := by
    simp only [floorTo] at h
    split at h
    · cases h1 : div64 t p with
      | error e => simp [h1, bind, Except.bind] at h
      | ok a =>
        simp only [h1, bind, Except.bind, chk64] at h
        split at h
        · injection h with h; exact ⟨a, by rw [← h, Int.mul_comm]⟩
        · cases h
    · rw [chk64_ok (by ticks) (by ticks)] at h
      simp only [bind, Except.bind] at h
      cases h1 : div64 (t + 1) p with
      | error e => simp [h1] at h
      | ok a =>
        simp only [h1] at h
        cases h2 : chk64 (a - 1) with
        | error e => simp [h2] at h
        | ok b =>
          rw [h2] at h
          simp only [chk64] at h
          split at h
          · injection h with h; exact ⟨b, by rw [← h, Int.mul_comm]⟩
          · cases h
  exact C10_floor m p m hm hp hp' hmul (by omega) (by omega) (by ticks)

example : Date (-14) ∧ floorTo (-14) 5 = .ok (-15) ∧ floorTo 14 5 = .ok 10 ∧
    floorTo (-15) 5 = .ok (-15) := by decide

/-! ## C11 ceil -/

/-- C11, partial: for positive `t`, `ceil` returns the least multiple of the period not before `t`.
Missing: `t ≤ 0`, where the claim holds only outside `t ≡ 1 (mod p)` (next theorem). -/
theorem C11_ceil_positive_partial (t p m : Int) (ht : Date t) (hpos : 0 < t) (hp : 0 < p)
    (hm : p ∣ m) (hge : t ≤ m) (hgt : m < t + p) (hrep : m ≤ INF) : ceilTo t p = .ok m := by
  obtain ⟨k, rfl⟩ := hm
  unfold ceilTo
  rw [if_pos hpos, chk64_ok (by ticks) (by ticks)]
  show (do let b ← chk64 ((← div64 (t - 1) p) + 1); chk64 (b * p)) = _
  rw [div64_pos hp (by ticks), tdiv_of_nonneg (by omega)]
  have : (t - 1) / p = k - 1 := by
    apply ediv_uniq hp (r := t - 1 - p * (k - 1)) <;> grind
  rw [this]
  show (do let b ← chk64 (k - 1 + 1); chk64 (b * p)) = _
  have : k - 1 + 1 = k := by omega
  rw [this]
  have hk : 0 ≤ k := by
    rcases Int.lt_or_le k 0 with h0 | h0
    · have := Int.mul_nonneg (by omega : 0 ≤ p) (by omega : 0 ≤ -k); grind
    · exact h0
  have := le_mul_pos hk hp
  rw [Int.mul_comm] at this
  rw [chk64_ok (by ticks) (by ticks)]
  show chk64 (k * p) = _
  rw [Int.mul_comm]
  exact chk64_ok (by ticks) (by ticks)

/-- C11, partial: for `t ≤ 0`, `ceil` returns the least multiple `m ≥ t` exactly when
`t - 1` is not a multiple of the period; when it is, the result is `t - 1`, before `t`. -/
theorem C11_ceil_nonpositive_partial (t p m : Int) (ht : Date t) (hneg : t ≤ 0) (hp : 0 < p)
    (hm : p ∣ m) (hge : t ≤ m) (hgt : m < t + p) :
    ceilTo t p = .ok (if p ∣ t - 1 then t - 1 else m) := by
  obtain ⟨k, rfl⟩ := hm
  unfold ceilTo
  rw [if_neg (by omega), chk64_ok (by ticks) (by ticks)]
  show (do chk64 ((← div64 (t - 1) p) * p)) = _
  rw [div64_pos hp (by ticks), tdiv_of_nonpos (by omega)]
  have hk : k ≤ 0 := by
    rcases Int.lt_or_le 0 k with h0 | h0
    · have := Int.mul_le_mul_of_nonneg_left (show (1 : Int) ≤ k by omega) (by omega : 0 ≤ p)
      omega
    · exact h0
  have hpk := Int.mul_nonneg (by omega : 0 ≤ p) (by omega : 0 ≤ -k)
  have hpk' : p * k ≤ 0 := by grind
  split
  · rename_i hd
    obtain ⟨j, hj⟩ := hd
    have : (-(t - 1)) / p = -j := by
      apply ediv_uniq hp (r := 0) <;> grind
    rw [this]
    show chk64 (- -j * p) = _
    have : - -j * p = t - 1 := by grind
    rw [this]
    exact chk64_ok (by ticks) (by ticks)
  · rename_i hd
    have hne : t - 1 ≠ p * (k - 1) := fun h => hd ⟨_, h⟩
    have : (-(t - 1)) / p = -k := by
      apply ediv_uniq hp (r := -(t - 1) - p * (-k)) <;> grind
    rw [this]
    show chk64 (- -k * p) = _
    have : - -k * p = p * k := by grind
    rw [this]
    exact chk64_ok (by ticks) (by ticks)

/-- C11 is violated by every non-positive value which follows a multiple of the period: its ceiling is the value just before it. -/
theorem C11_ceil_violated (t p : Int) (ht : Date t) (hneg : t ≤ 0) (hp : 0 < p) (h : p ∣ t - 1) : ceilTo t p = .ok (t - 1) := by
  have e := C11_ceil_nonpositive_partial t p (t - 1 + (if p = 1 then 1 else p)) ht hneg hp
    (by split
        · next c => rw [c]; exact Int.one_dvd _
        · exact Int.dvd_add h (Int.dvd_refl p)) (by split <;> omega) (by split <;> omega)
  rwa [if_pos h] at e

example : ceilTo 11 5 = .ok 15 ∧ ceilTo (-13) 5 = .ok (-10) ∧ ceilTo (-14) 5 = .ok (-15) ∧ ceilTo 0 1 = .ok (-1) := by decide

/-! ## C12 truncation to a unit -/

/-- The truncating units, each with its length in ticks (`from_millis(1)` etc. truncate, so a
millisecond is 1073741 ticks). -/
def truncUnits : List ((Int → Res Int) × Int) :=
  [(tvYears, 31556952 * TICKS), (tvWeeks, 604800 * TICKS), (tvDays, 86400 * TICKS),
   (tvHours, 3600 * TICKS), (tvMins, 60 * TICKS), (tvMillis, 1073741), (tvMicros, 1073), (tvNanos, 1)]

theorem truncUnits_eq {f : Int → Res Int} {u : Int} (h : (f, u) ∈ truncUnits) :
    (∀ t, f t = truncUnit t u) ∧ 0 < u ∧ u ≤ INF := by
  simp only [truncUnits, List.mem_cons, Prod.mk.injEq, List.not_mem_nil, or_false] at h
  have e1 : fromMillis 1 = .ok 1073741 := by decide
  have e2 : fromMicros 1 = .ok 1073 := by decide
  have e3 : fromNanos 1 = .ok 1 := by decide
  rcases h with ⟨rfl, rfl⟩ | ⟨rfl, rfl⟩ | ⟨rfl, rfl⟩ | ⟨rfl, rfl⟩ | ⟨rfl, rfl⟩ | ⟨rfl, rfl⟩ |
    ⟨rfl, rfl⟩ | ⟨rfl, rfl⟩
  all_goals refine ⟨fun t => ?_, by decide, by decide⟩
  case inr.inr.inr.inr.inr.inl => rw [tvMillis, e1]; rfl
  case inr.inr.inr.inr.inr.inr.inl => rw [tvMicros, e2]; rfl
  case inr.inr.inr.inr.inr.inr.inr => rw [tvNanos, e3]; rfl
  all_goals rfl

/-- C12, partial: years, weeks, days, hours, minutes, millis, micros, nanos truncate a non-negative
duration to the multiple of the unit towards zero. Missing: `months` (it truncates to years) and
negative durations (next theorems). -/
theorem C12_trunc_nonneg_partial (f : Int → Res Int) (u t m : Int) (hf : (f, u) ∈ truncUnits)
    (ht : Date t) (h0 : 0 ≤ t) (hm : u ∣ m) (hle : m ≤ t) (hlt : t < m + u) (hm0 : 0 ≤ m) :
    f t = .ok m := by
  obtain ⟨h1, h2, h3⟩ := truncUnits_eq hf
  rw [h1, truncUnit, if_neg (by simp [isStrictlyNegative]; omega)]
  exact C10_floor t u m ht h2 h3 hm hle hlt (by ticks)

/-- C12, partial: on negative durations the result is right exactly when `u ∤ t - 1`; otherwise it is
`t - 1`, rounded away from zero (for `nanos`, always). -/
theorem C12_trunc_neg_partial (f : Int → Res Int) (u t m : Int) (hf : (f, u) ∈ truncUnits)
    (ht : Date t) (h0 : t < 0) (hm : u ∣ m) (hge : t ≤ m) (hgt : m < t + u) :
    f t = .ok (if u ∣ t - 1 then t - 1 else m) := by
  obtain ⟨h1, h2, h3⟩ := truncUnits_eq hf
  rw [h1, truncUnit, if_pos (by simp [isStrictlyNegative]; omega)]
  exact C11_ceil_nonpositive_partial t u m ht (by omega) h2 hm hge hgt

/-- C12, partial: `secs` truncates non-negative durations; on any duration it rounds down. -/
theorem C12_secs_partial (t : Int) : TICKS ∣ tvSecs t ∧ tvSecs t ≤ t ∧ t < tvSecs t + TICKS := by
  simp only [tvSecs, TICKS]; omega

/-- C12 is violated: `months` truncates to whole years, `nanos` rounds every negative duration away from zero, and `secs` all those which
are not a whole number of seconds. -/
theorem C12_violated :
    (∀ t, tvMonths t = tvYears t) ∧ (∀ t, Date t → t < 0 → tvNanos t = .ok (t - 1)) ∧
    (∀ t, t < 0 → ¬ TICKS ∣ t → tvSecs t < t) := by
  refine ⟨fun _ => rfl, fun t ht h0 => ?_, fun t h0 hd => ?_⟩
  · have := C12_trunc_neg_partial tvNanos 1 t t (by simp [truncUnits]) ht h0 (Int.one_dvd _) (Int.le_refl _) (by omega)
    rwa [if_pos (Int.one_dvd _)] at this
  · have := C12_secs_partial t
    by_cases c : tvSecs t = t
    · exact absurd (c ▸ this.1) hd
    · omega

example : tvMonths (fromMonths 2) = .ok 0 ∧ tvNanos (-5) = .ok (-6) ∧ tvSecs (-1) = -1073741824 := by decide

example : tvHours (fromMins 150) = .ok (fromHours 2) ∧ tvHours (fromMins (-150)) = .ok (fromHours (-2)) := by
  decide

/-! ## C13 product by an integer -/

/-- C13. For an integer type included in `i64`: exact product, rounded to the infinity of its sign.
(`INF` being the largest value, an infinite duration stays infinite under every non-zero factor.) -/
theorem C13_mul_small_partial (t n : Int) :
    mulSmall t n = if t * n ≥ INF then INF else if t * n ≤ -INF then -INF else t * n := by
  rw [mulSmall, fromTicks_sat]; rfl

/-- C13. Infinite durations keep their nature. -/
theorem C13_mul_inf (n : Int) :
    (0 < n → mulSmall INF n = INF ∧ mulSmall (-INF) n = -INF) ∧
    (n < 0 → mulSmall INF n = -INF ∧ mulSmall (-INF) n = INF) := by
  simp only [C13_mul_small_partial]
  constructor <;> intro h <;> constructor <;> (repeat' split) <;> ticks

/-- C13, partial: for the wide integer types the product is right when `|n| ≤ INF` or `t > 0`, and
only then. Missing: `t ≤ 0` with `n` beyond `i64` (the claim is false there). -/
theorem C13_mul_big_partial (t n : Int) :
    (mulBig t n = round (t * n) ↔ ((-INF ≤ n ∧ n ≤ INF) ∨ t > 0)) ∧
    (0 ≤ n → (mulUBig t n.toNat = round (t * n) ↔ (n ≤ INF ∨ t > 0))) := by
  have big : ∀ n : Int, n > INF → t > 0 → t * n ≥ INF := by
    intro n hn ht
    have := Int.mul_le_mul_of_nonneg_right (show (1 : Int) ≤ t by omega) (show 0 ≤ n by ticks)
    omega
  have bign : ∀ n : Int, n > INF → t ≤ 0 → t * n ≤ 0 := by
    intro n hn ht
    have := Int.mul_nonneg (show (0 : Int) ≤ -t by omega) (show 0 ≤ n by ticks)
    grind
  constructor
  · simp only [mulBig]
    split
    · rename_i h
      by_cases ht : t > 0
      · simp only [round, if_pos (big n h ht), ht, or_true]
      · have := bign n h (by omega)
        simp only [round]
        repeat' split
        all_goals ticks
    · split
      · rename_i h1 h
        by_cases ht : t > 0
        · have := big (-n) (by omega) ht
          have : t * n ≤ -INF := by grind
          simp only [round, ht, or_true]
          repeat' split
          all_goals ticks
        · have := bign (-n) (by omega) (by omega)
          have : 0 ≤ t * n := by grind
          simp only [round]
          repeat' split
          all_goals ticks
      · rw [fromTicks_sat]
        constructor
        · intro _; left; omega
        · intro _; rfl
  · intro hn0
    have hn : (n.toNat : Int) = n := by omega
    simp only [mulUBig, hn]
    split
    · rename_i h
      by_cases ht : t > 0
      · simp only [round, if_pos (big n h ht), ht, or_true]
      · have := bign n h (by omega)
        simp only [round]
        repeat' split
        all_goals ticks
    · rw [fromTicks_sat]
      constructor
      · intro _; left; omega
      · intro _; rfl

/-- C13 is violated by every multiplier beyond the range: whatever the duration, the product is the infinity of the sign of the multiplier, even
when the duration is null or negative. -/
theorem C13_mul_big_violated (t n : Int) (ht : t ≤ 0) :
    (INF < n → mulBig t n = INF ∧ t * n ≤ 0) ∧ (n < -INF → mulBig t n = -INF ∧ 0 ≤ t * n) ∧
    (0 ≤ n → INF < n → mulUBig t n.toNat = INF ∧ t * n ≤ 0) := by
  have h1 : INF < n → t * n ≤ 0 := fun h => Int.mul_nonpos_of_nonpos_of_nonneg ht (by ticks)
  refine ⟨fun h => ⟨?_, h1 h⟩, fun h => ⟨?_, Int.mul_nonneg_of_nonpos_of_nonpos ht (by ticks)⟩, fun h0 h => ⟨?_, h1 h⟩⟩
  · rw [mulBig, if_pos h]
  · rw [mulBig, if_neg (by ticks), if_pos h]
  · rw [mulUBig, if_pos (by omega)]

example : mulBig (-1) 18446744073709551616 = INF ∧ mulUBig 0 18446744073709551616 = INF := by decide

example : mulSmall (-3) 7 = -21 ∧ mulBig 4 (-5) = -20 ∧ mulSmall 4611686018427387904 3 = INF := by
  decide

/-! ## C14 quotient by an integer -/

theorem tdiv_bound {t n : Int} (_hn : n ≠ 0) (ht : Legal t) : Legal (t.tdiv n) := by
  have := Int.natAbs_tdiv_le_natAbs t n
  ticks

/-- C14, partial: a finite duration divided by a non-zero integer is the exact quotient rounded
towards zero; division by 0 panics. Missing: infinite durations, for which the claim is false. -/
theorem C14_div_finite_partial (t n : Int) (ht : Date t) :
    (n ≠ 0 → ∃ q, divSmall t n = .ok q ∧ q = t.tdiv n ∧ IsTruncDiv q t n) ∧
    divSmall t 0 = .error .divZero ∧
    (n ≠ 0 → divBig t n = .ok (t.tdiv n)) ∧ divBig t 0 = .error .divZero ∧
    (0 < n → divUBig t n.toNat = .ok (t.tdiv n)) := by
  have small : ∀ n : Int, n ≠ 0 → divSmall t n = .ok (t.tdiv n) := by
    intro n hn
    have hL := tdiv_bound hn (show Legal t by ticks)
    rw [divSmall, satDiv64, if_neg hn]
    show Except.ok (fromTicks (sat64 _)) = _
    rw [fromTicks_sat]
    congr 1
    simp only [round]
    repeat' split
    all_goals ticks
  have zero : ∀ n : Int, (n > INF ∨ n < -INF) → t.tdiv n = 0 := by
    intro n hn
    have h := Int.natAbs_tdiv t n
    have : t.natAbs / n.natAbs = 0 := Nat.div_eq_of_lt (by ticks)
    have h2 : (t.tdiv n).natAbs = t.natAbs / n.natAbs := h
    omega
  refine ⟨?_, ?_, ?_, ?_, ?_⟩
  · intro hn
    refine ⟨_, small n hn, rfl, ?_⟩
    have e := Int.mul_tdiv_add_tmod t n
    rw [Int.mul_comm] at e
    have hlt : (t.tmod n).natAbs < n.natAbs := by
      rw [Int.natAbs_tmod]; exact Nat.mod_lt _ (by omega)
    have hs1 : 0 ≤ t → 0 ≤ t.tmod n := fun h => Int.tmod_nonneg _ h
    have hs2 : t ≤ 0 → t.tmod n ≤ 0 := by
      intro h
      have := Int.tmod_nonneg n (by omega : 0 ≤ -t)
      rw [Int.neg_tmod] at this
      omega
    have hs3 : 0 ≤ t → 0 ≤ t.tdiv n * n := by
      intro h
      have hmul : (t.tdiv n * n).natAbs ≤ t.natAbs := by
        rw [Int.natAbs_mul, Int.natAbs_tdiv]; exact Nat.div_mul_le_self _ _
      have := hs1 h
      rcases Int.le_total 0 n with h' | h'
      · exact Int.mul_nonneg (Int.tdiv_nonneg h h') h'
      · have := Int.tdiv_nonneg h (by omega : 0 ≤ -n)
        rw [Int.tdiv_neg] at this
        have := Int.mul_nonneg this (by omega : 0 ≤ -n)
        grind
    have hs4 : t ≤ 0 → t.tdiv n * n ≤ 0 := by
      intro h
      rcases Int.le_total 0 n with h' | h'
      · have := Int.tdiv_nonneg (by omega : 0 ≤ -t) h'
        rw [Int.neg_tdiv] at this
        have := Int.mul_nonneg this h'
        grind
      · have := Int.tdiv_nonneg (by omega : 0 ≤ -t) (by omega : 0 ≤ -n)
        rw [Int.neg_tdiv, Int.tdiv_neg] at this
        have := Int.mul_nonneg this (by omega : 0 ≤ -n)
        grind
    refine ⟨?_, ?_, hs3, hs4⟩
    · rw [Int.natAbs_mul, Int.natAbs_tdiv]; exact Nat.div_mul_le_self _ _
    · generalize t.tdiv n * n = x at *
      generalize t.tmod n = y at *
      omega
  · simp [divSmall, satDiv64, bind, Except.bind]
  · intro hn
    unfold divBig
    split
    · rename_i h; rw [zero n h]; rfl
    · exact small n hn
  · simp [divBig, satDiv64, bind, Except.bind, INF]
  · intro hn
    have hn' : (n.toNat : Int) = n := by omega
    unfold divUBig
    rw [hn']
    split
    · rename_i h; rw [zero n (Or.inl h)]; rfl
    · exact small n (by omega)

/-- C14, exactly: any duration, infinite ones included, is divided as the number of ticks it is, towards zero, whatever the integer type. -/
theorem C14_div_exact (t n : Int) (ht : Legal t) (hn : n ≠ 0) :
    divSmall t n = .ok (t.tdiv n) ∧ divBig t n = .ok (t.tdiv n) ∧ (0 < n → divUBig t n.toNat = .ok (t.tdiv n)) := by
  have hr : ∀ m, m ≠ 0 → round (t.tdiv m) = t.tdiv m := by
    intro m hm
    have := tdiv_bound hm ht
    simp only [round]
    repeat' split
    all_goals ticks
  have small : ∀ m, m ≠ 0 → divSmall t m = .ok (t.tdiv m) := by
    intro m hm
    rw [divSmall, satDiv64, if_neg hm]
    show Except.ok (fromTicks (sat64 (t.tdiv m))) = _
    rw [fromTicks_sat, hr m hm]
  have zero : ∀ m : Int, m > INF ∨ m < -INF → t.tdiv m = 0 := by
    intro m hm
    apply Int.natAbs_eq_zero.1
    rw [Int.natAbs_tdiv]
    exact Nat.div_eq_of_lt (by unfold Legal at ht; ticks)
  refine ⟨small n hn, ?_, fun h0 => ?_⟩
  · unfold divBig
    split
    · rename_i h; rw [zero n h]; rfl
    · exact small n hn
  · have hn' : (n.toNat : Int) = n := by omega
    unfold divUBig
    rw [hn']
    split
    · rename_i h; rw [zero n (Or.inl h)]; rfl
    · exact small n hn

/-- C14 is violated on infinite durations: whatever the integer type, the quotient is infinite only for the divisors ±1. -/
theorem C14_div_inf_violated (t n q : Int) (ht : t = INF ∨ t = -INF) (hn : n ≠ 0)
    (h : divSmall t n = .ok q ∨ divBig t n = .ok q ∨ 0 < n ∧ divUBig t n.toNat = .ok q) :
    (q = INF ∨ q = -INF) ↔ (n = 1 ∨ n = -1) := by
  obtain ⟨e1, e2, e3⟩ := C14_div_exact t n (by unfold Legal; ticks) hn
  have h : t.tdiv n = q := by
    rcases h with h | h | ⟨h0, h⟩
    · rw [e1] at h; exact Except.ok.inj h
    · rw [e2] at h; exact Except.ok.inj h
    · rw [e3 h0] at h; exact Except.ok.inj h
  have ta : t.natAbs = INF.natAbs := by rcases ht with rfl | rfl <;> rfl
  have h2 : q.natAbs = INF.natAbs / n.natAbs := by rw [← h, ← ta]; exact Int.natAbs_tdiv t n
  constructor
  · intro hq
    have h3 : INF.natAbs / n.natAbs = INF.natAbs := by
      rw [← h2]; rcases hq with rfl | rfl <;> rfl
    by_cases h4 : n.natAbs = 1
    · omega
    · have := Nat.div_lt_self (show 0 < INF.natAbs by decide) (show 1 < n.natAbs by omega)
      omega
  · intro hn
    rcases hn with rfl | rfl <;> rcases ht with rfl | rfl
    · left; rw [← h]; decide
    · right; rw [← h]; decide
    · right; rw [← h]; decide
    · left; rw [← h]; decide

example : divSmall INF 2 = .ok 4611686018427387903 ∧ divSmall INF (-1) = .ok (-INF) := by decide

example : Date (-7) ∧ divSmall (-7) 2 = .ok (-3) ∧ divBig 7 (-2) = .ok (-3) := by decide

/-! ## C92 integers as durations -/

theorem toI64_eq {ty : IntTy} {x : Int} (h : OfType ty x) :
    toI64 ty x = if x > I64_MAX then I64_MAX else if x < I64_MIN then I64_MIN else x := by
  have key : -9223372036854775808 ≤ x → x ≤ 9223372036854775807 → asI64 x = x := by
    intro h1 h2
    unfold asI64
    rw [Int.bmod_eq_of_le] <;> omega
  have hI : I64_MAX = 9223372036854775807 := rfl
  have hJ : I64_MIN = -9223372036854775808 := rfl
  rw [hI, hJ]
  cases ty <;> simp only [OfType, toI64, hI, hJ] at h ⊢ <;> (repeat' split) <;> first | rfl | omega | (rw [key] <;> omega)

/-- C92. `x.ticks()` on an integer of any type is `x` ticks, rounded to the infinity it overflows to. -/
theorem C92_ticks {ty : IntTy} {x : Int} (h : OfType ty x) : intTicks ty x = round x := by
  unfold intTicks fromTicks round
  rw [toI64_eq h]
  repeat' split
  all_goals ticks

/-- C92, partial: `x.secs()`, … , `x.years()` on an integer of any type is exactly `x` units, or `+oo` if this is too large.
Missing: below the smallest representable number of units (the claim is false there, see C06_from_secs_violated). -/
theorem C92_units_partial {ty : IntTy} {x : Int} (h : OfType ty x) :
    (-MAX_SEC ≤ x → intSecs ty x = round (x * TICKS)) ∧
    (-MAX_SEC ≤ x * 60 → intMins ty x = round (x * 60 * TICKS)) ∧
    (-MAX_SEC ≤ x * 3600 → intHours ty x = round (x * 3600 * TICKS)) ∧
    (-MAX_SEC ≤ x * 86400 → intDays ty x = round (x * 86400 * TICKS)) ∧
    (-MAX_SEC ≤ x * 604800 → intWeeks ty x = round (x * 604800 * TICKS)) ∧
    (-MAX_SEC ≤ x * 2629746 → intMonths ty x = round (x * 2629746 * TICKS)) ∧
    (-MAX_SEC ≤ x * 31556952 → intYears ty x = round (x * 31556952 * TICKS)) := by
  unfold intSecs intMins intHours intDays intWeeks intMonths intYears
  rw [toI64_eq h]
  have main : ∀ k : Int, 1 ≤ k → k ≤ 31556952 → -MAX_SEC ≤ x * k → ∀ f : Int → Int,
      (∀ n, I64_MIN ≤ n ∧ n ≤ I64_MAX → -MAX_SEC ≤ n * k → f n = if n * k * TICKS ≥ INF then INF else n * k * TICKS) →
      f (if x > I64_MAX then I64_MAX else if x < I64_MIN then I64_MIN else x) = round (x * k * TICKS) := by
    intro k k1 k2 hx f hf
    by_cases c : x > I64_MAX
    · rw [if_pos c, hf I64_MAX (by decide) (by ticks)]
      have hm : x * 1 ≤ x * k := Int.mul_le_mul_of_nonneg_left k1 (by ticks)
      unfold round
      rw [if_pos (by ticks), if_pos (by generalize x * k = y at *; ticks)]
    · have hm : ¬ x < I64_MIN := by
        intro hlt
        have hm : x * k ≤ x * 1 := by
          have := Int.mul_le_mul_of_nonneg_left k1 (show 0 ≤ -x by ticks)
          rw [Int.neg_mul, Int.neg_mul] at this
          omega
        ticks
      rw [if_neg c, if_neg hm, hf x (by omega) hx]
      unfold round
      generalize x * k = y at *
      repeat' split
      all_goals first | rfl | (exfalso; ticks)
  refine ⟨fun hx => ?_, fun hx => ?_, fun hx => ?_, fun hx => ?_, fun hx => ?_, fun hx => ?_, fun hx => ?_⟩
  · have := main 1 (by decide) (by decide) (by omega) fromSecs (fun n _ h => by rw [C06_from_secs_partial n (by omega), Int.mul_one])
    rwa [Int.mul_one] at this
  · exact main 60 (by decide) (by decide) hx fromMins (fun n hn => (C06_units_partial n hn).1)
  · exact main 3600 (by decide) (by decide) hx fromHours (fun n hn => (C06_units_partial n hn).2.1)
  · exact main 86400 (by decide) (by decide) hx fromDays (fun n hn => (C06_units_partial n hn).2.2.1)
  · exact main 604800 (by decide) (by decide) hx fromWeeks (fun n hn => (C06_units_partial n hn).2.2.2.1)
  · exact main 2629746 (by decide) (by decide) hx fromMonths (fun n hn => (C06_units_partial n hn).2.2.2.2.1)
  · exact main 31556952 (by decide) (by decide) hx fromYears (fun n hn => (C06_units_partial n hn).2.2.2.2.2)

/-- C92, partial: `x.millis()`, `x.micros()`, `x.nanos()` on an integer of any type is `x` units truncated towards zero to a
tick, or `+oo` if this is too large. Missing: below the smallest representable number of units, see C07_underflow_violated. -/
theorem C92_subsec_partial {ty : IntTy} {x : Int} (h : OfType ty x) :
    (-8589934592 * 1000 < x → intMillis ty x = .ok (if 8589934592 * 1000 ≤ x then INF else (x * TICKS).tdiv 1000)) ∧
    (-8589934592 * 1000000 < x → intMicros ty x = .ok (if 8589934592 * 1000000 ≤ x then INF else (x * TICKS).tdiv 1000000)) ∧
    (-8589934592 * 1000000000 < x →
      intNanos ty x = .ok (if 8589934592 * 1000000000 ≤ x then INF else (x * TICKS).tdiv 1000000000)) := by
  unfold intMillis intMicros intNanos
  rw [toI64_eq h]
  have big := C07_subsec I64_MAX (by decide)
  refine ⟨fun hx => ?_, fun hx => ?_, fun hx => ?_⟩ <;> by_cases c : x > I64_MAX
  · rw [if_pos c, big.2.2.2.1 (by decide), if_pos (by ticks)]
  · rw [if_neg c, if_neg (by ticks)]
    have e := C07_subsec x (by ticks)
    split
    · exact e.2.2.2.1 (by omega)
    · exact e.1 (by omega) (by omega)
  · rw [if_pos c, big.2.2.2.2.1 (by decide), if_pos (by ticks)]
  · rw [if_neg c, if_neg (by ticks)]
    have e := C07_subsec x (by ticks)
    split
    · exact e.2.2.2.2.1 (by omega)
    · exact e.2.1 (by omega) (by omega)
  · rw [if_pos c, big.2.2.2.2.2 (by decide), if_pos (by ticks)]
  · rw [if_neg c]
    by_cases c2 : x < I64_MIN
    · exfalso; ticks
    rw [if_neg c2]
    have e := C07_subsec x (by ticks)
    split
    · exact e.2.2.2.2.2 (by omega)
    · exact e.2.2.1 (by omega) (by omega)

example : OfType .u128 (2^127) ∧ intTicks .u128 (2^127) = INF ∧ intSecs .i128 (2^100) = INF ∧ intHours .u8 3 = 11596411699200 ∧
    intNanos .i128 (2^100) = .ok INF := by
  refine ⟨by unfold OfType; decide, by decide, by decide, by decide, by decide⟩

/-- C92 is violated for all the integers which are too small: whatever the type, `x.secs()`, … , `x.years()` is never `-oo`. -/
theorem C92_violated (ty : IntTy) (x : Int) : intSecs ty x ≠ -INF ∧ intMins ty x ≠ -INF ∧ intHours ty x ≠ -INF ∧
    intDays ty x ≠ -INF ∧ intWeeks ty x ≠ -INF ∧ intMonths ty x ≠ -INF ∧ intYears ty x ≠ -INF := by
  have key : ∀ n, fromSecs n ≠ -INF := by
    intro n
    unfold fromSecs
    split
    · decide
    · simp only [shl30, Int.bmod]
      ticks
  exact ⟨key _, key _, key _, key _, key _, key _, key _⟩

example : OfType .i128 (-2^127) ∧ intSecs .i128 (-2^127) = 0 ∧ intMillis .i128 (-2^127) ≠ .ok (-INF) := by
  refine ⟨by unfold OfType; decide, by decide, by decide⟩


end Chrono
