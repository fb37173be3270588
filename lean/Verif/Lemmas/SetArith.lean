import Verif.Lemmas.SetRel
import Verif.Spec.Arith
import Verif.Props.Duration

set_option linter.unusedSimpArgs false

/-!
# Sets: negation, sums, scaling
-/

namespace Chrono
open Spec

/-- the sum of two intervals, when nothing overflows -/
def sumIv (i s : Iv) : Iv :=
  ⟨if i.lower = -INF ∨ s.lower = -INF then -INF else i.lower + s.lower,
   if i.upper = INF ∨ s.upper = INF then INF else i.upper + s.upper⟩

theorem addSpan_sum (dbg : Bool) {i s : Iv} (hi : WF i) (hs : WF s) (hf : FitsSum i s) :
    i.addSpan dbg s = .ok (sumIv i s) ∧ WF (sumIv i s) ∧
    ∀ t, InExt t (sumIv i s) ↔ ∃ a b, InExt a i ∧ InExt b s ∧ t = a + b := by
  obtain ⟨j, e, hw, e1, e2⟩ := addSpan_spec dbg hi hs hf.1 hf.2
  have : j = sumIv i s := by cases j; simp only [sumIv] at *; rw [e1, e2]
  rw [this] at e hw
  refine ⟨e, hw, fun t => ?_⟩
  obtain ⟨h1, h2, h3, h4, h5⟩ := hi
  obtain ⟨g1, g2, g3, g4, g5⟩ := hs
  constructor
  · intro h
    exact minkowski h1 g1 ⟨h2, h4⟩ ⟨g2, g4⟩ ⟨h5, h3⟩ ⟨g5, g3⟩ hf.1 hf.2 h
  · rintro ⟨a, b, ha, hb, rfl⟩
    simp only [InExt, sumIv] at *
    grind

theorem sumIv_comm (i s : Iv) : sumIv i s = sumIv s i := by
  simp only [sumIv, Int.add_comm i.lower, Int.add_comm i.upper, or_comm (a := i.lower = -INF),
    or_comm (a := i.upper = INF)]

theorem wf_point {d : Int} (h : Date d) : WF ⟨d, d⟩ := by
  obtain ⟨h1, h2⟩ := h
  constructor <;> simp only <;> omega

/-- membership beyond the representable range is decided at the infinities -/
theorem inExtSet_iff {s : List Iv} (hs : ∀ i ∈ s, WF i) (t : Int) :
    InExtSet t s ↔ InSet (if t ≥ INF then INF else if t ≤ -INF then -INF else t) s := by
  have key : ∀ i, WF i →
      (InExt t i ↔ InIv (if t ≥ INF then INF else if t ≤ -INF then -INF else t) i) := by
    intro i hi
    obtain ⟨h1, h2, h3, h4, h5⟩ := hi
    simp only [InExt, InIv]
    repeat' split
    all_goals ticks
  constructor
  · rintro ⟨i, hi, h⟩; exact ⟨i, hi, (key i (hs i hi)).1 h⟩
  · rintro ⟨i, hi, h⟩; exact ⟨i, hi, (key i (hs i hi)).2 h⟩

theorem inExtSet_date {s : List Iv} (hs : ∀ i ∈ s, WF i) {t : Int} (ht : Date t) :
    InExtSet t s ↔ InSet t s := by
  rw [inExtSet_iff hs, if_neg (by ticks), if_neg (by ticks)]

theorem InExtSet_map {f : Iv → Iv} {s : List Iv} {t : Int} :
    InExtSet t (s.map f) ↔ ∃ i ∈ s, InExt t (f i) := by
  simp only [InExtSet, List.mem_map]
  constructor
  · rintro ⟨_, ⟨i, hi, rfl⟩, h⟩; exact ⟨i, hi, h⟩
  · rintro ⟨i, hi, h⟩; exact ⟨_, ⟨i, hi, rfl⟩, h⟩

/-- bounds of an interval followed by another one in a canonical set -/
theorem canon_pair {s : List Iv} (hs : Canon s) :
    s.Pairwise (fun a b => a.upper + 1 < b.lower ∧ WF a ∧ WF b) := by
  induction s with
  | nil => exact List.Pairwise.nil
  | cons x xs ih =>
    obtain ⟨h1, h2, h3⟩ := Canon_cons.1 hs
    rw [List.pairwise_cons]
    exact ⟨fun y hy => ⟨h2 y hy, h1, h3.wf y hy⟩, ih h3⟩

theorem canon_shift {s : List Iv} (hs : Canon s) {d : Int} (hd : Date d)
    (hf : ∀ i ∈ s, FitsSum i ⟨d, d⟩) : Canon (s.map (fun i => sumIv i ⟨d, d⟩)) := by
  constructor
  · intro i hi
    obtain ⟨j, hj, rfl⟩ := List.mem_map.1 hi
    exact (addSpan_sum false (hs.wf j hj) (wf_point hd) (hf j hj)).2.1
  · rw [List.pairwise_map]
    refine (canon_pair hs).imp ?_
    rintro a b ⟨h1, ⟨a1, a2, a3, a4, a5⟩, ⟨b1, b2, b3, b4, b5⟩⟩
    obtain ⟨d1, d2⟩ := hd
    simp only [sumIv]
    rw [if_neg (by omega), if_neg (by omega)]
    omega

theorem inExt_shift {i : Iv} {d t : Int} (hi : WF i) (hd : Date d) (hf : FitsSum i ⟨d, d⟩) :
    InExt t (sumIv i ⟨d, d⟩) ↔ InExt (t - d) i := by
  rw [(addSpan_sum false hi (wf_point hd) hf).2.2]
  obtain ⟨d1, d2⟩ := hd
  constructor
  · rintro ⟨a, b, h1, h2, rfl⟩
    have : b = d := by simp only [InExt] at h2; omega
    rw [this]
    have : a + d - d = a := by omega
    rw [this]; exact h1
  · intro h
    exact ⟨t - d, d, h, by simp only [InExt]; omega, by omega⟩

theorem shift_back {i : Iv} {d : Int} (hi : WF i) (hd : Date d) (hf : FitsSum i ⟨d, d⟩) :
    sumIv (sumIv i ⟨d, d⟩) ⟨-d, -d⟩ = i ∧ FitsSum (sumIv i ⟨d, d⟩) ⟨-d, -d⟩ := by
  obtain ⟨h1, h2, h3, h4, h5⟩ := hi
  obtain ⟨f1, f2⟩ := hf
  rcases i with ⟨l, u⟩
  simp only at *
  have q1 : (if (if l = -INF ∨ d = -INF then -INF else l + d) = -INF ∨ -d = -INF then -INF
      else (if l = -INF ∨ d = -INF then -INF else l + d) + -d) = l := by
    repeat' split
    all_goals ticks
  have q2 : (if (if u = INF ∨ d = INF then INF else u + d) = INF ∨ -d = INF then INF
      else (if u = INF ∨ d = INF then INF else u + d) + -d) = u := by
    repeat' split
    all_goals ticks
  constructor
  · simp only [sumIv]
    rw [q1, q2]
  · constructor
    · simp only [sumIv]
      split <;> ticks
    · simp only [sumIv]
      split <;> ticks

theorem fitsDiff {i s : Iv} (h : FitsDiff i s) : FitsSum i s.neg := by
  obtain ⟨h1, h2⟩ := h
  constructor
  · intro a b; simp only [Iv.neg] at *; exact h1 a (by ticks)
  · intro a b; simp only [Iv.neg] at *; exact h2 a (by ticks)

/-! ## Negation -/

theorem mem_neg {s : TSet} {i : Iv} : i ∈ TSet.neg s ↔ ∃ j ∈ s, i = j.neg := by
  simp only [TSet.neg, List.mem_map, List.mem_reverse]
  constructor
  · rintro ⟨j, hj, rfl⟩; exact ⟨j, hj, rfl⟩
  · rintro ⟨j, hj, rfl⟩; exact ⟨j, hj, rfl⟩

theorem canon_neg {s : TSet} (hs : Canon s) : Canon (TSet.neg s) := by
  constructor
  · intro i hi
    obtain ⟨j, hj, rfl⟩ := mem_neg.1 hi
    exact (hs.wf j hj).neg
  · rw [TSet.neg, List.pairwise_map, List.pairwise_reverse]
    refine hs.gap.imp ?_
    intro a b h
    simp only [Iv.neg]
    omega

theorem neg_neg (s : TSet) : TSet.neg (TSet.neg s) = s := by
  have : ∀ i : Iv, i.neg.neg = i := by intro i; cases i; simp [Iv.neg]
  simp [TSet.neg, List.map_reverse, Function.comp_def, this]

/-! ## Unconditional soundness of collecting -/

namespace TSet

theorem sound_step {r : List Iv} {i : Iv} (hr : Canon r) (hi : WF i) :
    ∃ r', unionConvex r (.iv i) = .ok r' ∧ Canon r' ∧ ∀ t, InSet t r' → InSet t r ∨ InIv t i := by
  have e : (Convex.iv (Convex.iv i).into).iter = [i] := iter_wf hi
  have hc : Canon [i] := Canon_cons.2 ⟨hi, by simp, Canon_nil⟩
  obtain ⟨h1, h2⟩ := UnionIter.good_new hr hc
  refine ⟨_, by rw [unionConvex, e]; exact fromIter_canon h1, h1, fun t ht => ?_⟩
  have := h2 t ht
  rw [InSet_singleton] at this
  exact this

theorem foldlM_sound (f : List Iv → Iv → Res (List Iv))
    (hf : ∀ r i, Canon r → WF i →
      ∃ r', f r i = .ok r' ∧ Canon r' ∧ ∀ t, InSet t r' → InSet t r ∨ InIv t i) (l : List Iv) :
    ∀ r, Canon r → (∀ b ∈ l, WF b) →
      ∃ r', l.foldlM f r = .ok r' ∧ Canon r' ∧ ∀ t, InSet t r' → InSet t r ∨ InSet t l := by
  induction l with
  | nil => intro r hr _; exact ⟨r, rfl, hr, fun t h => Or.inl h⟩
  | cons x xs ih =>
    intro r hr hw
    obtain ⟨r1, e1, c1, p1⟩ := hf r x hr (hw x (by simp))
    obtain ⟨r2, e2, c2, p2⟩ := ih r1 c1 (fun b hb => hw b (by simp [hb]))
    refine ⟨r2, by rw [List.foldlM_cons, e1, ok_bind, e2], c2, fun t ht => ?_⟩
    rw [InSet_cons]
    rcases p2 t ht with h | h
    · rcases p1 t h with h | h
      · exact Or.inl h
      · exact Or.inr (Or.inl h)
    · exact Or.inr (Or.inr h)

theorem fromIter_sound {l : List Iv} (hwf : ∀ b ∈ l, WF b) :
    ∃ r, fromIter l = .ok r ∧ Canon r ∧ ∀ t, InSet t r → InSet t l := by
  cases l with
  | nil => exact ⟨[], rfl, Canon_nil, fun t h => h⟩
  | cons x xs =>
    have hx := hwf x (by simp)
    have e : ofConvex (.iv x) = [x] := iter_wf hx
    have hc : Canon [x] := Canon_cons.2 ⟨hx, by simp, Canon_nil⟩
    obtain ⟨r, h1, h2, h3⟩ := foldlM_sound
      (fun r i => if i.lower > justAfter (upperBound r) then (.ok (r ++ [i]) : Res TSet)
        else fromIterFuel (xs.length + 1 + 1) (UnionIter.new r (Convex.iv i).iter).drain)
      (fun r i hr hi => by
        split
        · rename_i hc
          exact ⟨_, rfl, canon_push hr hi hc, fun t => by rw [InSet_append, InSet_singleton]; exact id⟩
        · rw [iter_wf hi]
          obtain ⟨h1, h2⟩ := UnionIter.good_new hr (Canon_cons.2 ⟨hi, by simp, Canon_nil⟩ : Canon [i])
          refine ⟨_, fromIterFuel_id h1.gap (fun x hx => by have := (h1.wf x hx).lo_lt; omega) _, h1,
            fun t ht => ?_⟩
          have := h2 t ht
          rw [InSet_singleton] at this
          exact this) xs [x] hc
      (fun b hb => hwf b (by simp [hb]))
    refine ⟨r, ?_, h2, fun t ht => by have := h3 t ht; rw [InSet_singleton] at this; rw [InSet_cons]; exact this⟩
    simp only [fromIter, List.length_cons, fromIterFuel, e]
    exact h1

end TSet

/-! ## Scaling -/

theorem tvMul_round {ty : Iv.ScaleTy} {n : Int} (h : ScaleOk ty n) (t : Int) :
    tvMul ty t n = round (t * n) := by
  obtain ⟨h1, h2, h3⟩ := h
  cases ty with
  | small => exact C13_mul_small_partial t n
  | big => exact (C13_mul_big_partial t n).1.2 (Or.inl ⟨h1, h2⟩)
  | ubig => exact ((C13_mul_big_partial t n).2 (h3 rfl)).2 (Or.inl h2)

/-- the image of an interval by a multiplication -/
def mulIv (n : Int) (i : Iv) : Iv :=
  if n < 0 then ⟨round (i.upper * n), round (i.lower * n)⟩
  else ⟨round (i.lower * n), round (i.upper * n)⟩

/-- the product of a bound by a positive integer -/
theorem mul_bound_pos {x n : Int} (hn : 0 < n) (hx : Legal x) (hf : Date x → Date (x * n)) :
    round (x * n) = if x = INF then INF else if x = -INF then -INF else x * n := by
  by_cases c1 : x = INF
  · rw [if_pos c1, c1]
    have : INF * n ≥ INF := by ticks
    rw [round, if_pos this]
  · rw [if_neg c1]
    by_cases c2 : x = -INF
    · rw [if_pos c2, c2]
      have : -INF * n ≤ -INF := by ticks
      rw [round, if_neg (by ticks), if_pos this]
    · rw [if_neg c2, round_of_date (hf (by ticks))]

theorem round_neg (x : Int) : round (-x) = -round x := by
  simp only [round]
  repeat' split
  all_goals ticks

theorem mulIv_neg {n : Int} (hn : n < 0) (i : Iv) : mulIv n i = mulIv (-n) i.neg := by
  have a : ∀ x : Int, -x * -n = x * n := by intro x; rw [Int.neg_mul_neg]
  simp only [mulIv, if_pos hn, if_neg (show ¬ -n < 0 by omega), Iv.neg, a]

theorem mulIv_spec_pos {n : Int} (hn : 0 < n) {i : Iv} (hi : WF i) (hf : FitsMul i n) :
    WF (mulIv n i) ∧
    (mulIv n i).lower = (if i.lower = -INF then -INF else i.lower * n) ∧
    (mulIv n i).upper = (if i.upper = INF then INF else i.upper * n) ∧
    ∀ t, InExt t i → InExt (t * n) (mulIv n i) := by
  obtain ⟨h1, h2, h3, h4, h5⟩ := hi
  obtain ⟨f1, f2⟩ := hf
  have e1 := mul_bound_pos hn (x := i.lower) (by ticks) f1
  have e2 := mul_bound_pos hn (x := i.upper) (by ticks) f2
  rw [if_neg (by omega)] at e1
  have e2' : round (i.upper * n) = if i.upper = INF then INF else i.upper * n := by
    rw [e2]; split
    · rfl
    · rw [if_neg (by omega)]
  have hm : i.lower * n ≤ i.upper * n := Int.mul_le_mul_of_nonneg_right h1 (by omega)
  have key : mulIv n i = ⟨if i.lower = -INF then -INF else i.lower * n,
      if i.upper = INF then INF else i.upper * n⟩ := by
    simp only [mulIv, if_neg (show ¬ n < 0 by omega), e1, e2']
  rw [key]
  refine ⟨?_, rfl, rfl, ?_⟩
  · by_cases c1 : i.lower = -INF <;> by_cases c2 : i.upper = INF
    · rw [if_pos c1, if_pos c2]; decide
    · have := f2 (by ticks)
      rw [if_pos c1, if_neg c2]; constructor <;> ticks
    · have := f1 (by ticks)
      rw [if_neg c1, if_pos c2]; constructor <;> ticks
    · have := f1 (by ticks)
      have := f2 (by ticks)
      rw [if_neg c1, if_neg c2]; constructor <;> ticks
  · rintro t ⟨a, b⟩
    constructor
    · simp only
      rcases a with a | a
      · left; rw [if_pos a]
      · by_cases c : i.lower = -INF
        · left; rw [if_pos c]
        · right; rw [if_neg c]; exact Int.mul_le_mul_of_nonneg_right a (by omega)
    · simp only
      rcases b with b | b
      · left; rw [if_pos b]
      · by_cases c : i.upper = INF
        · left; rw [if_pos c]
        · right; rw [if_neg c]; exact Int.mul_le_mul_of_nonneg_right b (by omega)

theorem fitsMul_neg {i : Iv} {n : Int} (h : FitsMul i n) : FitsMul i.neg (-n) := by
  have a : ∀ x : Int, -x * -n = x * n := by intro x; rw [Int.neg_mul_neg]
  obtain ⟨f1, f2⟩ := h
  constructor <;> simp only [Iv.neg, a]
  · intro h; exact f2 (by ticks)
  · intro h; exact f1 (by ticks)

theorem mulIv_spec {n : Int} (hn : n ≠ 0) {i : Iv} (hi : WF i) (hf : FitsMul i n) :
    WF (mulIv n i) ∧ ∀ t, InExt t i → InExt (t * n) (mulIv n i) := by
  by_cases c : n < 0
  · rw [mulIv_neg c]
    obtain ⟨h1, -, -, h2⟩ := mulIv_spec_pos (n := -n) (by omega) hi.neg (fitsMul_neg hf)
    refine ⟨h1, fun t ht => ?_⟩
    have := h2 (-t) (by rw [inExt_neg]; simpa using ht)
    rwa [Int.neg_mul_neg] at this
  · obtain ⟨h1, -, -, h2⟩ := mulIv_spec_pos (n := n) (by omega) hi hf
    exact ⟨h1, h2⟩

theorem mul_eq {ty : Iv.ScaleTy} {n : Int} (h : ScaleOk ty n) {i : Iv} (hw : WF (mulIv n i)) :
    i.mul ty n = .ok (mulIv n i) := by
  obtain ⟨h1, h2, h3, h4, h5⟩ := hw
  have key : i.mul ty n = if isFutureInfinite (mulIv n i).lower then .error .assertFail
      else if isPastInfinite (mulIv n i).upper then .error .assertFail else .ok (mulIv n i) := by
    simp only [Iv.mul, mulIv, tvMul_round h]
    split <;> rfl
  rw [key, if_neg (by rw [isFutureInfinite_iff]; omega), if_neg (by rw [isPastInfinite_iff]; omega)]

theorem canon_mul_pos {n : Int} (hn : 0 < n) {s : List Iv} (hs : Canon s) (hf : ∀ i ∈ s, FitsMul i n) :
    Canon (s.map (mulIv n)) := by
  constructor
  · intro i hi
    obtain ⟨j, hj, rfl⟩ := List.mem_map.1 hi
    exact (mulIv_spec_pos hn (hs.wf j hj) (hf j hj)).1
  · rw [List.pairwise_map]
    have : s.Pairwise (fun a b => (a.upper + 1 < b.lower ∧ WF a ∧ WF b) ∧ FitsMul a n ∧ FitsMul b n) := by
      refine List.Pairwise.imp_of_mem ?_ (canon_pair hs)
      intro a b ha hb h
      exact ⟨h, hf a ha, hf b hb⟩
    refine this.imp ?_
    rintro a b ⟨⟨h1, ha, hb⟩, fa, fb⟩
    obtain ⟨-, -, e1, -⟩ := mulIv_spec_pos hn ha fa
    obtain ⟨-, e2, -, -⟩ := mulIv_spec_pos hn hb fb
    have := hb.lo; have := hb.lo_lt; have := ha.lt_hi; have := ha.hi
    rw [e1, e2, if_neg (by omega), if_neg (by omega)]
    have : (a.upper + 2) * n ≤ b.lower * n := Int.mul_le_mul_of_nonneg_right (by omega) (by omega)
    rw [Int.add_mul] at this
    omega

theorem mulIv_map_neg {n : Int} (hn : n < 0) (s : List Iv) :
    (s.map (mulIv n)).reverse = (TSet.neg s).map (mulIv (-n)) := by
  rw [← List.map_reverse, TSet.neg, List.map_map]
  apply List.map_congr_left
  intro i _
  exact mulIv_neg hn i

theorem canon_mul {n : Int} (hn : n ≠ 0) {s : List Iv} (hs : Canon s) (hf : ∀ i ∈ s, FitsMul i n) :
    Canon (if n < 0 then (s.map (mulIv n)).reverse else s.map (mulIv n)) := by
  split
  · rename_i c
    rw [mulIv_map_neg c]
    refine canon_mul_pos (by omega) (canon_neg hs) (fun i hi => ?_)
    obtain ⟨j, hj, rfl⟩ := mem_neg.1 hi
    exact fitsMul_neg (hf j hj)
  · exact canon_mul_pos (by omega) hs hf

/-! ## Division -/

theorem tvDiv_eq {ty : Iv.ScaleTy} {t n : Int} (ht : Date t) (hn : n ≠ 0) (hty : ty = .ubig → 0 ≤ n) :
    tvDiv ty t n = .ok (t.tdiv n) := by
  obtain ⟨h1, -, h2, -, h3⟩ := C14_div_finite_partial t n ht
  cases ty with
  | small => obtain ⟨q, e, e', -⟩ := h1 hn; rw [e'] at e; exact e
  | big => exact h2 hn
  | ubig =>
    have h0 := hty rfl
    clear h1 h2
    exact h3 (by omega)

/-- the image of an interval by a division -/
def divIv (n : Int) (i : Iv) : Iv :=
  if n < 0 then ⟨i.upper.tdiv n, i.lower.tdiv n⟩ else ⟨i.lower.tdiv n, i.upper.tdiv n⟩

theorem div_eq {ty : Iv.ScaleTy} {n : Int} {i : Iv} (hb : Bounded i) (hn : n ≠ 0)
    (hty : ty = .ubig → 0 ≤ n) : i.div ty n = .ok (divIv n i) := by
  simp only [Iv.div, divIv]
  split
  · rw [tvDiv_eq hb.1 hn hty, tvDiv_eq hb.2 hn hty]; rfl
  · rw [tvDiv_eq hb.1 hn hty, tvDiv_eq hb.2 hn hty]; rfl

theorem divIv_neg {n : Int} (hn : n < 0) (i : Iv) : divIv n i = divIv (-n) i.neg := by
  simp only [divIv, if_pos hn, if_neg (show ¬ -n < 0 by omega), Iv.neg, Int.neg_tdiv, Int.tdiv_neg,
    Int.neg_neg]

theorem tdiv_mono {a b n : Int} (hn : 0 < n) (h : a ≤ b) : a.tdiv n ≤ b.tdiv n := by
  rcases Int.le_total 0 a with ha | ha
  · rw [tdiv_of_nonneg ha, tdiv_of_nonneg (by omega)]
    exact Int.ediv_le_ediv hn h
  · rcases Int.le_total 0 b with hb | hb
    · have h1 := Int.tdiv_nonneg (by omega : 0 ≤ -a) (by omega : 0 ≤ n)
      have h2 := Int.tdiv_nonneg hb (by omega : 0 ≤ n)
      rw [Int.neg_tdiv] at h1
      omega
    · have e1 : a.tdiv n = -((-a) / n) := by rw [← tdiv_of_nonneg (by omega), Int.neg_tdiv]; omega
      have e2 : b.tdiv n = -((-b) / n) := by rw [← tdiv_of_nonneg (by omega), Int.neg_tdiv]; omega
      have := Int.ediv_le_ediv hn (show -b ≤ -a by omega)
      omega

/-- the quotients of the integers of a range fill the range of the quotients -/
theorem tdiv_fill {a b q n : Int} (hn : 0 < n) (h : a ≤ b) :
    (a.tdiv n ≤ q ∧ q ≤ b.tdiv n) ↔ ∃ t, a ≤ t ∧ t ≤ b ∧ q = t.tdiv n := by
  constructor
  · rintro ⟨h1, h2⟩
    by_cases c1 : q = a.tdiv n
    · exact ⟨a, Int.le_refl _, h, c1⟩
    · by_cases c2 : q = b.tdiv n
      · exact ⟨b, h, Int.le_refl _, c2⟩
      · have e : (q * n).tdiv n = q := Int.mul_tdiv_cancel _ (by omega)
        refine ⟨q * n, ?_, ?_, e.symm⟩
        · rcases Int.le_total a (q * n) with h' | h'
          · exact h'
          · have := tdiv_mono hn h'; omega
        · rcases Int.le_total (q * n) b with h' | h'
          · exact h'
          · have := tdiv_mono hn h'; omega
  · rintro ⟨t, h1, h2, rfl⟩
    exact ⟨tdiv_mono hn h1, tdiv_mono hn h2⟩

/-- merging touching neighbours of an increasing list -/
theorem checkJoined_go (p : Iv) (rest : List Iv) : WF p → (∀ y ∈ rest, WF y ∧ Date y.lower) →
    (∀ y ∈ rest, p.upper ≤ y.lower) → rest.Pairwise (fun a b => a.upper ≤ b.lower) →
    Canon (TSet.checkJoined.go p rest) ∧ (∀ y ∈ TSet.checkJoined.go p rest, p.lower ≤ y.lower) ∧
    ∀ t, InSet t (TSet.checkJoined.go p rest) ↔ InIv t p ∨ InSet t rest := by
  induction rest generalizing p with
  | nil =>
    intro hp _ _ _
    simp only [TSet.checkJoined.go]
    exact ⟨Canon_cons.2 ⟨hp, by simp, Canon_nil⟩, by simp, fun t => by simp [InSet_singleton, InSet_nil]⟩
  | cons c cs ih =>
    intro hp hr hle hpw
    rw [List.pairwise_cons] at hpw
    obtain ⟨hc, hcd⟩ := hr c (by simp)
    have hpc := hle c (by simp)
    have hcl := hc.le
    have hpl := hp.le
    simp only [TSet.checkJoined.go, justBefore_date hcd]
    split
    · rename_i h
      have hw : WF ⟨p.lower, c.upper⟩ := by
        obtain ⟨a1, a2, a3, a4, a5⟩ := hp
        obtain ⟨b1, b2, b3, b4, b5⟩ := hc
        constructor <;> simp only <;> omega
      obtain ⟨i1, i2, i3⟩ := ih ⟨p.lower, c.upper⟩ hw (fun y hy => hr y (by simp [hy])) hpw.1 hpw.2
      refine ⟨i1, i2, fun t => ?_⟩
      rw [i3, InSet_cons, ← or_assoc]
      have : InIv t ⟨p.lower, c.upper⟩ ↔ InIv t p ∨ InIv t c := by simp only [InIv]; omega
      rw [this]
    · rename_i h
      obtain ⟨i1, i2, i3⟩ := ih c hc (fun y hy => hr y (by simp [hy])) hpw.1 hpw.2
      refine ⟨Canon_cons.2 ⟨hp, fun y hy => ?_, i1⟩, fun y hy => ?_, fun t => ?_⟩
      · have := i2 y hy; omega
      · rcases List.mem_cons.1 hy with e | e
        · subst e; exact Int.le_refl _
        · have := i2 y e; omega
      · rw [InSet_cons, i3, InSet_cons]

theorem div_pos_spec {n : Int} (hn : 0 < n) {s : List Iv} (hs : Canon s) (hb : ∀ i ∈ s, Bounded i) :
    Canon (TSet.checkJoined (s.map (divIv n))) ∧
    ∀ q, InSet q (TSet.checkJoined (s.map (divIv n))) ↔ ∃ t, InSet t s ∧ q = t.tdiv n := by
  have hdate : ∀ x : Int, Date x → Date (x.tdiv n) := by
    intro x hx
    have := Int.natAbs_tdiv_le_natAbs x n
    ticks
  have hd : ∀ i : Iv, divIv n i = ⟨i.lower.tdiv n, i.upper.tdiv n⟩ := by
    intro i; simp only [divIv, if_neg (show ¬ n < 0 by omega)]
  have hwf : ∀ y ∈ s.map (divIv n), WF y ∧ Date y.lower := by
    intro y hy
    obtain ⟨i, hi, rfl⟩ := List.mem_map.1 hy
    rw [hd]
    have h1 := hdate _ (hb i hi).1
    have h2 := hdate _ (hb i hi).2
    have h3 := tdiv_mono hn (hs.wf i hi).le
    refine ⟨?_, h1⟩
    obtain ⟨a, b⟩ := h1
    obtain ⟨c, d⟩ := h2
    constructor <;> simp only <;> omega
  have hpw : (s.map (divIv n)).Pairwise (fun a b => a.upper ≤ b.lower) := by
    rw [List.pairwise_map]
    refine hs.gap.imp ?_
    intro a b h
    rw [hd, hd]
    exact tdiv_mono hn (by omega)
  have hpts : ∀ q, InSet q (s.map (divIv n)) ↔ ∃ t, InSet t s ∧ q = t.tdiv n := by
    intro q
    constructor
    · rintro ⟨y, hy, hin⟩
      obtain ⟨i, hi, rfl⟩ := List.mem_map.1 hy
      rw [hd] at hin
      obtain ⟨t, h1, h2, h3⟩ := (tdiv_fill hn (hs.wf i hi).le).1 hin
      exact ⟨t, ⟨i, hi, h1, h2⟩, h3⟩
    · rintro ⟨t, ⟨i, hi, h1, h2⟩, rfl⟩
      refine ⟨divIv n i, List.mem_map.2 ⟨i, hi, rfl⟩, ?_⟩
      rw [hd]
      exact (tdiv_fill hn (hs.wf i hi).le).2 ⟨t, h1, h2, rfl⟩
  generalize s.map (divIv n) = l at *
  cases l with
  | nil => exact ⟨Canon_nil, hpts⟩
  | cons x xs =>
    rw [List.pairwise_cons] at hpw
    obtain ⟨h1, -, h3⟩ := checkJoined_go x xs (hwf x (by simp)).1 (fun y hy => hwf y (by simp [hy])) hpw.1 hpw.2
    refine ⟨h1, fun q => ?_⟩
    rw [← hpts, TSet.checkJoined, h3, InSet_cons]

theorem divIv_map_neg {n : Int} (hn : n < 0) (s : List Iv) :
    (s.map (divIv n)).reverse = (TSet.neg s).map (divIv (-n)) := by
  rw [← List.map_reverse, TSet.neg, List.map_map]
  apply List.map_congr_left
  intro i _
  exact divIv_neg hn i

end Chrono
