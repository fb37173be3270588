import Verif.Props.SetArith
import Verif.Lemmas.Sched
import Verif.Spec.Shift

/-!
# Calculations on durations, spans and sets compose (C141)

`Near W` (Spec/Shift.lean): infinite, or at most `W` in absolute value. The statements ask for dates small enough for
the results to be representable; the theorems of C01, C109 and C110 tell what happens beyond.
-/

namespace Chrono
open Spec

/-- C141. The sum of three durations, infinite or not, does not depend on the way they are grouped, panics included. -/
theorem C141_durations {W : Int} (hW : 3 * W < INF) {a b c : Int} (ha : Near W a) (hb : Near W b) (hc : Near W c) :
    (do tvAdd (← tvAdd a b) c) = (do tvAdd a (← tvAdd b c)) := by
  have fin : ∀ x y, Date x → Date y → Date (x + y) → tvAdd x y = .ok (x + y) := by
    intro x y h1 h2 h3
    rw [tvAdd_fin h1 h2, round, if_neg (by ticks), if_neg (by ticks)]
  have infl : ∀ x, Date x → tvAdd INF x = .ok INF ∧ tvAdd (-INF) x = .ok (-INF) ∧ tvAdd x INF = .ok INF ∧ tvAdd x (-INF) = .ok (-INF) := by
    intro x h
    obtain ⟨h1, h2⟩ := h
    refine ⟨?_, ?_, ?_, ?_⟩
    all_goals rw [tvAdd_eq (by ticks) (by ticks)]
    all_goals repeat' split
    all_goals first | rfl | (exfalso; ticks)
  have p1 : tvAdd INF (-INF) = .error .assertFail := by decide
  have p2 : tvAdd (-INF) INF = .error .assertFail := by decide
  have p3 : tvAdd INF INF = .ok INF := by decide
  have p4 : tvAdd (-INF) (-INF) = .ok (-INF) := by decide
  have err : ∀ (f : Int → Res Int), ((.error .assertFail : Res Int) >>= f) = .error .assertFail := fun _ => rfl
  rcases ha with rfl | rfl | ha <;> rcases hb with rfl | rfl | hb <;> rcases hc with rfl | rfl | hc
  all_goals first
    | (have da : Date a := by ticks
       have ia := infl a da)
    | skip
  all_goals first
    | (have db : Date b := by ticks
       have ib := infl b db)
    | skip
  all_goals first
    | (have dc : Date c := by ticks
       have ic := infl c dc)
    | skip
  all_goals first
    | (have eab := fin a b da db (by ticks)
       have iab := infl (a + b) (by ticks))
    | skip
  all_goals first
    | (have ebc := fin b c db dc (by ticks)
       have ibc := infl (b + c) (by ticks))
    | skip
  all_goals first
    | (have e1 := fin (a + b) c (by ticks) dc (by ticks)
       have e2 := fin a (b + c) da (by ticks) (by ticks))
    | skip
  all_goals simp only [*, ok_bind, err, Int.add_assoc]

/-- two intervals of a canonical set are the same or apart -/
theorem canon_two {s : TSet} (hs : Canon s) {i j : Iv} (hi : i ∈ s) (hj : j ∈ s) :
    i = j ∨ i.upper + 1 < j.lower ∨ j.upper + 1 < i.lower := by
  induction s with
  | nil => cases hi
  | cons x xs ih =>
    obtain ⟨-, h2, h3⟩ := Canon_cons.1 hs
    rcases List.mem_cons.1 hi with rfl | ki <;> rcases List.mem_cons.1 hj with rfl | kj
    · exact Or.inl rfl
    · exact Or.inr (Or.inl (h2 j kj))
    · exact Or.inr (Or.inr (h2 i ki))
    · exact ih h3 ki kj

/-- a finite bound of a canonical set which holds exactly the sums is the sum of two bounds -/
theorem sums_near {V W : Int} {s r : TSet} {A : Iv} (hs : NearSet V s) (hA : Near W A.lower ∧ Near W A.upper) (cs : Canon s) (wA : WF A)
    (cr : Canon r) (h : ∀ t, InExtSet t r ↔ ∃ a b, InExtSet a s ∧ InExt b A ∧ t = a + b) : NearSet (V + W) r := by
  intro i hi
  have wi := cr.wf i hi
  have out : ∀ t, ¬ InExt t i → (i.lower - 1 ≤ t ∧ t ≤ i.upper + 1) → ¬ InExtSet t r := by
    rintro t ht ⟨h1, h2⟩ ⟨j, hj, h3⟩
    obtain ⟨a1, a2, a3, a4, a5⟩ := wi
    obtain ⟨b1, b2, b3, b4, b5⟩ := cr.wf j hj
    rcases canon_two cr hi hj with e | e | e
    · exact ht (e ▸ h3)
    · obtain ⟨h3 | h3, -⟩ := h3 <;> omega
    · obtain ⟨-, h3 | h3⟩ := h3 <;> omega
  have near : ∀ {V x y : Int} {j : Iv}, Near V x → x = y → y ≠ INF → y ≠ -INF → -V ≤ y ∧ y ≤ V := by
    intro V x y j h e n1 n2
    subst e
    rcases h with h | h | h
    · exact absurd h n1
    · exact absurd h n2
    · exact h
  have key : ∀ (a : Int) (j : Iv), InExt a j → ¬ InExt (a - 1) j → j.lower = a ∧ j.lower ≠ -INF := by
    rintro a j ⟨h1, h2⟩ h3
    simp only [InExt] at h3
    omega
  have key' : ∀ (a : Int) (j : Iv), InExt a j → ¬ InExt (a + 1) j → j.upper = a ∧ j.upper ≠ INF := by
    rintro a j ⟨h1, h2⟩ h3
    simp only [InExt] at h3
    omega
  constructor
  · by_cases c : i.lower = -INF
    · exact Or.inr (Or.inl c)
    have x : InExtSet i.lower r := ⟨i, hi, Or.inr (Int.le_refl _), Or.inr wi.le⟩
    have y : ¬ InExtSet (i.lower - 1) r := out _ (by rintro ⟨h1 | h1, -⟩ <;> omega) ⟨Int.le_refl _, by have := wi.le; omega⟩
    obtain ⟨a, b, ⟨j, hj, ha⟩, hb, e⟩ := (h _).1 x
    obtain ⟨ea, na⟩ := key a j ha (fun g => y ((h _).2 ⟨a - 1, b, ⟨j, hj, g⟩, hb, by omega⟩))
    obtain ⟨eb, nb⟩ := key b A hb (fun g => y ((h _).2 ⟨a, b - 1, ⟨j, hj, ha⟩, g, by omega⟩))
    have h1 := near (j := j) (hs j hj).1 rfl (by have := (cs.wf j hj).lo_lt; omega) na
    have h2 := near (j := j) hA.1 rfl (by have := wA.lo_lt; omega) nb
    exact Or.inr (Or.inr (by omega))
  · by_cases c : i.upper = INF
    · exact Or.inl c
    have x : InExtSet i.upper r := ⟨i, hi, Or.inr wi.le, Or.inr (Int.le_refl _)⟩
    have y : ¬ InExtSet (i.upper + 1) r := out _ (by rintro ⟨-, h1 | h1⟩ <;> omega) ⟨by have := wi.le; omega, Int.le_refl _⟩
    obtain ⟨a, b, ⟨j, hj, ha⟩, hb, e⟩ := (h _).1 x
    obtain ⟨ea, na⟩ := key' a j ha (fun g => y ((h _).2 ⟨a + 1, b, ⟨j, hj, g⟩, hb, by omega⟩))
    obtain ⟨eb, nb⟩ := key' b A hb (fun g => y ((h _).2 ⟨a, b + 1, ⟨j, hj, ha⟩, g, by omega⟩))
    have h1 := near (j := j) (hs j hj).2 rfl na (by have := (cs.wf j hj).lt_hi; omega)
    have h2 := near (j := j) hA.2 rfl nb (by have := wA.lt_hi; omega)
    exact Or.inr (Or.inr (by omega))

/-- sums of dates which are not far from 0 are representable -/
theorem near_fits {V W : Int} {i A : Iv} (hi : Near V i.lower ∧ Near V i.upper) (hA : Near W A.lower ∧ Near W A.upper) (h : V + W < INF) :
    FitsSum i A := by
  obtain ⟨a1, a2⟩ := hi
  obtain ⟨b1, b2⟩ := hA
  constructor
  · intro d1 d2
    simp only [Near, Date] at *
    omega
  · intro d1 d2
    simp only [Near, Date] at *
    omega

/-- the bounds of a sum of spans -/
theorem sum_near {V W : Int} {i A : Iv} (hi : Near V i.lower ∧ Near V i.upper) (hA : Near W A.lower ∧ Near W A.upper) (wi : WF i) (wA : WF A) :
    Near (V + W) (sumIv i A).lower ∧ Near (V + W) (sumIv i A).upper := by
  obtain ⟨a1, a2⟩ := hi
  obtain ⟨b1, b2⟩ := hA
  obtain ⟨c1, c2, c3, c4, c5⟩ := wi
  obtain ⟨d1, d2, d3, d4, d5⟩ := wA
  constructor
  · simp only [sumIv]
    split
    · exact Or.inr (Or.inl rfl)
    · simp only [Near] at *; omega
  · simp only [sumIv]
    split
    · exact Or.inl rfl
    · simp only [Near] at *; omega

/-- C141. Uncertain delays add up: translating a set by a span and then by another one, in either order, is translating it by the sum of the
two spans. -/
theorem C141_spans {W : Int} (h0 : 0 ≤ W) (hW : 3 * W < INF) (dbg : Bool) {s : TSet} {A B : Iv} (cs : Canon s) (wA : WF A) (wB : WF B)
    (hs : NearSet W s) (hA : Near W A.lower ∧ Near W A.upper) (hB : Near W B.lower ∧ Near W B.upper) :
    ∃ AB r, A.addSpan dbg B = .ok AB ∧ TSet.addSpan dbg s AB = .ok r ∧ (do TSet.addSpan dbg (← TSet.addSpan dbg s A) B) = .ok r ∧
      (do TSet.addSpan dbg (← TSet.addSpan dbg s B) A) = .ok r := by
  obtain ⟨e1, w1, p1⟩ := addSpan_sum dbg wA wB (near_fits hA hB (by omega))
  obtain ⟨r, e2, c2, p2⟩ := C41_add_span dbg s _ cs w1 (fun i hi => near_fits (hs i hi) (sum_near hA hB wA wB) (by omega))
  have two : ∀ {A B : Iv}, WF A → WF B → Near W A.lower ∧ Near W A.upper → Near W B.lower ∧ Near W B.upper →
      ∃ q, (do TSet.addSpan dbg (← TSet.addSpan dbg s A) B) = .ok q ∧ Canon q ∧
        ∀ t, InExtSet t q ↔ ∃ a b c, InExtSet a s ∧ InExt b A ∧ InExt c B ∧ t = a + b + c := by
    intro A B wA wB hA hB
    obtain ⟨sA, e3, c3, p3⟩ := C41_add_span dbg s A cs wA (fun i hi => near_fits (hs i hi) hA (by omega))
    have n3 := sums_near hs hA cs wA c3 p3
    obtain ⟨q, e4, c4, p4⟩ := C41_add_span dbg sA B c3 wB (fun i hi => near_fits (n3 i hi) hB (by omega))
    refine ⟨q, by rw [e3]; exact e4, c4, fun t => ?_⟩
    rw [p4]
    constructor
    · rintro ⟨x, c, hx, hc, e⟩
      obtain ⟨a, b, ha, hb, rfl⟩ := (p3 x).1 hx
      exact ⟨a, b, c, ha, hb, hc, e⟩
    · rintro ⟨a, b, c, ha, hb, hc, e⟩
      exact ⟨a + b, c, (p3 _).2 ⟨a, b, ha, hb, rfl⟩, hc, e⟩
  obtain ⟨q, e3, c3, p3⟩ := two wA wB hA hB
  obtain ⟨q', e4, c4, p4⟩ := two wB wA hB hA
  have h1 : q = r := canon_extSet c3 c2 (fun t => by
    rw [p3, p2]
    constructor
    · rintro ⟨a, b, c, ha, hb, hc, e⟩
      exact ⟨a, b + c, ha, (p1 _).2 ⟨b, c, hb, hc, rfl⟩, by omega⟩
    · rintro ⟨a, x, ha, hx, e⟩
      obtain ⟨b, c, hb, hc, rfl⟩ := (p1 _).1 hx
      exact ⟨a, b, c, ha, hb, hc, by omega⟩)
  have h2 : q' = q := canon_extSet c4 c3 (fun t => by
    rw [p4, p3]
    constructor
    · rintro ⟨a, b, c, ha, hb, hc, e⟩
      exact ⟨a, c, b, ha, hc, hb, by omega⟩
    · rintro ⟨a, b, c, ha, hb, hc, e⟩
      exact ⟨a, c, b, ha, hc, hb, by omega⟩)
  exact ⟨_, r, e1, e2, by rw [e3, h1], by rw [e4, h2, h1]⟩

/-- C141. Subtracting the span which has been added does not come back to the set, but to the set known up to the width of the span:
`(s + A) - A` is `s + (A - A)`, and it holds all the dates of `s`. -/
theorem C141_undo {W : Int} (h0 : 0 ≤ W) (hW : 3 * W < INF) (dbg : Bool) {s : TSet} {A : Iv} (cs : Canon s) (wA : WF A)
    (hs : NearSet W s) (hA : Near W A.lower ∧ Near W A.upper) :
    ∃ D r, A.subSpan dbg A = .ok D ∧ TSet.addSpan dbg s D = .ok r ∧ (do TSet.subSpan dbg (← TSet.addSpan dbg s A) A) = .ok r ∧
      ∀ t, InExtSet t s → InExtSet t r := by
  have hn : Near W A.neg.lower ∧ Near W A.neg.upper := by
    obtain ⟨h1, h2⟩ := hA
    simp only [Near, Iv.neg] at *
    omega
  obtain ⟨D, r, e1, e2, e3, -⟩ := C141_spans h0 hW dbg cs wA wA.neg hs hA hn
  refine ⟨D, r, e1, e2, e3, fun t ht => ?_⟩
  obtain ⟨e4, w4, p4⟩ := addSpan_sum dbg wA wA.neg (near_fits hA hn (by omega))
  rw [e4] at e1
  cases e1
  obtain ⟨q, e5, -, p5⟩ := C41_add_span dbg s _ cs w4 (fun i hi => near_fits (hs i hi) (sum_near hA hn wA wA.neg) (by omega))
  rw [e5] at e2
  cases e2
  obtain ⟨x, hx⟩ : ∃ x, InExt x A := by
    obtain ⟨a1, a2, a3, a4, a5⟩ := wA
    by_cases c : A.lower = -INF
    · exact ⟨A.upper, Or.inl c, Or.inr (Int.le_refl _)⟩
    · exact ⟨A.lower, Or.inr (Int.le_refl _), Or.inr a1⟩
  exact (p5 t).2 ⟨t, 0, ht, (p4 0).2 ⟨x, -x, hx, by rw [inExt_neg, Int.neg_neg]; exact hx, by omega⟩, by omega⟩

/-- C141. More uncertainty gives more dates: if `s` is included in `s'` and the span `A` in `A'`, then `s + A` is in `s' + A'` and `s - A` in
`s' - A'`. -/
theorem C141_monotone (dbg : Bool) {s s' : TSet} {A A' : Iv} (cs : Canon s) (cs' : Canon s') (wA : WF A) (wA' : WF A')
    (hs : ∀ t, InExtSet t s → InExtSet t s') (hA : ∀ t, InExt t A → InExt t A') :
    ((∀ i ∈ s, FitsSum i A) → (∀ i ∈ s', FitsSum i A') → ∃ r r', TSet.addSpan dbg s A = .ok r ∧ TSet.addSpan dbg s' A' = .ok r' ∧
      ∀ t, InExtSet t r → InExtSet t r') ∧
    ((∀ i ∈ s, FitsDiff i A) → (∀ i ∈ s', FitsDiff i A') → ∃ r r', TSet.subSpan dbg s A = .ok r ∧ TSet.subSpan dbg s' A' = .ok r' ∧
      ∀ t, InExtSet t r → InExtSet t r') := by
  constructor
  · intro f f'
    obtain ⟨r, e, -, p⟩ := C41_add_span dbg s A cs wA f
    obtain ⟨r', e', -, p'⟩ := C41_add_span dbg s' A' cs' wA' f'
    exact ⟨r, r', e, e', fun t ht => by
      obtain ⟨a, b, ha, hb, h⟩ := (p t).1 ht
      exact (p' t).2 ⟨a, b, hs a ha, hA b hb, h⟩⟩
  · intro f f'
    obtain ⟨r, e, -, p⟩ := C41_sub_span dbg s A cs wA f
    obtain ⟨r', e', -, p'⟩ := C41_sub_span dbg s' A' cs' wA' f'
    exact ⟨r, r', e, e', fun t ht => by
      obtain ⟨a, b, ha, hb, h⟩ := (p t).1 ht
      exact (p' t).2 ⟨a, b, hs a ha, hA b hb, h⟩⟩

/-! ## Scaling -/

theorem round_mul (x m : Int) : round (round x * m) = round (x * m) := by
  by_cases h1 : x ≥ INF
  · rw [show round x = INF by rw [round, if_pos h1]]
    rcases Int.lt_trichotomy m 0 with h | rfl | h
    · have a := Int.mul_le_mul_of_nonneg_left (show m ≤ -1 by omega) (show 0 ≤ INF by decide)
      have b := Int.mul_le_mul_of_nonneg_left (show m ≤ -1 by omega) (show 0 ≤ x by ticks)
      simp only [round]
      rw [if_neg (by ticks), if_pos (by ticks), if_neg (by ticks), if_pos (by ticks)]
    · rw [Int.mul_zero, Int.mul_zero]
    · have a := Int.mul_le_mul_of_nonneg_left (show 1 ≤ m by omega) (show 0 ≤ INF by decide)
      have b := Int.mul_le_mul_of_nonneg_left (show 1 ≤ m by omega) (show 0 ≤ x by ticks)
      simp only [round]
      rw [if_pos (by ticks), if_pos (by ticks)]
  by_cases h2 : x ≤ -INF
  · rw [show round x = -INF by rw [round, if_neg h1, if_pos h2]]
    rcases Int.lt_trichotomy m 0 with h | rfl | h
    · have a := Int.mul_le_mul_of_nonneg_left (show m ≤ -1 by omega) (show 0 ≤ INF by decide)
      have b := Int.mul_le_mul_of_nonneg_left (show m ≤ -1 by omega) (show 0 ≤ -x by ticks)
      simp only [Int.neg_mul] at b
      simp only [round, Int.neg_mul]
      rw [if_pos (by ticks), if_pos (by ticks)]
    · rw [Int.mul_zero, Int.mul_zero]
    · have a := Int.mul_le_mul_of_nonneg_left (show 1 ≤ m by omega) (show 0 ≤ INF by decide)
      have b := Int.mul_le_mul_of_nonneg_left (show 1 ≤ m by omega) (show 0 ≤ -x by ticks)
      simp only [Int.neg_mul] at b
      simp only [round, Int.neg_mul]
      rw [if_neg (by ticks), if_pos (by ticks), if_neg (by ticks), if_pos (by ticks)]
  rw [show round x = x by rw [round, if_neg h1, if_neg h2]]

/-- the factors, one after the other -/
theorem mulIv_mulIv {n m : Int} (hn : n ≠ 0) (hm : m ≠ 0) (i : Iv) : mulIv m (mulIv n i) = mulIv (n * m) i := by
  have e : ∀ x : Int, round (round (x * n) * m) = round (x * (n * m)) := fun x => by rw [round_mul, Int.mul_assoc]
  rcases Int.lt_or_gt_of_ne hn with a | a <;> rcases Int.lt_or_gt_of_ne hm with b | b
  · have : 0 < n * m := Int.mul_pos_of_neg_of_neg a b
    simp only [mulIv, if_pos a, if_pos b, if_neg (show ¬ n * m < 0 by omega), e]
  · have : n * m < 0 := Int.mul_neg_of_neg_of_pos a b
    simp only [mulIv, if_pos a, if_neg (show ¬ m < 0 by omega), if_pos this, e]
  · have : n * m < 0 := Int.mul_neg_of_pos_of_neg a b
    simp only [mulIv, if_pos b, if_neg (show ¬ n < 0 by omega), if_pos this, e]
  · have : 0 < n * m := Int.mul_pos a b
    simp only [mulIv, if_neg (show ¬ n < 0 by omega), if_neg (show ¬ m < 0 by omega), if_neg (show ¬ n * m < 0 by omega), e]

/-- the product of a set which does not overflow -/
theorem set_mul {ty : Iv.ScaleTy} {s : TSet} {n : Int} (hs : Canon s) (hn : n ≠ 0) (hty : ScaleOk ty n) (hf : ∀ i ∈ s, FitsMul i n) :
    TSet.mul ty s n = .ok (if n < 0 then (s.map (mulIv n)).reverse else s.map (mulIv n)) ∧
      Canon (if n < 0 then (s.map (mulIv n)).reverse else s.map (mulIv n)) := by
  obtain ⟨r, e, -, c, -, p1, p2⟩ := C43_mul_partial ty s n hs hn hty hf
  have : r = if n < 0 then (s.map (mulIv n)).reverse else s.map (mulIv n) := by
    split
    · next h =>
      rw [p2 h]
      congr 1
      exact List.map_congr_left (fun i _ => by simp only [mulIv, if_pos h])
    · next h =>
      rw [p1 (by omega)]
      exact List.map_congr_left (fun i _ => by simp only [mulIv, if_neg h])
  rw [← this]
  exact ⟨e, c⟩

theorem date_factor {x n m : Int} (hm : m ≠ 0) (h : Date (x * (n * m))) : Date (x * n) := by
  rw [← Int.mul_assoc] at h
  obtain ⟨h1, h2⟩ := h
  have a : (x * n).natAbs ≤ (x * n * m).natAbs := by
    rw [Int.natAbs_mul (x * n) m]
    exact Nat.le_mul_of_pos_right _ (by omega)
  exact ⟨by omega, by omega⟩

theorem fits_factor {i : Iv} {n m : Int} (hi : WF i) (hn : n ≠ 0) (hm : m ≠ 0) (h : FitsMul i (n * m)) : FitsMul i n ∧ FitsMul (mulIv n i) m := by
  have f : FitsMul i n := ⟨fun d => date_factor hm (h.1 d), fun d => date_factor hm (h.2 d)⟩
  refine ⟨f, ?_⟩
  have one : ∀ x : Int, Legal x → (Date x → Date (x * (n * m))) → Date (round (x * n)) → Date (round (x * n) * m) := by
    intro x lx hx hd
    by_cases dx : Date x
    · have e : round (x * n) = x * n := by
        obtain ⟨h1, h2⟩ := date_factor hm (hx dx)
        rw [round, if_neg (by omega), if_neg (by omega)]
      rw [e, Int.mul_assoc]
      exact hx dx
    · exfalso
      obtain ⟨h1, h2⟩ := hd
      obtain ⟨l1, l2⟩ := lx
      have : x = INF ∨ x = -INF := by simp only [Date] at dx; ticks
      rcases Int.lt_or_gt_of_ne hn with a | a
      · have b := Int.mul_le_mul_of_nonneg_left (show n ≤ -1 by omega) (show 0 ≤ INF by decide)
        rcases this with rfl | rfl
        · simp only [round] at h1 h2; rw [if_neg (by ticks), if_pos (by ticks)] at h1; ticks
        · rw [Int.neg_mul] at h1 h2; simp only [round] at h1 h2; rw [if_pos (by ticks)] at h2; ticks
      · have b := Int.mul_le_mul_of_nonneg_left (show 1 ≤ n by omega) (show 0 ≤ INF by decide)
        rcases this with rfl | rfl
        · simp only [round] at h1 h2; rw [if_pos (by ticks)] at h2; ticks
        · rw [Int.neg_mul] at h1 h2; simp only [round] at h1 h2; rw [if_neg (by ticks), if_pos (by ticks)] at h1; ticks
  obtain ⟨a1, a2, a3, a4, a5⟩ := hi
  have l1 : Legal i.lower := ⟨a2, by omega⟩
  have l2 : Legal i.upper := ⟨by omega, a3⟩
  unfold mulIv
  split
  · exact ⟨one _ l2 h.2, one _ l1 h.1⟩
  · exact ⟨one _ l1 h.1, one _ l2 h.2⟩

/-- C141. Scaling a set by `n` and then by `m` is scaling it by `n * m`, whatever the signs and the integer types. -/
theorem C141_scale (t1 t2 t3 : Iv.ScaleTy) {s : TSet} {n m : Int} (cs : Canon s) (hn : n ≠ 0) (hm : m ≠ 0) (h1 : ScaleOk t1 n)
    (h2 : ScaleOk t2 m) (h3 : ScaleOk t3 (n * m)) (hf : ∀ i ∈ s, FitsMul i (n * m)) :
    ∃ r, TSet.mul t3 s (n * m) = .ok r ∧ (do TSet.mul t2 (← TSet.mul t1 s n) m) = .ok r := by
  have hnm : n * m ≠ 0 := Int.mul_ne_zero hn hm
  obtain ⟨e1, c1⟩ := set_mul cs hn h1 (fun i hi => (fits_factor (cs.wf i hi) hn hm (hf i hi)).1)
  obtain ⟨e3, -⟩ := set_mul cs hnm h3 hf
  refine ⟨_, e3, ?_⟩
  rw [e1, ok_bind, (set_mul c1 hm h2 (fun i hi => ?_)).1]
  · congr 1
    have e : (s.map (mulIv n)).map (mulIv m) = s.map (mulIv (n * m)) := by
      rw [List.map_map]
      exact List.map_congr_left (fun i _ => mulIv_mulIv hn hm i)
    rcases Int.lt_or_gt_of_ne hn with a | a <;> rcases Int.lt_or_gt_of_ne hm with b | b
    · have : 0 < n * m := Int.mul_pos_of_neg_of_neg a b
      rw [if_pos a, if_pos b, if_neg (by omega), List.map_reverse, List.reverse_reverse, e]
    · have : n * m < 0 := Int.mul_neg_of_neg_of_pos a b
      rw [if_pos a, if_neg (by omega), if_pos this, List.map_reverse, e]
    · have : n * m < 0 := Int.mul_neg_of_pos_of_neg a b
      rw [if_neg (show ¬ n < 0 by omega), if_pos b, if_pos this, e]
    · have : 0 < n * m := Int.mul_pos a b
      rw [if_neg (show ¬ n < 0 by omega), if_neg (show ¬ m < 0 by omega), if_neg (by omega), e]
  · have : i ∈ s.map (mulIv n) := by
      split at hi
      · exact List.mem_reverse.1 hi
      · exact hi
    obtain ⟨j, hj, rfl⟩ := List.mem_map.1 this
    exact (fits_factor (cs.wf j hj) hn hm (hf j hj)).2

theorem tdiv_tdiv (a b c : Int) : (a.tdiv b).tdiv c = a.tdiv (b * c) := by
  have pos : ∀ x y z : Nat, ((x : Int).tdiv y).tdiv z = (x : Int).tdiv (y * z) := by
    intro x y z
    rw [← Int.natCast_mul, ← Int.ofNat_tdiv, ← Int.ofNat_tdiv, ← Int.ofNat_tdiv, Nat.div_div_eq_div_mul]
  have two : ∀ (x : Nat) (b c : Int), ((x : Int).tdiv b).tdiv c = (x : Int).tdiv (b * c) := by
    intro x b c
    obtain ⟨y, rfl | rfl⟩ := Int.eq_nat_or_neg b <;> obtain ⟨z, rfl | rfl⟩ := Int.eq_nat_or_neg c <;>
      simp only [Int.tdiv_neg, Int.neg_tdiv, Int.neg_mul, Int.mul_neg, Int.neg_neg, pos]
  obtain ⟨x, rfl | rfl⟩ := Int.eq_nat_or_neg a
  · exact two x b c
  · rw [Int.neg_tdiv, Int.neg_tdiv, Int.neg_tdiv, two]

/-- C141. Dividing a bounded set by `n` and then by `m` is dividing it by `n * m`. -/
theorem C141_divide (t1 t2 t3 : Iv.ScaleTy) {s : TSet} {n m : Int} (cs : Canon s) (hb : ∀ i ∈ s, Bounded i) (hn : n ≠ 0) (hm : m ≠ 0)
    (h1 : IsScale t1 n) (h2 : IsScale t2 m) (h3 : IsScale t3 (n * m)) :
    ∃ r, TSet.div t3 s (n * m) = .ok r ∧ (do TSet.div t2 (← TSet.div t1 s n) m) = .ok r := by
  obtain ⟨r, e3, c3, p3⟩ := (C45_div t3 s (n * m) cs hb h3).1 (Int.mul_ne_zero hn hm)
  obtain ⟨q, e1, c1, p1⟩ := (C45_div t1 s n cs hb h1).1 hn
  have bq : ∀ i ∈ q, Bounded i := by
    have one : ∀ x, InSet x q → Date x := by
      intro x hx
      obtain ⟨t, ⟨i, hi, a1, a2⟩, rfl⟩ := (p1 x).1 hx
      obtain ⟨⟨b1, b2⟩, ⟨b3, b4⟩⟩ := hb i hi
      have := Int.natAbs_tdiv_le_natAbs t n
      exact ⟨by omega, by omega⟩
    intro i hi
    have := (c1.wf i hi).le
    exact ⟨one _ ⟨i, hi, Int.le_refl _, this⟩, one _ ⟨i, hi, this, Int.le_refl _⟩⟩
  obtain ⟨r', e2, c2, p2⟩ := (C45_div t2 q m c1 bq h2).1 hm
  refine ⟨r, e3, ?_⟩
  rw [e1, ok_bind, e2, canon_ext c2 c3 (fun t => ?_)]
  rw [p2, p3]
  constructor
  · rintro ⟨x, hx, rfl⟩
    obtain ⟨y, hy, rfl⟩ := (p1 x).1 hx
    exact ⟨y, hy, tdiv_tdiv ..⟩
  · rintro ⟨y, hy, rfl⟩
    exact ⟨y.tdiv n, (p1 _).2 ⟨y, hy, rfl⟩, (tdiv_tdiv ..).symm⟩

/-- C141. Dividing by `n` undoes the multiplication by `n` of a bounded set. -/
theorem C141_back (t1 t2 : Iv.ScaleTy) {s : TSet} {n : Int} (cs : Canon s) (hb : ∀ i ∈ s, Bounded i) (hn : n ≠ 0)
    (h1 : ScaleOk t1 n) (h2 : IsScale t2 n) (hf : ∀ i ∈ s, FitsMul i n) :
    (do TSet.div t2 (← TSet.mul t1 s n) n) = .ok s := by
  obtain ⟨e1, c1⟩ := set_mul cs hn h1 hf
  have mem : ∀ j, j ∈ (if n < 0 then (s.map (mulIv n)).reverse else s.map (mulIv n)) ↔ ∃ i ∈ s, mulIv n i = j := by
    intro j
    split
    · rw [List.mem_reverse, List.mem_map]
    · rw [List.mem_map]
  have rnd : ∀ x : Int, Date (x * n) → round (x * n) = x * n := by
    rintro x ⟨a, b⟩
    rw [round, if_neg (by omega), if_neg (by omega)]
  have bnd : ∀ i ∈ s, Bounded (mulIv n i) ∧ ∀ t, InIv t (mulIv n i) ↔
      (0 < n ∧ i.lower * n ≤ t ∧ t ≤ i.upper * n) ∨ (n < 0 ∧ i.upper * n ≤ t ∧ t ≤ i.lower * n) := by
    intro i hi
    have a := (hf i hi).1 (hb i hi).1
    have b := (hf i hi).2 (hb i hi).2
    unfold mulIv
    split
    · next c => exact ⟨⟨by rw [rnd _ b]; exact b, by rw [rnd _ a]; exact a⟩, fun t => by simp only [InIv, rnd _ a, rnd _ b]; omega⟩
    · next c => exact ⟨⟨by rw [rnd _ a]; exact a, by rw [rnd _ b]; exact b⟩, fun t => by simp only [InIv, rnd _ a, rnd _ b]; omega⟩
  obtain ⟨r, e2, c2, p2⟩ := (C45_div t2 _ n c1 (fun j hj => by obtain ⟨i, hi, rfl⟩ := (mem j).1 hj; exact (bnd i hi).1) h2).1 hn
  rw [e1, ok_bind, e2, canon_ext c2 cs (fun q => ?_)]
  rw [p2]
  have pos : ∀ (l u t : Int) (k : Int), 0 < k → l * k ≤ t → t ≤ u * k → l ≤ t.tdiv k ∧ t.tdiv k ≤ u := by
    intro l u t k hk g1 g2
    have m1 := Int.tdiv_le_tdiv hk g1
    have m2 := Int.tdiv_le_tdiv hk g2
    rw [Int.mul_tdiv_cancel _ (by omega)] at m1 m2
    exact ⟨m1, m2⟩
  constructor
  · rintro ⟨t, ⟨j, hj, h⟩, rfl⟩
    obtain ⟨i, hi, rfl⟩ := (mem j).1 hj
    refine ⟨i, hi, ?_⟩
    rcases ((bnd i hi).2 t).1 h with ⟨c, g1, g2⟩ | ⟨c, g1, g2⟩
    · exact pos _ _ _ _ c g1 g2
    · have := pos i.lower i.upper (-t) (-n) (by omega) (by rw [Int.mul_neg]; omega) (by rw [Int.mul_neg]; omega)
      rw [Int.tdiv_neg, Int.neg_tdiv, Int.neg_neg] at this
      exact this
  · rintro ⟨i, hi, g1, g2⟩
    refine ⟨q * n, ⟨mulIv n i, (mem _).2 ⟨i, hi, rfl⟩, ((bnd i hi).2 _).2 ?_⟩, (Int.mul_tdiv_cancel _ hn).symm⟩
    rcases Int.lt_or_gt_of_ne hn with c | c
    · exact Or.inr ⟨c, Int.mul_le_mul_of_nonpos_right g2 (by omega), Int.mul_le_mul_of_nonpos_right g1 (by omega)⟩
    · exact Or.inl ⟨c, Int.mul_le_mul_of_nonneg_right g1 (by omega), Int.mul_le_mul_of_nonneg_right g2 (by omega)⟩

/-- the image of a sum -/
theorem mulIv_sum {n : Int} (hn : n ≠ 0) {i A : Iv} (wi : WF i) (wA : WF A) (fi : FitsMul i n) (fA : FitsMul A n) (fs : FitsSum i A)
    (fsn : FitsMul (sumIv i A) n) : mulIv n (sumIv i A) = sumIv (mulIv n i) (mulIv n A) := by
  have pos : ∀ {n : Int} {i A : Iv}, 0 < n → WF i → WF A → FitsMul i n → FitsMul A n → FitsSum i A → FitsMul (sumIv i A) n →
      mulIv n (sumIv i A) = sumIv (mulIv n i) (mulIv n A) := by
    intro n i A hn wi wA fi fA fs fsn
    have ws := (addSpan_sum false wi wA fs).2.1
    obtain ⟨xi, i1, i2, -⟩ := mulIv_spec_pos hn wi fi
    obtain ⟨xA, A1, A2, -⟩ := mulIv_spec_pos hn wA fA
    obtain ⟨-, s1, s2, -⟩ := mulIv_spec_pos hn ws fsn
    obtain ⟨a1, a2, a3, a4, a5⟩ := wi
    obtain ⟨b1, b2, b3, b4, b5⟩ := wA
    have lo : ∀ x : Int, Legal x → x < INF → (Date x → Date (x * n)) → x ≠ -INF → x * n ≠ -INF := by
      intro x l h1 h2 h3
      have := h2 ⟨by have := l.1; omega, h1⟩
      simp only [Date] at this
      omega
    have up : ∀ x : Int, Legal x → -INF < x → (Date x → Date (x * n)) → x ≠ INF → x * n ≠ INF := by
      intro x l h1 h2 h3
      have := h2 ⟨h1, by have := l.2; omega⟩
      simp only [Date] at this
      omega
    have e1 : (mulIv n (sumIv i A)).lower = (sumIv (mulIv n i) (mulIv n A)).lower := by
      rw [s1]
      simp only [sumIv, i1, A1]
      by_cases c1 : i.lower = -INF
      · simp only [c1, true_or, if_true]
      by_cases c2 : A.lower = -INF
      · simp only [c2, or_true, if_true]
      have d := fs.1 ⟨by omega, a4⟩ ⟨by omega, b4⟩
      have n1 := lo _ ⟨a2, by omega⟩ a4 fi.1 c1
      have n2 := lo _ ⟨b2, by omega⟩ b4 fA.1 c2
      simp only [Date] at d
      simp only [if_neg (show ¬ (i.lower = -INF ∨ A.lower = -INF) by omega), if_neg c1, if_neg c2]
      rw [if_neg (by omega), if_neg (by omega), Int.add_mul]
    have e2 : (mulIv n (sumIv i A)).upper = (sumIv (mulIv n i) (mulIv n A)).upper := by
      rw [s2]
      simp only [sumIv, i2, A2]
      by_cases c1 : i.upper = INF
      · simp only [c1, true_or, if_true]
      by_cases c2 : A.upper = INF
      · simp only [c2, or_true, if_true]
      have d := fs.2 ⟨a5, by omega⟩ ⟨b5, by omega⟩
      have n1 := up _ ⟨by omega, a3⟩ a5 fi.2 c1
      have n2 := up _ ⟨by omega, b3⟩ b5 fA.2 c2
      simp only [Date] at d
      simp only [if_neg (show ¬ (i.upper = INF ∨ A.upper = INF) by omega), if_neg c1, if_neg c2]
      rw [if_neg (by omega), if_neg (by omega), Int.add_mul]
    cases h : mulIv n (sumIv i A)
    cases h' : sumIv (mulIv n i) (mulIv n A)
    rw [h, h'] at e1 e2
    simp only at e1 e2
    rw [e1, e2]
  rcases Int.lt_or_gt_of_ne hn with c | c
  · have e : (sumIv i A).neg = sumIv i.neg A.neg := by
      have low : ∀ x y : Int, -(if x = INF ∨ y = INF then INF else x + y) = if -x = -INF ∨ -y = -INF then -INF else -x + -y := by
        intro x y
        split <;> split <;> omega
      have high : ∀ x y : Int, -(if x = -INF ∨ y = -INF then -INF else x + y) = if -x = INF ∨ -y = INF then INF else -x + -y := by
        intro x y
        split <;> split <;> omega
      exact (Iv.mk.injEq ..).mpr ⟨low _ _, high _ _⟩
    rw [mulIv_neg c, mulIv_neg c, mulIv_neg c, e]
    refine pos (by omega) wi.neg wA.neg (fitsMul_neg fi) (fitsMul_neg fA) ?_ (e ▸ fitsMul_neg fsn)
    constructor
    · simp only [Iv.neg]
      intro x y
      have := fs.2 (by ticks) (by ticks)
      ticks
    · simp only [Iv.neg]
      intro x y
      have := fs.1 (by ticks) (by ticks)
      ticks
  · exact pos c wi wA fi fA fs fsn

/-- products of dates which are not far from 0 are representable -/
theorem near_mul {W n : Int} (hn : n ≠ 0) (h : W * n.natAbs < INF) {i : Iv} (hi : Near W i.lower ∧ Near W i.upper) : FitsMul i n := by
  have one : ∀ x, Near W x → Date x → Date (x * n) := by
    intro x hx hd
    have a : x.natAbs ≤ W.natAbs ∧ 0 ≤ W := by
      simp only [Near, Date] at *
      omega
    have b : (x * n).natAbs ≤ W.natAbs * n.natAbs := by
      rw [Int.natAbs_mul]
      exact Nat.mul_le_mul_right _ a.1
    have c : ((W.natAbs * n.natAbs : Nat) : Int) = W * n.natAbs := by
      rw [Int.natCast_mul, Int.natAbs_of_nonneg a.2]
    simp only [Date]
    omega
  exact ⟨one _ hi.1, one _ hi.2⟩

/-- C141. Scaling distributes over the sum of an interval and a span, and over the translation of a set by a duration:
`(i + A) * n` is `i * n + A * n`, and `(s + d) * n` is `s * n + d * n`. -/
theorem C141_distribute {W n : Int} (h1 : 1 ≤ W) (hn : n ≠ 0) (hW : 2 * W * n.natAbs < INF) (dbg : Bool) (t1 t2 t3 : Iv.ScaleTy)
    (s1 : IsScale t1 n) (s2 : IsScale t2 n) (s3 : IsScale t3 n) :
    (∀ i A : Iv, WF i → WF A → Near W i.lower ∧ Near W i.upper → Near W A.lower ∧ Near W A.upper →
      ∃ r, (do (← i.addSpan dbg A).mul t1 n) = .ok r ∧ (do (← i.mul t2 n).addSpan dbg (← A.mul t3 n)) = .ok r) ∧
    (∀ (s : TSet) (d : Int), Canon s → NearSet W s → -W ≤ d → d ≤ W →
      ∃ r, (do TSet.mul t1 (← TSet.addTv dbg s d) n) = .ok r ∧ (do TSet.addTv dbg (← TSet.mul t2 s n) (tvMul t3 d n)) = .ok r) := by
  have h2 : W * n.natAbs < INF := by
    have : 0 ≤ W * n.natAbs := Int.mul_nonneg (by omega) (by omega)
    rw [Int.mul_assoc] at hW
    omega
  have hnn : (n.natAbs : Int) ≤ W * n.natAbs := by
    have := Int.mul_le_mul_of_nonneg_right h1 (show (0 : Int) ≤ n.natAbs by omega)
    omega
  have ok : ∀ t, IsScale t n → ScaleOk t n := fun t h => ⟨by omega, by omega, h⟩
  have mnear : ∀ {i : Iv}, WF i → Near W i.lower ∧ Near W i.upper → Near (W * n.natAbs) (mulIv n i).lower ∧ Near (W * n.natAbs) (mulIv n i).upper := by
    have one : ∀ x, Near W x → Near (W * n.natAbs) (round (x * n)) := by
      rintro x (rfl | rfl | hx)
      · have e := round_mul INF n
        rcases Int.lt_or_gt_of_ne hn with c | c
        · have := Int.mul_le_mul_of_nonneg_left (show n ≤ -1 by omega) (show 0 ≤ INF by decide)
          rw [round, if_neg (by ticks), if_pos (by ticks)]
          exact Or.inr (Or.inl rfl)
        · have := Int.mul_le_mul_of_nonneg_left (show 1 ≤ n by omega) (show 0 ≤ INF by decide)
          rw [round, if_pos (by ticks)]
          exact Or.inl rfl
      · rw [Int.neg_mul]
        rcases Int.lt_or_gt_of_ne hn with c | c
        · have := Int.mul_le_mul_of_nonneg_left (show n ≤ -1 by omega) (show 0 ≤ INF by decide)
          rw [round, if_pos (by ticks)]
          exact Or.inl rfl
        · have := Int.mul_le_mul_of_nonneg_left (show 1 ≤ n by omega) (show 0 ≤ INF by decide)
          rw [round, if_neg (by ticks), if_pos (by ticks)]
          exact Or.inr (Or.inl rfl)
      · have b : (x * n).natAbs ≤ W.natAbs * n.natAbs := by
          rw [Int.natAbs_mul]
          exact Nat.mul_le_mul_right _ (by omega)
        have c : ((W.natAbs * n.natAbs : Nat) : Int) = W * n.natAbs := by
          rw [Int.natCast_mul, Int.natAbs_of_nonneg (by omega)]
        rw [round, if_neg (by omega), if_neg (by omega)]
        exact Or.inr (Or.inr (by omega))
    intro i wi hi
    unfold mulIv
    split
    · exact ⟨one _ hi.2, one _ hi.1⟩
    · exact ⟨one _ hi.1, one _ hi.2⟩
  have big : ∀ {i A : Iv}, WF i → WF A → Near W i.lower ∧ Near W i.upper → Near W A.lower ∧ Near W A.upper →
      i.addSpan dbg A = .ok (sumIv i A) ∧ FitsMul (sumIv i A) n ∧ WF (sumIv i A) ∧ mulIv n (sumIv i A) = sumIv (mulIv n i) (mulIv n A) ∧
      (mulIv n i).addSpan dbg (mulIv n A) = .ok (sumIv (mulIv n i) (mulIv n A)) := by
    intro i A wi wA ni nA
    have hw : 2 * W < INF := by
      have := Int.mul_le_mul_of_nonneg_left (show (1 : Int) ≤ n.natAbs by omega) (show 0 ≤ 2 * W by omega)
      omega
    have fs : FitsSum i A := near_fits ni nA (by omega)
    obtain ⟨e, w, -⟩ := addSpan_sum dbg wi wA fs
    have ns := sum_near ni nA wi wA
    have fsn : FitsMul (sumIv i A) n := near_mul hn (by rw [show W + W = 2 * W by omega]; exact hW) ns
    have fi := near_mul hn h2 ni
    have fA := near_mul hn h2 nA
    refine ⟨e, fsn, w, mulIv_sum hn wi wA fi fA fs fsn, ?_⟩
    exact (addSpan_sum dbg (mulIv_spec hn wi fi).1 (mulIv_spec hn wA fA).1 (near_fits (mnear wi ni) (mnear wA nA)
      (by rw [Int.mul_assoc] at hW; omega))).1
  constructor
  · intro i A wi wA ni nA
    obtain ⟨e1, f1, w1, e2, e3⟩ := big wi wA ni nA
    refine ⟨_, by rw [e1, ok_bind]; exact mul_eq (ok t1 s1) (mulIv_spec hn w1 f1).1, ?_⟩
    rw [mul_eq (ok t2 s2) (mulIv_spec hn wi (near_mul hn h2 ni)).1, ok_bind, mul_eq (ok t3 s3) (mulIv_spec hn wA (near_mul hn h2 nA)).1, ok_bind,
      e3, e2]
  · intro s d cs ns hd1 hd2
    have nd : Near W d := Or.inr (Or.inr ⟨hd1, hd2⟩)
    have dd : Date d := by
      have : 0 ≤ W * n.natAbs := Int.mul_nonneg (by omega) (by omega)
      have := Int.mul_le_mul_of_nonneg_left (show (1 : Int) ≤ n.natAbs by omega) (show 0 ≤ W by omega)
      exact ⟨by omega, by omega⟩
    have wd := wf_point dd
    have all := fun i hi => big (A := ⟨d, d⟩) (cs.wf i hi) wd (ns i hi) ⟨nd, nd⟩
    have hf : ∀ i ∈ s, FitsSum i ⟨d, d⟩ := fun i hi => near_fits (ns i hi) ⟨nd, nd⟩ (by
      have := Int.mul_le_mul_of_nonneg_left (show (1 : Int) ≤ n.natAbs by omega) (show 0 ≤ 2 * W by omega)
      omega)
    have fm : ∀ i ∈ s, FitsMul i n := fun i hi => near_mul hn h2 (ns i hi)
    obtain ⟨q, e1, c1, -⟩ := C40_add dbg s d cs dd hf
    have e1' := addTv_map dbg cs dd hf
    rw [e1] at e1'
    cases e1'
    have f1 : ∀ j ∈ s.map (fun i => sumIv i ⟨d, d⟩), FitsMul j n := by
      intro j hj
      obtain ⟨i, hi, rfl⟩ := List.mem_map.1 hj
      exact (all i hi).2.1
    obtain ⟨e2, -⟩ := set_mul c1 hn (ok t1 s1) f1
    obtain ⟨e3, c3⟩ := set_mul cs hn (ok t2 s2) fm
    have dn : Date (d * n) := (near_mul hn h2 (i := ⟨d, d⟩) ⟨nd, nd⟩).1 dd
    have rn : round (d * n) = d * n := by
      obtain ⟨x, y⟩ := dn
      rw [round, if_neg (by omega), if_neg (by omega)]
    have pt : mulIv n ⟨d, d⟩ = ⟨d * n, d * n⟩ := by
      unfold mulIv
      split <;> simp only [rn]
    have mem : ∀ j, j ∈ (if n < 0 then (s.map (mulIv n)).reverse else s.map (mulIv n)) → ∃ i ∈ s, mulIv n i = j := by
      intro j hj
      split at hj
      · exact List.mem_map.1 (List.mem_reverse.1 hj)
      · exact List.mem_map.1 hj
    have f3 : ∀ j ∈ (if n < 0 then (s.map (mulIv n)).reverse else s.map (mulIv n)), FitsSum j ⟨d * n, d * n⟩ := by
      intro j hj
      obtain ⟨i, hi, rfl⟩ := mem j hj
      rw [← pt]
      exact near_fits (mnear (cs.wf i hi) (ns i hi)) (mnear wd ⟨nd, nd⟩) (by rw [Int.mul_assoc] at hW; omega)
    refine ⟨_, by rw [e1, ok_bind, e2], ?_⟩
    rw [e3, ok_bind, tvMul_round (ok t3 s3), rn, addTv_map dbg c3 dn f3]
    congr 1
    have e : (s.map (mulIv n)).map (fun i => sumIv i ⟨d * n, d * n⟩) = (s.map (fun i => sumIv i ⟨d, d⟩)).map (mulIv n) := by
      rw [List.map_map, List.map_map]
      refine List.map_congr_left (fun i hi => ?_)
      simp only [Function.comp]
      rw [(all i hi).2.2.2.1, pt]
    split
    · rw [List.map_reverse, e]
    · exact e

/-- the statements of C141 are about ordinary values -/
example : Canon [⟨-INF, 3⟩, ⟨10, 20⟩] ∧ WF ⟨1, 4⟩ ∧ WF ⟨-2, INF⟩ ∧ NearSet 100 [⟨-INF, 3⟩, ⟨10, 20⟩] ∧ (3 : Int) * 100 < INF ∧
    (do TSet.addSpan true (← TSet.addSpan true [⟨0, 3⟩, ⟨10, 20⟩] ⟨1, 4⟩) ⟨0, 1⟩) = .ok [⟨1, 8⟩, ⟨11, 25⟩] ∧
    (do TSet.subSpan true (← TSet.addSpan true [⟨0, 3⟩, ⟨10, 20⟩] ⟨1, 2⟩) ⟨1, 2⟩) = .ok [⟨-1, 4⟩, ⟨9, 21⟩] ∧
    (do TSet.mul .big (← TSet.mul .small [⟨-INF, 3⟩, ⟨10, 20⟩] (-2)) 3) = .ok [⟨-120, -60⟩, ⟨-18, INF⟩] ∧
    (do TSet.div .small (← TSet.mul .small [⟨0, 3⟩, ⟨10, 20⟩] (-2)) (-2)) = .ok [⟨0, 3⟩, ⟨10, 20⟩] ∧
    (do TSet.div .small (← TSet.div .small [⟨0, 3⟩, ⟨10, 20⟩] 2) (-3)) = .ok [⟨-3, 0⟩] ∧
    (∀ i ∈ ([⟨-INF, 3⟩, ⟨10, 20⟩] : TSet), FitsMul i (-6)) := by
  refine ⟨by decide, by decide, by decide, ?_, by decide, by decide +kernel, by decide +kernel, by decide, by decide, by decide, by decide⟩
  intro i hi
  rcases List.mem_cons.1 hi with rfl | hi
  · exact ⟨Or.inr (Or.inl rfl), Or.inr (Or.inr (by decide))⟩
  · cases List.mem_singleton.1 hi
    exact ⟨Or.inr (Or.inr (by decide)), Or.inr (Or.inr (by decide))⟩

/-- Scaling does not distribute over the sum of a set and a span: intervals which touch after the translation are one interval, whose image
has no hole. -/
example : (do TSet.mul .small (← TSet.addSpan true [⟨0, 1⟩, ⟨3, 4⟩] ⟨0, 1⟩) 2) = .ok [⟨0, 10⟩] ∧
    (do TSet.addSpan true (← TSet.mul .small [⟨0, 1⟩, ⟨3, 4⟩] 2) (← Iv.mul .small ⟨0, 1⟩ 2)) = .ok [⟨0, 4⟩, ⟨6, 10⟩] := by decide +kernel

end Chrono
