import Verif.Props.SetRel
import Verif.Props.SetArith

/-!
# Sets which may contain the junk left by an intersection

The intersection of two sets with touching intervals contains intervals such as `[5,4]`. The operations of the
scheduler are exact, or at least lose no date, on such sets too.
-/

set_option linter.unusedSimpArgs false

namespace Chrono
open Spec

theorem Loose_nil : Loose [] := ⟨by simp, List.Pairwise.nil⟩

theorem loose_append {A B : List Iv} :
    Loose (A ++ B) ↔ Loose A ∧ Loose B ∧ ∀ a ∈ A, ∀ b ∈ B, a.upper + 1 < b.lower := by
  constructor
  · rintro ⟨h1, h2⟩
    rw [List.pairwise_append] at h2
    exact ⟨⟨fun i hi => h1 i (by simp [hi]), h2.1⟩, ⟨fun i hi => h1 i (by simp [hi]), h2.2.1⟩, h2.2.2⟩
  · rintro ⟨⟨h1, h2⟩, ⟨h3, h4⟩, h5⟩
    refine ⟨fun i hi => ?_, List.pairwise_append.2 ⟨h2, h4, h5⟩⟩
    rcases List.mem_append.1 hi with e | e
    · exact h1 i e
    · exact h3 i e

/-! ## Truncation -/

theorem truncateBefore_loose {s : List Iv} (hs : Loose s) {c : Int} (hc : -INF ≤ c) (hc' : c < INF) :
    Loose (TSet.truncateBefore s c).1 ∧
    (∀ t, InSet t (TSet.truncateBefore s c).1 ↔ InSet t s ∧ c ≤ t) ∧
    ((TSet.truncateBefore s c).2 = true ↔ (TSet.truncateBefore s c).1 ≠ s) := by
  have key : ∀ (x : Iv) (B : List Iv), Loose (x :: B) → x.upper ≥ c →
      Loose ((x.truncateBefore c).1 :: B) ∧
      (∀ t, InSet t ((x.truncateBefore c).1 :: B) ↔ InSet t (x :: B) ∧ c ≤ t) ∧
      ((x.truncateBefore c).2 = true ↔ (x.truncateBefore c).1 ≠ x) := by
    intro x B h hx
    obtain ⟨hw, hB, hcB⟩ := Loose_cons.1 h
    have low : ∀ t, InSet t B → x.upper + 1 < t := fun t h' => InterIter.low_of_loose h h'
    by_cases c1 : c ≤ x.lower
    · have e : x.truncateBefore c = (x, false) := by simp [Iv.truncateBefore, c1]
      rw [e]
      refine ⟨h, fun t => ?_, by simp⟩
      have := low t
      have := hw.le
      simp only [InSet_cons, InIv]
      grind
    · have e : x.truncateBefore c = (⟨c, x.upper⟩, true) := by
        have : ¬ x.upper < c := by omega
        simp [Iv.truncateBefore, c1, this]
      rw [e]
      refine ⟨Loose_cons.2 ⟨?_, hB, hcB⟩, fun t => ?_, ?_⟩
      · obtain ⟨g1, g2, g3, g4, g5⟩ := hw
        constructor <;> simp only <;> omega
      · have := low t
        have := hw.le
        simp only [InSet_cons, InIv]
        grind
      · simp only [true_iff]
        intro h'
        have := congrArg Iv.lower h'
        simp only at this
        omega
  unfold TSet.truncateBefore
  cases hf : s.findIdx? (fun i => decide (i.upper ≥ c)) with
  | none =>
    have hn := findIdx_none hf
    simp only
    cases s with
    | nil => simp [InSet_nil, Loose_nil, TSet.isEmpty]
    | cons x xs =>
      simp only [TSet.isEmpty, List.isEmpty_cons, Bool.false_eq_true, if_false]
      refine ⟨Loose_nil, fun t => ?_, by simp⟩
      simp only [InSet_nil, false_iff]
      rintro ⟨⟨i, hi, h1, h2⟩, h3⟩
      have := hn i hi
      simp only [decide_eq_false_iff_not] at this
      omega
  | some k =>
    obtain ⟨A, x, B, e1, e2, e3, e4⟩ := findIdx_split hf
    subst e1
    simp only [decide_eq_true_eq] at e3
    obtain ⟨hA, hxB, hsep⟩ := loose_append.1 hs
    cases A with
    | nil =>
      simp only [List.length_nil] at e2
      subst e2
      simp only [List.nil_append] at *
      obtain ⟨k1, k2, k3⟩ := key x B hs e3
      refine ⟨k1, k2, k3.trans ?_⟩
      simp
    | cons y A' =>
      cases k with
      | zero => simp at e2
      | succ k =>
        have hd : List.drop (k + 1) (y :: A' ++ x :: B) = x :: B := by
          rw [← e2]; exact List.drop_left
        simp only [hd]
        obtain ⟨k1, k2, k3⟩ := key x B hxB e3
        refine ⟨k1, fun t => ?_, ?_⟩
        · rw [k2, InSet_append]
          constructor
          · rintro ⟨h1, h2⟩; exact ⟨Or.inr h1, h2⟩
          · rintro ⟨h1 | h1, h2⟩
            · obtain ⟨i, hi, h3, h4⟩ := h1
              have := e4 i hi
              simp only [decide_eq_false_iff_not] at this
              omega
            · exact ⟨h1, h2⟩
        · simp only [true_iff]
          intro h'
          have := congrArg List.length h'
          simp only [List.length_cons, List.length_append] at this
          omega

theorem truncateAfter_loose {s : List Iv} (hs : Loose s) {c : Int} (hc : -INF < c) (hc' : c ≤ INF) :
    Loose (TSet.truncateAfter s c).1 ∧
    (∀ t, InSet t (TSet.truncateAfter s c).1 ↔ InSet t s ∧ t ≤ c) ∧
    ((TSet.truncateAfter s c).2 = true ↔ (TSet.truncateAfter s c).1 ≠ s) := by
  have key : ∀ (A : List Iv) (x : Iv), Loose (A ++ [x]) → x.lower ≤ c →
      Loose (A ++ [(x.truncateAfter c).1]) ∧
      (∀ t, InSet t (A ++ [(x.truncateAfter c).1]) ↔ InSet t (A ++ [x]) ∧ t ≤ c) ∧
      ((x.truncateAfter c).2 = true ↔ (x.truncateAfter c).1 ≠ x) := by
    intro A x h hx
    obtain ⟨hA, hcx, hsep⟩ := loose_append.1 h
    have hw := (Loose_cons.1 hcx).1
    have low : ∀ t, InSet t A → t < x.lower := by
      rintro t ⟨i, hi, h1, h2⟩
      have := hsep i hi x (by simp)
      omega
    by_cases c1 : x.upper ≤ c
    · have e : x.truncateAfter c = (x, false) := by simp [Iv.truncateAfter, c1]
      rw [e]
      refine ⟨h, fun t => ?_, by simp⟩
      have := low t
      have := hw.le
      simp only [InSet_append, InSet_singleton, InIv]
      grind
    · have e : x.truncateAfter c = (⟨x.lower, c⟩, true) := by
        have : ¬ c < x.lower := by omega
        simp [Iv.truncateAfter, c1, this]
      rw [e]
      refine ⟨loose_append.2 ⟨hA, Loose_cons.2 ⟨?_, by simp, Loose_nil⟩, ?_⟩, fun t => ?_, ?_⟩
      · obtain ⟨g1, g2, g3, g4, g5⟩ := hw
        constructor <;> simp only <;> omega
      · intro a ha b hb
        simp only [List.mem_singleton] at hb
        subst hb
        exact hsep a ha x (by simp)
      · have := low t
        have := hw.le
        simp only [InSet_append, InSet_singleton, InIv]
        grind
      · simp only [true_iff]
        intro h'
        have := congrArg Iv.upper h'
        simp only at this
        omega
  unfold TSet.truncateAfter
  cases hf : s.reverse.findIdx? (fun i => decide (i.lower ≤ c)) with
  | none =>
    have hn := findIdx_none hf
    simp only [TSet.rposition, hf, Option.map_none]
    cases s with
    | nil => simp [InSet_nil, Loose_nil, TSet.isEmpty]
    | cons x xs =>
      simp only [TSet.isEmpty, List.isEmpty_cons, Bool.false_eq_true, if_false]
      refine ⟨Loose_nil, fun t => ?_, by simp⟩
      simp only [InSet_nil, false_iff]
      rintro ⟨⟨i, hi, h1, h2⟩, h3⟩
      have := hn i (List.mem_reverse.2 hi)
      simp only [decide_eq_false_iff_not] at this
      omega
  | some k =>
    obtain ⟨A, x, B, e1, e2, e3, e4⟩ := findIdx_split hf
    have es : s = (B.reverse ++ [x]) ++ A.reverse := by
      have := congrArg List.reverse e1
      simpa using this
    simp only [decide_eq_true_eq] at e3
    simp only [TSet.rposition, hf, Option.map_some]
    have hlen : s.length = B.length + 1 + A.length := by rw [es]; simp; omega
    have hpos : s.length - 1 - k = B.length := by omega
    rw [hpos]
    rw [es] at hs
    obtain ⟨hBx, hAc, hsep⟩ := loose_append.1 hs
    obtain ⟨k1, k2, k3⟩ := key B.reverse x hBx e3
    by_cases c1 : A = []
    · subst c1
      simp only [List.reverse_nil, List.append_nil] at es
      rw [if_pos (by rw [hlen]; rfl)]
      have hl : s.getLast? = some x := by rw [es]; simp
      simp only [hl]
      rw [es, mapLast_append]
      refine ⟨k1, k2, k3.trans ?_⟩
      simp
    · have hAl : 0 < A.length := List.length_pos_iff.2 c1
      rw [if_neg (by omega)]
      have ht : s.take (B.length + 1) = B.reverse ++ [x] := by
        rw [es, List.take_left' (by simp)]
      simp only [ht, mapLast_append]
      refine ⟨k1, fun t => ?_, ?_⟩
      · rw [k2, es, InSet_append (b := A.reverse)]
        constructor
        · rintro ⟨h1, h2⟩; exact ⟨Or.inl h1, h2⟩
        · rintro ⟨h1 | h1, h2⟩
          · exact ⟨h1, h2⟩
          · obtain ⟨i, hi, h3, h4⟩ := h1
            have := e4 i (List.mem_reverse.1 hi)
            simp only [decide_eq_false_iff_not] at this
            omega
      · simp only [true_iff]
        intro h'
        have := congrArg List.length h'
        simp only [List.length_append, List.length_reverse, List.length_singleton] at this
        omega


theorem interAssign_empty {s : TSet} (hs : Loose s) {w : Convex} (e2 : w.lower = INF) (e3 : w.upper = -INF) :
    TSet.interAssignConvex s w = [] := by
  rw [TSet.interAssignConvex, e2, e3]
  have hlow : ∀ i ∈ (TSet.truncateAfter s (-INF)).1, i.upper ≤ -INF := by
    intro i hi
    unfold TSet.truncateAfter at hi
    cases hf : s.reverse.findIdx? (fun i => decide (i.lower ≤ -INF)) with
    | none =>
      simp only [TSet.rposition, hf, Option.map_none] at hi
      split at hi
      · rename_i h
        simp only [TSet.isEmpty, List.isEmpty_iff] at h
        rw [h] at hi; simp at hi
      · simp at hi
    | some k =>
      obtain ⟨A, x, B, q1, q2, q3, q4⟩ := findIdx_split hf
      have es : s = (B.reverse ++ [x]) ++ A.reverse := by
        have := congrArg List.reverse q1
        simpa using this
      simp only [decide_eq_true_eq] at q3
      have hwx := hs.wf x (by rw [es]; simp)
      have hB : B = [] := by
        cases B with
        | nil => rfl
        | cons b bs =>
          exfalso
          rw [es] at hs
          have := ((loose_append.1 (loose_append.1 hs).1).2.2) b (by simp) x (by simp)
          have hb := (loose_append.1 (loose_append.1 hs).1).1.wf b (by simp)
          have := hb.lt_hi
          omega
      subst hB
      simp only [List.reverse_nil, List.nil_append] at es
      have hx' : (x.truncateAfter (-INF)).1.upper = -INF := by
        obtain ⟨g1, g2, g3, g4, g5⟩ := hwx
        have c1 : ¬ x.upper ≤ -INF := by omega
        have c2 : ¬ -INF < x.lower := by omega
        simp [Iv.truncateAfter, c1, c2]
      have hlen : s.length = 1 + A.length := by rw [es]; simp; omega
      simp only [TSet.rposition, hf, Option.map_some] at hi
      have hpos : s.length - 1 - k = 0 := by omega
      rw [hpos] at hi
      split at hi
      · rename_i h
        have hA : A = [] := by
          cases A with
          | nil => rfl
          | cons _ _ => simp at hlen; omega
        subst hA
        simp only [List.reverse_nil, List.append_nil] at es
        rw [es] at hi
        simp only [List.getLast?_singleton, TSet.mapLast, List.mem_singleton] at hi
        rw [hi, hx']; omega
      · have ht : s.take (0 + 1) = [x] := by rw [es]; rfl
        rw [ht] at hi
        simp only [TSet.mapLast, List.mem_singleton] at hi
        rw [hi, hx']; omega
  generalize (TSet.truncateAfter s (-INF)).1 = r at hlow
  have hf : r.findIdx? (fun i => decide (i.upper ≥ INF)) = none := by
    rw [List.findIdx?_eq_none_iff]
    intro i hi
    have := hlow i hi
    simp only [decide_eq_false_iff_not]
    ticks
  simp only [TSet.truncateBefore, hf]
  split
  · rename_i h; simpa [TSet.isEmpty] using h
  · rfl

/-- the bounds of a truncated set -/
theorem truncateBefore_bounds (s : TSet) (c : Int) : ∀ y ∈ (TSet.truncateBefore s c).1,
    ∃ x ∈ s, y.upper = x.upper ∧ (y.lower = x.lower ∨ y.lower = c) := by
  have key : ∀ x : Iv, x.upper ≥ c → (x.truncateBefore c).1.upper = x.upper ∧
      ((x.truncateBefore c).1.lower = x.lower ∨ (x.truncateBefore c).1.lower = c) := by
    intro x hx
    unfold Iv.truncateBefore
    split
    · exact ⟨rfl, Or.inl rfl⟩
    · rw [if_neg (by omega)]; exact ⟨rfl, Or.inr rfl⟩
  intro y hy
  unfold TSet.truncateBefore at hy
  cases hf : s.findIdx? (fun i => decide (i.upper ≥ c)) with
  | none =>
    rw [hf] at hy
    simp only at hy
    split at hy
    · exact ⟨y, hy, rfl, Or.inl rfl⟩
    · simp at hy
  | some k =>
    obtain ⟨A, x, B, e1, e2, e3, e4⟩ := findIdx_split hf
    simp only [decide_eq_true_eq] at e3
    rw [hf] at hy
    subst e1
    cases A with
    | nil =>
      simp only [List.length_nil] at e2
      subst e2
      simp only [List.nil_append] at *
      rcases List.mem_cons.1 hy with e | e
      · rw [e]; exact ⟨x, by simp, key x e3⟩
      · exact ⟨y, by simp [e], rfl, Or.inl rfl⟩
    | cons z A' =>
      cases k with
      | zero => simp at e2
      | succ k =>
        have hd : List.drop (k + 1) (z :: A' ++ x :: B) = x :: B := by
          rw [← e2]; exact List.drop_left
        simp only [hd] at hy
        rcases List.mem_cons.1 hy with e | e
        · rw [e]; exact ⟨x, by simp, key x e3⟩
        · exact ⟨y, by simp [e], rfl, Or.inl rfl⟩

theorem truncateAfter_bounds (s : TSet) (c : Int) : ∀ y ∈ (TSet.truncateAfter s c).1,
    ∃ x ∈ s, y.lower = x.lower ∧ (y.upper = x.upper ∨ y.upper = c) := by
  have key : ∀ x : Iv, x.lower ≤ c → (x.truncateAfter c).1.lower = x.lower ∧
      ((x.truncateAfter c).1.upper = x.upper ∨ (x.truncateAfter c).1.upper = c) := by
    intro x hx
    unfold Iv.truncateAfter
    split
    · exact ⟨rfl, Or.inl rfl⟩
    · rw [if_neg (by omega)]; exact ⟨rfl, Or.inr rfl⟩
  intro y hy
  unfold TSet.truncateAfter at hy
  cases hf : s.reverse.findIdx? (fun i => decide (i.lower ≤ c)) with
  | none =>
    simp only [TSet.rposition, hf, Option.map_none] at hy
    split at hy
    · exact ⟨y, hy, rfl, Or.inl rfl⟩
    · simp at hy
  | some k =>
    obtain ⟨A, x, B, e1, e2, e3, e4⟩ := findIdx_split hf
    have es : s = (B.reverse ++ [x]) ++ A.reverse := by
      have := congrArg List.reverse e1
      simpa using this
    simp only [decide_eq_true_eq] at e3
    simp only [TSet.rposition, hf, Option.map_some] at hy
    have hlen : s.length = B.length + 1 + A.length := by rw [es]; simp; omega
    have hpos : s.length - 1 - k = B.length := by omega
    rw [hpos] at hy
    have fin : y ∈ B.reverse ++ [(x.truncateAfter c).1] → ∃ x ∈ s, y.lower = x.lower ∧ (y.upper = x.upper ∨ y.upper = c) := by
      intro h
      rcases List.mem_append.1 h with h | h
      · exact ⟨y, by rw [es]; simp only [List.mem_append]; exact Or.inl (Or.inl h), rfl, Or.inl rfl⟩
      · simp only [List.mem_singleton] at h
        rw [h]; exact ⟨x, by rw [es]; simp, key x e3⟩
    by_cases c1 : A = []
    · subst c1
      simp only [List.reverse_nil, List.append_nil] at es
      rw [if_pos (by rw [hlen]; rfl)] at hy
      have hl : s.getLast? = some x := by rw [es]; simp
      simp only [hl] at hy
      rw [es, mapLast_append] at hy
      exact fin hy
    · have hAl : 0 < A.length := List.length_pos_iff.2 c1
      rw [if_neg (by omega)] at hy
      have ht : s.take (B.length + 1) = B.reverse ++ [x] := by
        rw [es, List.take_left' (by simp)]
      simp only [ht, mapLast_append] at hy
      exact fin hy

/-! ## Dates on the unbounded time line -/

theorem loose_ext {i : Iv} (h : LooseIv i) (t : Int) :
    InExt t i ↔ InIv (if t ≥ INF then INF else if t ≤ -INF then -INF else t) i := by
  simp only [InExt, InIv]
  obtain ⟨h1, h2, h3, h4, h5⟩ := h
  (repeat' split) <;> ticks

theorem loose_extSet {s : List Iv} (h : ∀ i ∈ s, LooseIv i) (t : Int) :
    InExtSet t s ↔ InSet (if t ≥ INF then INF else if t ≤ -INF then -INF else t) s := by
  constructor
  · rintro ⟨i, hi, h1⟩; exact ⟨i, hi, (loose_ext (h i hi) t).1 h1⟩
  · rintro ⟨i, hi, h1⟩; exact ⟨i, hi, (loose_ext (h i hi) t).2 h1⟩

/-! ## Intersection -/

theorem inter_loose {a b : List Iv} (ha : Loose a) (hb : Loose b) :
    ∃ r, TSet.inter a b = .ok r ∧ Loose r ∧ (∀ t, InExtSet t r ↔ InExtSet t a ∧ InExtSet t b) ∧
      ∀ y ∈ r, ∃ x ∈ a, ∃ z ∈ b, (y.lower = x.lower ∨ y.lower = z.lower) ∧ (y.upper = x.upper ∨ y.upper = z.upper) := by
  obtain ⟨_, h⟩ := InterIter.meets_loose ha hb
  have hl : Loose (InterIter.new a b).drain := by
    refine ⟨fun y hy => ?_, h.gap⟩
    obtain ⟨x, hx, z, hz, e, e1, e2⟩ := h.meets y hy
    obtain ⟨g1, g2, g3, g4, g5⟩ := ha.wf x hx
    obtain ⟨k1, k2, k3, k4, k5⟩ := hb.wf z hz
    subst e
    constructor <;> simp only [InterIter.meet] <;> omega
  refine ⟨_, TSet.fromIter_id h.gap (fun y hy => by have := (hl.wf y hy).lo_lt; omega), hl, fun t => ?_, fun y hy => ?_⟩
  · rw [loose_extSet hl.wf, h.pts, ← loose_extSet ha.wf, ← loose_extSet hb.wf]
  · obtain ⟨x, hx, z, hz, e, e1, e2⟩ := h.meets y hy
    refine ⟨x, hx, z, hz, ?_⟩
    subst e
    simp only [InterIter.meet]
    omega

/-! ## Translation -/

theorem new_eq {l u : Int} (hl : l < INF) (hu : -INF < u) : Iv.new l u = if l ≤ u then ⟨l, u⟩ else Iv.empty := by
  unfold Iv.new Iv.singleton
  split
  · rw [if_pos (by omega)]
  · split
    · rename_i h
      subst h
      rw [if_pos (Int.le_refl _), if_pos (isFinite_iff.2 (by omega))]
    · rw [if_neg (by omega)]

/-- the sum of a loose interval and of a span: exact, or empty -/
theorem addSpan_looseIv (dbg : Bool) {i s : Iv} (hi : LooseIv i) (hs : WF s) (hf : FitsSum i s) :
    (WF (sumIv i s) ∧ i.addSpan dbg s = .ok (sumIv i s)) ∨
    ((∀ t, ¬ InExt t (sumIv i s)) ∧ i.addSpan dbg s = if dbg then .error .debugAssert else .ok Iv.empty) := by
  rcases i with ⟨l1, u1⟩
  rcases s with ⟨l2, u2⟩
  obtain ⟨h1, h2, h3, h4, h5⟩ := hi
  obtain ⟨g1, g2, g3, g4, g5⟩ := hs
  obtain ⟨f1, f2⟩ := hf
  simp only at *
  have e1 := add_lower (l := l1) (d := l2) (by ticks) h4 (by ticks) g4 f1
  have e2 := add_upper (l := u1) (d := u2) (by ticks) h5 (by ticks) g5 f2
  have e : (⟨l1, u1⟩ : Iv).addSpan dbg ⟨l2, u2⟩ = Iv.debugNonEmpty dbg (Iv.new (sumIv ⟨l1, u1⟩ ⟨l2, u2⟩).lower
      (sumIv ⟨l1, u1⟩ ⟨l2, u2⟩).upper) := by
    unfold Iv.addSpan
    rw [e1, ok_bind, e2, ok_bind]; rfl
  have hlo : (sumIv ⟨l1, u1⟩ ⟨l2, u2⟩).lower < INF := by simp only [sumIv]; split <;> ticks
  have hhi : -INF < (sumIv ⟨l1, u1⟩ ⟨l2, u2⟩).upper := by simp only [sumIv]; split <;> ticks
  rw [e, new_eq hlo hhi]
  by_cases c : (sumIv ⟨l1, u1⟩ ⟨l2, u2⟩).lower ≤ (sumIv ⟨l1, u1⟩ ⟨l2, u2⟩).upper
  · left
    have hw : WF (sumIv ⟨l1, u1⟩ ⟨l2, u2⟩) := by
      refine ⟨c, ?_, ?_, ?_, ?_⟩ <;> simp only [sumIv] <;> split <;> ticks
    refine ⟨hw, ?_⟩
    rw [if_pos c]
    unfold Iv.debugNonEmpty
    have : (sumIv ⟨l1, u1⟩ ⟨l2, u2⟩).isEmpty = false := hw.not_isEmpty
    show (if dbg && (sumIv ⟨l1, u1⟩ ⟨l2, u2⟩).isEmpty then _ else _) = _
    rw [this, Bool.and_false]; rfl
  · right
    constructor
    · intro t
      simp only [sumIv, InExt] at c ⊢
      (repeat' split at *) <;> ticks
    · rw [if_neg c]
      cases dbg <;> rfl

theorem unionConvex_empty {r : List Iv} (hr : Canon r) : TSet.unionConvex r (.iv Iv.empty) = .ok r := by
  have : (Convex.iv (Convex.iv Iv.empty).into).iter = [] := by decide
  rw [TSet.unionConvex, this]
  unfold UnionIter.new
  rw [UnionIter.drain_init_nilJ, TSet.fromIter_canon hr]

/-- the upper bounds of a canonical set are upper bounds of the intervals it was made from -/
theorem TSet.upper_of_pts {r P : List Iv} (hr : Canon r) (h : ∀ t, InSet t r ↔ InSet t P) {x : Iv}
    (hx : x ∈ r) : ∃ a ∈ P, a.upper = x.upper := by
  have hxle := (hr.wf x hx).le
  obtain ⟨a, ha, h1, h2⟩ := (h x.upper).1 ⟨x, hx, hxle, Int.le_refl _⟩
  refine ⟨a, ha, ?_⟩
  by_cases c : a.upper = x.upper
  · exact c
  · obtain ⟨y, hy, h3, h4⟩ := (h (x.upper + 1)).2 ⟨a, ha, by omega, by omega⟩
    rcases canon_sep hr hx hy with e | e | e
    · subst e; omega
    · omega
    · omega

/-- the intervals which are not empty -/
def goodSums (s : List Iv) (sp : Iv) : List Iv := (s.map (fun i => sumIv i sp)).filter (fun y => decide (WF y))

theorem addSpan_loose (dbg : Bool) {s : TSet} {sp : Iv} (hs : Loose s) (hsp : WF sp) (hf : ∀ i ∈ s, FitsSum i sp) :
    (∃ T, TSet.addSpan dbg s sp = .ok T ∧ Canon T ∧ (∀ t, InExtSet t T ↔ ∃ x ∈ s, InExt t (sumIv x sp)) ∧
      ∀ y ∈ T, ∃ x ∈ s, ∃ z ∈ s, y.lower = (sumIv x sp).lower ∧ y.upper = (sumIv z sp).upper) ∨
    (dbg = true ∧ TSet.addSpan dbg s sp = .error .debugAssert) := by
  have hgood : ∀ y ∈ goodSums s sp, WF y ∧ ∃ x ∈ s, y = sumIv x sp := by
    intro y hy
    simp only [goodSums, List.mem_filter, List.mem_map, decide_eq_true_eq] at hy
    obtain ⟨⟨x, hx, e⟩, hw⟩ := hy
    exact ⟨hw, x, hx, e.symm⟩
  have run : ∀ (l : List Iv), (∀ x ∈ l, LooseIv x) → l.Pairwise (fun a b => a.upper + 1 < b.lower) →
      (∀ i ∈ l, FitsSum i sp) → ∀ (P r : List Iv), Canon r →
      (∀ t, InSet t r ↔ InSet t P) → (∀ a ∈ P, ∀ b ∈ goodSums l sp, a.lower ≤ b.upper) →
      (∃ r', l.foldlM (fun r i => do TSet.unionConvex r (.iv (← i.addSpan dbg sp))) r = .ok r' ∧ Canon r' ∧
        ∀ t, InSet t r' ↔ InSet t P ∨ InSet t (goodSums l sp)) ∨
      (dbg = true ∧ l.foldlM (fun r i => do TSet.unionConvex r (.iv (← i.addSpan dbg sp))) r = .error .debugAssert) := by
    intro l
    induction l with
    | nil =>
      intro _ _ _ P r hr hp _
      exact Or.inl ⟨r, rfl, hr, fun t => by rw [hp]; simp [goodSums, InSet_nil]⟩
    | cons x xs ih =>
      intro hl hg hf P r hr hp ho
      rw [List.pairwise_cons] at hg
      have hx := hl x (by simp)
      rcases addSpan_looseIv dbg hx hsp (hf x (by simp)) with ⟨hw, e⟩ | ⟨hno, e⟩
      · have eg : goodSums (x :: xs) sp = sumIv x sp :: goodSums xs sp := by
          simp only [goodSums, List.map_cons, List.filter_cons, hw, decide_true, if_true]
        rw [eg] at ho
        obtain ⟨r1, e1, c1, p1⟩ := TSet.unionConvex_step hr hw (fun z hz => by
          obtain ⟨l, hl, hlt⟩ := TSet.dropLast_lt hr hz
          obtain ⟨a, ha, e⟩ := TSet.lower_of_pts hr hp hl
          have := ho a ha (sumIv x sp) (by simp)
          omega)
        have := ih (fun y hy => hl y (by simp [hy])) hg.2 (fun i hi => hf i (by simp [hi])) (P ++ [sumIv x sp]) r1 c1
          (fun t => by rw [p1, hp, InSet_append, InSet_singleton])
          (fun a ha b hb => by
            rcases List.mem_append.1 ha with h | h
            · exact ho a h b (by simp [hb])
            · simp only [List.mem_singleton] at h
              rw [h]
              have hgb : ∃ z ∈ xs, b = sumIv z sp := by
                simp only [goodSums, List.mem_filter, List.mem_map] at hb
                obtain ⟨⟨z, hz, e⟩, -⟩ := hb
                exact ⟨z, hz, e.symm⟩
              obtain ⟨z, hz, rfl⟩ := hgb
              have hsep := hg.1 z hz
              have fx := hf x (by simp)
              have fz := hf z (by simp [hz])
              have hzl := hl z (by simp [hz])
              have hwz : WF (sumIv z sp) := by
                simp only [goodSums, List.mem_filter, decide_eq_true_eq] at hb
                exact hb.2
              obtain ⟨a1, a2, a3, a4, a5⟩ := hx
              obtain ⟨b1, b2, b3, b4, b5⟩ := hzl
              obtain ⟨s1, s2, s3, s4, s5⟩ := hsp
              have := hwz.lt_hi
              have := hw.lo_lt
              simp only [sumIv] at *
              repeat' split
              all_goals ticks)
        rcases this with ⟨r', e2, c2, p2⟩ | ⟨hd, e2⟩
        · left
          refine ⟨r', ?_, c2, fun t => ?_⟩
          · rw [List.foldlM_cons, e]
            simp only [ok_bind]
            rw [e1, ok_bind]; exact e2
          · rw [p2, eg, InSet_append, InSet_singleton, InSet_cons, or_assoc]
        · right
          refine ⟨hd, ?_⟩
          rw [List.foldlM_cons, e]
          simp only [ok_bind]
          rw [e1, ok_bind]; exact e2
      · have eg : goodSums (x :: xs) sp = goodSums xs sp := by
          have : ¬ WF (sumIv x sp) := fun hw => by
            obtain ⟨t, ht, h1, h2⟩ := hw.exists_date
            exact hno t ⟨Or.inr h1, Or.inr h2⟩
          simp only [goodSums, List.map_cons, List.filter_cons, this, decide_false, Bool.false_eq_true, if_false]
        rw [eg] at ho ⊢
        cases dbg with
        | true =>
          right
          refine ⟨rfl, ?_⟩
          rw [List.foldlM_cons, e]; rfl
        | false =>
          have := ih (fun y hy => hl y (by simp [hy])) hg.2 (fun i hi => hf i (by simp [hi])) P r hr hp ho
          rcases this with ⟨r', e2, c2, p2⟩ | ⟨hd, e2⟩
          · left
            refine ⟨r', ?_, c2, p2⟩
            rw [List.foldlM_cons, e]
            simp only [Bool.false_eq_true, if_false, ok_bind]
            rw [unionConvex_empty hr, ok_bind]; exact e2
          · cases hd
  rcases run s hs.wf hs.gap hf [] [] Canon_nil (fun t => Iff.rfl) (by simp) with ⟨T, e, c, p⟩ | h
  · left
    have p' : ∀ t, InSet t T ↔ InSet t (goodSums s sp) := fun t => by rw [p]; simp [InSet_nil]
    refine ⟨T, e, c, fun t => ?_, fun y hy => ?_⟩
    · rw [inExtSet_congr c (fun i hi => (hgood i hi).1) p']
      constructor
      · rintro ⟨y, hy, h⟩
        obtain ⟨-, x, hx, rfl⟩ := hgood y hy
        exact ⟨x, hx, h⟩
      · rintro ⟨x, hx, h⟩
        refine ⟨sumIv x sp, ?_, h⟩
        simp only [goodSums, List.mem_filter, List.mem_map, decide_eq_true_eq]
        refine ⟨⟨x, hx, rfl⟩, ?_⟩
        rcases addSpan_looseIv dbg (hs.wf x hx) hsp (hf x hx) with ⟨hw, -⟩ | ⟨hno, -⟩
        · exact hw
        · exact absurd h (hno t)
    · obtain ⟨a, ha, e1⟩ := TSet.lower_of_pts c p' hy
      obtain ⟨b, hb, e2⟩ := TSet.upper_of_pts c p' hy
      obtain ⟨-, x, hx, rfl⟩ := hgood a ha
      obtain ⟨-, z, hz, rfl⟩ := hgood b hb
      exact ⟨x, hx, z, hz, e1.symm, e2.symm⟩
  · right; exact h

end Chrono
