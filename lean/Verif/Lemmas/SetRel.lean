import Verif.Lemmas.Set
import Verif.Spec.Iter

set_option linter.unusedSimpArgs false

/-!
# Sets: lookups, truncation, bounds, iterator lengths
-/

namespace Chrono
open Spec

/-! ## Lookup -/

theorem contains_iff {s : List Iv} (hs : Canon s) (w : Convex) :
    TSet.contains s w = true ↔
      ∃ i ∈ s, i.upper ≥ w.lower ∧ i.lower ≤ w.lower ∧ w.upper ≤ i.upper := by
  induction s with
  | nil => simp [TSet.contains]
  | cons x xs ih =>
    obtain ⟨hx, hxs, hcx⟩ := Canon_cons.1 hs
    by_cases c : x.upper ≥ w.lower
    · have : TSet.contains (x :: xs) w = (Convex.iv x).contains w := by
        simp [TSet.contains, List.find?_cons, c]
      rw [this]
      have e : (Convex.iv x).contains w = true ↔ (x.lower ≤ w.lower ∧ w.upper ≤ x.upper) := by
        have e1 : (Convex.iv x).lower = x.lower := rfl
        have e2 : (Convex.iv x).upper = x.upper := rfl
        simp only [Convex.contains, Convex.containsBounds, Bool.and_eq_true, decide_eq_true_eq, e1, e2]
      rw [e]
      constructor
      · rintro ⟨h1, h2⟩; exact ⟨x, by simp, c, h1, h2⟩
      · rintro ⟨i, hi, h0, h1, h2⟩
        rcases List.mem_cons.1 hi with e | e
        · subst e; exact ⟨h1, h2⟩
        · have := hxs i e; omega
    · have : TSet.contains (x :: xs) w = TSet.contains xs w := by
        simp [TSet.contains, List.find?_cons, c]
      rw [this, ih hcx]
      constructor
      · rintro ⟨i, hi, h⟩; exact ⟨i, by simp [hi], h⟩
      · rintro ⟨i, hi, h⟩
        rcases List.mem_cons.1 hi with e | e
        · subst e; exact absurd h.1 c
        · exact ⟨i, e, h⟩

theorem overlaps_iff {s : List Iv} (hs : Canon s) (w : Convex) :
    TSet.overlaps s w = true ↔ ∃ i ∈ s, i.upper ≥ w.lower ∧ i.lower ≤ w.upper := by
  induction s with
  | nil => simp [TSet.overlaps]
  | cons x xs ih =>
    obtain ⟨hx, hxs, hcx⟩ := Canon_cons.1 hs
    have hle := hx.le
    by_cases c : x.upper ≥ w.lower
    · have : TSet.overlaps (x :: xs) w = decide (x.lower ≤ w.upper) := by
        simp [TSet.overlaps, List.find?_cons, c]
      rw [this, decide_eq_true_eq]
      constructor
      · intro h; exact ⟨x, by simp, c, h⟩
      · rintro ⟨i, hi, h1, h2⟩
        rcases List.mem_cons.1 hi with e | e
        · subst e; exact h2
        · have := hxs i e; omega
    · have : TSet.overlaps (x :: xs) w = TSet.overlaps xs w := by
        simp [TSet.overlaps, List.find?_cons, c]
      rw [this, ih hcx]
      constructor
      · rintro ⟨i, hi, h⟩; exact ⟨i, by simp [hi], h⟩
      · rintro ⟨i, hi, h⟩
        rcases List.mem_cons.1 hi with e | e
        · subst e; exact absurd h.1 c
        · exact ⟨i, e, h⟩

/-- two intervals of a canonical set are the same, or separated -/
theorem canon_sep {r : List Iv} (hr : Canon r) {x y : Iv} (hx : x ∈ r) (hy : y ∈ r) :
    x = y ∨ x.upper + 1 < y.lower ∨ y.upper + 1 < x.lower := by
  have hr' := hr.gap
  clear hr
  induction r with
  | nil => simp at hx
  | cons z zs ih =>
    rw [List.pairwise_cons] at hr'
    rcases List.mem_cons.1 hx with e1 | e1 <;> rcases List.mem_cons.1 hy with e2 | e2
    · left; rw [e1, e2]
    · subst e1; right; left; exact hr'.1 y e2
    · subst e2; right; right; exact hr'.1 x e1
    · exact ih e1 e2 hr'.2

/-- a run of consecutive points of a canonical set lies in one interval -/
theorem run_in_one {s : List Iv} (hs : Canon s) {l u : Int} (hlu : l ≤ u)
    (h : ∀ t, l ≤ t → t ≤ u → InSet t s) : ∃ i ∈ s, i.lower ≤ l ∧ u ≤ i.upper := by
  obtain ⟨i, hi, h1, h2⟩ := h l (Int.le_refl _) hlu
  refine ⟨i, hi, h1, ?_⟩
  by_cases c : u ≤ i.upper
  · exact c
  · exfalso
    obtain ⟨j, hj, h3, h4⟩ := h (i.upper + 1) (by omega) (by omega)
    rcases canon_sep hs hi hj with e | e | e
    · subst e; omega
    · omega
    · omega

/-! ## Splitting -/

theorem findIdx_split {p : Iv → Bool} {s : List Iv} {k : Nat} (h : s.findIdx? p = some k) :
    ∃ A x B, s = A ++ x :: B ∧ A.length = k ∧ p x = true ∧ ∀ a ∈ A, p a = false := by
  induction s generalizing k with
  | nil => simp at h
  | cons y ys ih =>
    rw [List.findIdx?_cons] at h
    split at h
    · rename_i hp
      simp only [Option.some.injEq] at h
      exact ⟨[], y, ys, rfl, by simpa using h, hp, by simp⟩
    · rename_i hp
      cases hf : ys.findIdx? p with
      | none => simp [hf] at h
      | some k' =>
        simp only [hf, Option.map_some, Option.some.injEq] at h
        obtain ⟨A, x, B, e1, e2, e3, e4⟩ := ih hf
        refine ⟨y :: A, x, B, by simp [e1], by simp [e2, h], e3, ?_⟩
        intro a ha
        rcases List.mem_cons.1 ha with e | e
        · subst e; simpa using hp
        · exact e4 a e

theorem findIdx_none {p : Iv → Bool} {s : List Iv} (h : s.findIdx? p = none) :
    ∀ a ∈ s, p a = false := by
  intro a ha
  have := List.findIdx?_eq_none_iff.1 h a ha
  simpa using this

theorem canon_append {A B : List Iv} :
    Canon (A ++ B) ↔ Canon A ∧ Canon B ∧ ∀ a ∈ A, ∀ b ∈ B, a.upper + 1 < b.lower := by
  constructor
  · rintro ⟨h1, h2⟩
    rw [List.pairwise_append] at h2
    exact ⟨⟨fun i hi => h1 i (by simp [hi]), h2.1⟩, ⟨fun i hi => h1 i (by simp [hi]), h2.2.1⟩, h2.2.2⟩
  · rintro ⟨⟨h1, h2⟩, ⟨h3, h4⟩, h5⟩
    refine ⟨fun i hi => ?_, List.pairwise_append.2 ⟨h2, h4, h5⟩⟩
    rcases List.mem_append.1 hi with e | e
    · exact h1 i e
    · exact h3 i e

theorem truncateBefore_spec {s : List Iv} (hs : Canon s) {c : Int} (hc : -INF ≤ c) (hc' : c < INF) :
    Canon (TSet.truncateBefore s c).1 ∧
    (∀ t, InSet t (TSet.truncateBefore s c).1 ↔ InSet t s ∧ c ≤ t) ∧
    ((TSet.truncateBefore s c).2 = true ↔ (TSet.truncateBefore s c).1 ≠ s) := by
  have key : ∀ (x : Iv) (B : List Iv), Canon (x :: B) → x.upper ≥ c →
      Canon ((x.truncateBefore c).1 :: B) ∧
      (∀ t, InSet t ((x.truncateBefore c).1 :: B) ↔ InSet t (x :: B) ∧ c ≤ t) ∧
      ((x.truncateBefore c).2 = true ↔ (x.truncateBefore c).1 ≠ x) := by
    intro x B h hx
    obtain ⟨hw, hB, hcB⟩ := Canon_cons.1 h
    have low : ∀ t, InSet t B → x.upper + 1 < t := fun t h' => InterIter.low_of_canon h h'
    by_cases c1 : c ≤ x.lower
    · have e : x.truncateBefore c = (x, false) := by simp [Iv.truncateBefore, c1]
      rw [e]
      refine ⟨h, fun t => ?_, by simp⟩
      have := low t
      have := hw.le
      simp only [InSet_cons, InIv]
      grind
    · have e : x.truncateBefore c = (⟨c, x.upper⟩, true) := by
        have : ¬ x.upper < c := by omega
        simp [Iv.truncateBefore, c1, this]
      rw [e]
      refine ⟨Canon_cons.2 ⟨?_, hB, hcB⟩, fun t => ?_, ?_⟩
      · obtain ⟨g1, g2, g3, g4, g5⟩ := hw
        constructor <;> simp only <;> omega
      · have := low t
        have := hw.le
        simp only [InSet_cons, InIv]
        grind
      · simp only [true_iff]
        intro h'
        have := congrArg Iv.lower h'
        simp only at this
        omega
  unfold TSet.truncateBefore
  cases hf : s.findIdx? (fun i => decide (i.upper ≥ c)) with
  | none =>
    have hn := findIdx_none hf
    simp only
    cases s with
    | nil => simp [InSet_nil, Canon_nil, TSet.isEmpty]
    | cons x xs =>
      simp only [TSet.isEmpty, List.isEmpty_cons, Bool.false_eq_true, if_false]
      refine ⟨Canon_nil, fun t => ?_, by simp⟩
      simp only [InSet_nil, false_iff]
      rintro ⟨⟨i, hi, h1, h2⟩, h3⟩
      have := hn i hi
      simp only [decide_eq_false_iff_not] at this
      omega
  | some k =>
    obtain ⟨A, x, B, e1, e2, e3, e4⟩ := findIdx_split hf
    subst e1
    simp only [decide_eq_true_eq] at e3
    obtain ⟨hA, hxB, hsep⟩ := canon_append.1 hs
    cases A with
    | nil =>
      simp only [List.length_nil] at e2
      subst e2
      simp only [List.nil_append] at *
      obtain ⟨k1, k2, k3⟩ := key x B hs e3
      refine ⟨k1, k2, k3.trans ?_⟩
      simp
    | cons y A' =>
      cases k with
      | zero => simp at e2
      | succ k =>
        have hd : List.drop (k + 1) (y :: A' ++ x :: B) = x :: B := by
          rw [← e2]; exact List.drop_left
        simp only [hd]
        obtain ⟨k1, k2, k3⟩ := key x B hxB e3
        refine ⟨k1, fun t => ?_, ?_⟩
        · rw [k2, InSet_append]
          constructor
          · rintro ⟨h1, h2⟩; exact ⟨Or.inr h1, h2⟩
          · rintro ⟨h1 | h1, h2⟩
            · obtain ⟨i, hi, h3, h4⟩ := h1
              have := e4 i hi
              simp only [decide_eq_false_iff_not] at this
              omega
            · exact ⟨h1, h2⟩
        · simp only [true_iff]
          intro h'
          have := congrArg List.length h'
          simp only [List.length_cons, List.length_append] at this
          omega

theorem mapLast_append (f : Iv → Iv) (A : List Iv) (x : Iv) :
    TSet.mapLast f (A ++ [x]) = A ++ [f x] := by
  induction A with
  | nil => rfl
  | cons y ys ih =>
    cases ys with
    | nil => rfl
    | cons z zs => simp only [List.cons_append, TSet.mapLast]; rw [← List.cons_append, ih]; rfl

theorem truncateAfter_spec {s : List Iv} (hs : Canon s) {c : Int} (hc : -INF < c) (hc' : c ≤ INF) :
    Canon (TSet.truncateAfter s c).1 ∧
    (∀ t, InSet t (TSet.truncateAfter s c).1 ↔ InSet t s ∧ t ≤ c) ∧
    ((TSet.truncateAfter s c).2 = true ↔ (TSet.truncateAfter s c).1 ≠ s) := by
  have key : ∀ (A : List Iv) (x : Iv), Canon (A ++ [x]) → x.lower ≤ c →
      Canon (A ++ [(x.truncateAfter c).1]) ∧
      (∀ t, InSet t (A ++ [(x.truncateAfter c).1]) ↔ InSet t (A ++ [x]) ∧ t ≤ c) ∧
      ((x.truncateAfter c).2 = true ↔ (x.truncateAfter c).1 ≠ x) := by
    intro A x h hx
    obtain ⟨hA, hcx, hsep⟩ := canon_append.1 h
    have hw := (Canon_cons.1 hcx).1
    have low : ∀ t, InSet t A → t < x.lower := by
      rintro t ⟨i, hi, h1, h2⟩
      have := hsep i hi x (by simp)
      omega
    by_cases c1 : x.upper ≤ c
    · have e : x.truncateAfter c = (x, false) := by simp [Iv.truncateAfter, c1]
      rw [e]
      refine ⟨h, fun t => ?_, by simp⟩
      have := low t
      have := hw.le
      simp only [InSet_append, InSet_singleton, InIv]
      grind
    · have e : x.truncateAfter c = (⟨x.lower, c⟩, true) := by
        have : ¬ c < x.lower := by omega
        simp [Iv.truncateAfter, c1, this]
      rw [e]
      refine ⟨canon_append.2 ⟨hA, Canon_cons.2 ⟨?_, by simp, Canon_nil⟩, ?_⟩, fun t => ?_, ?_⟩
      · obtain ⟨g1, g2, g3, g4, g5⟩ := hw
        constructor <;> simp only <;> omega
      · intro a ha b hb
        simp only [List.mem_singleton] at hb
        subst hb
        exact hsep a ha x (by simp)
      · have := low t
        have := hw.le
        simp only [InSet_append, InSet_singleton, InIv]
        grind
      · simp only [true_iff]
        intro h'
        have := congrArg Iv.upper h'
        simp only at this
        omega
  unfold TSet.truncateAfter
  cases hf : s.reverse.findIdx? (fun i => decide (i.lower ≤ c)) with
  | none =>
    have hn := findIdx_none hf
    simp only [TSet.rposition, hf, Option.map_none]
    cases s with
    | nil => simp [InSet_nil, Canon_nil, TSet.isEmpty]
    | cons x xs =>
      simp only [TSet.isEmpty, List.isEmpty_cons, Bool.false_eq_true, if_false]
      refine ⟨Canon_nil, fun t => ?_, by simp⟩
      simp only [InSet_nil, false_iff]
      rintro ⟨⟨i, hi, h1, h2⟩, h3⟩
      have := hn i (List.mem_reverse.2 hi)
      simp only [decide_eq_false_iff_not] at this
      omega
  | some k =>
    obtain ⟨A, x, B, e1, e2, e3, e4⟩ := findIdx_split hf
    have es : s = (B.reverse ++ [x]) ++ A.reverse := by
      have := congrArg List.reverse e1
      simpa using this
    simp only [decide_eq_true_eq] at e3
    simp only [TSet.rposition, hf, Option.map_some]
    have hlen : s.length = B.length + 1 + A.length := by rw [es]; simp; omega
    have hpos : s.length - 1 - k = B.length := by omega
    rw [hpos]
    rw [es] at hs
    obtain ⟨hBx, hAc, hsep⟩ := canon_append.1 hs
    obtain ⟨k1, k2, k3⟩ := key B.reverse x hBx e3
    by_cases c1 : A = []
    · subst c1
      simp only [List.reverse_nil, List.append_nil] at es
      rw [if_pos (by rw [hlen]; rfl)]
      have hl : s.getLast? = some x := by rw [es]; simp
      simp only [hl]
      rw [es, mapLast_append]
      refine ⟨k1, k2, k3.trans ?_⟩
      simp
    · have hAl : 0 < A.length := List.length_pos_iff.2 c1
      rw [if_neg (by omega)]
      have ht : s.take (B.length + 1) = B.reverse ++ [x] := by
        rw [es, List.take_left' (by simp)]
      simp only [ht, mapLast_append]
      refine ⟨k1, fun t => ?_, ?_⟩
      · rw [k2, es, InSet_append (b := A.reverse)]
        constructor
        · rintro ⟨h1, h2⟩; exact ⟨Or.inl h1, h2⟩
        · rintro ⟨h1 | h1, h2⟩
          · exact ⟨h1, h2⟩
          · obtain ⟨i, hi, h3, h4⟩ := h1
            have := e4 i (List.mem_reverse.1 hi)
            simp only [decide_eq_false_iff_not] at this
            omega
      · simp only [true_iff]
        intro h'
        have := congrArg List.length h'
        simp only [List.length_append, List.length_reverse, List.length_singleton] at this
        omega

/-! ## Bounds -/

theorem lowerBound_cons (x : Iv) (xs : List Iv) : TSet.lowerBound (x :: xs) = x.lower := by
  simp [TSet.lowerBound]

/-- the bounds of a non-empty canonical set -/
theorem canon_bounds {s : List Iv} (hs : Canon s) (hne : s ≠ []) :
    WF ⟨TSet.lowerBound s, TSet.upperBound s⟩ ∧ InSet (TSet.lowerBound s) s ∧
    InSet (TSet.upperBound s) s ∧ ∀ t, InSet t s → TSet.lowerBound s ≤ t ∧ t ≤ TSet.upperBound s := by
  obtain ⟨r, z, rfl⟩ := (List.eq_nil_or_concat s).resolve_left hne
  rw [List.concat_eq_append] at hs ⊢
  rw [TSet.upperBound_append]
  obtain ⟨hr, hz, hsep⟩ := canon_append.1 hs
  have hzw := (Canon_cons.1 hz).1
  have hup : ∀ t, InSet t (r ++ [z]) → t ≤ z.upper := by
    intro t ht
    rcases InSet_append.1 ht with ⟨i, hi, h1, h2⟩ | h
    · have := hsep i hi z (by simp); have := hzw.le; omega
    · exact (InSet_singleton.1 h).2
  have hzin : InSet z.upper (r ++ [z]) :=
    InSet_append.2 (Or.inr (InSet_singleton.2 ⟨hzw.le, Int.le_refl _⟩))
  cases r with
  | nil =>
    simp only [List.nil_append, lowerBound_cons, InSet_singleton] at *
    exact ⟨hzw, ⟨Int.le_refl _, hzw.le⟩, ⟨hzw.le, Int.le_refl _⟩, fun t h => h⟩
  | cons x xs =>
    simp only [List.cons_append, lowerBound_cons] at *
    have hxw := (Canon_cons.1 hs).1
    have hlo : ∀ t, InSet t (x :: (xs ++ [z])) → x.lower ≤ t := by
      intro t ht
      rcases InSet_cons.1 ht with h | h
      · exact h.1
      · have := InterIter.low_of_canon hs h; have := hxw.le; omega
    refine ⟨?_, InSet_cons.2 (Or.inl ⟨Int.le_refl _, hxw.le⟩), hzin, fun t ht => ⟨hlo t ht, hup t ht⟩⟩
    have := hlo _ hzin
    obtain ⟨g1, g2, g3, g4, g5⟩ := hzw
    obtain ⟨k1, k2, k3, k4, k5⟩ := hxw
    constructor <;> simp only <;> omega

/-- near a bound of a canonical set there is a date -/
theorem canon_date_low {s : List Iv} (hs : Canon s) {l : Int} (h : InSet l s) (hl : l < INF) :
    ∃ t, Date t ∧ InSet t s ∧ (t = l ∨ (l = -INF ∧ t = -INF + 1)) := by
  obtain ⟨i, hi, h1, h2⟩ := h
  obtain ⟨g1, g2, g3, g4, g5⟩ := hs.wf i hi
  by_cases c : l = -INF
  · exact ⟨-INF + 1, by decide, ⟨i, hi, by omega, by omega⟩, Or.inr ⟨c, rfl⟩⟩
  · exact ⟨l, ⟨by omega, hl⟩, ⟨i, hi, h1, h2⟩, Or.inl rfl⟩

theorem canon_date_high {s : List Iv} (hs : Canon s) {l : Int} (h : InSet l s) (hl : -INF < l) :
    ∃ t, Date t ∧ InSet t s ∧ (t = l ∨ (l = INF ∧ t = INF - 1)) := by
  obtain ⟨i, hi, h1, h2⟩ := h
  obtain ⟨g1, g2, g3, g4, g5⟩ := hs.wf i hi
  by_cases c : l = INF
  · exact ⟨INF - 1, by decide, ⟨i, hi, by omega, by omega⟩, Or.inr ⟨c, rfl⟩⟩
  · exact ⟨l, ⟨hl, by omega⟩, ⟨i, hi, h1, h2⟩, Or.inl rfl⟩

/-- a non-empty window as a canonical list of intervals -/
theorem window_canon {W : Window} (h : NonEmptyWindow W) :
    Canon W.iter ∧ W.iter ≠ [] ∧ TSet.lowerBound W.iter = W.lower ∧ TSet.upperBound W.iter = W.upper ∧
    ∀ t, Date t → (InWindow t W ↔ InSet t W.iter) := by
  cases W with
  | set s => exact ⟨h.1, h.2, rfl, rfl, fun t _ => Iff.rfl⟩
  | conv w =>
    obtain ⟨hp, t, ht, hin⟩ := h
    rcases hp.cases with ⟨e1, e2, e3, e4, e5⟩ | ⟨e1, e2, e3, e4⟩
    · exact absurd hin (e5 t ht)
    · have e : (Window.conv w).iter = [⟨w.lower, w.upper⟩] := by
        simp [Window.iter, Convex.iter, e1]
      rw [e]
      refine ⟨Canon_cons.2 ⟨e2, by simp, Canon_nil⟩, by simp, rfl, rfl, fun t ht => ?_⟩
      rw [InSet_singleton]; exact e4 t ht

/-! ## Lengths -/

theorem UnionIter.drain_length (n : Nat) : ∀ s : UnionIter, s.size ≤ n → s.drain.length ≤ s.size := by
  induction n with
  | zero =>
    intro s hs
    rw [UnionIter.drain_eq]
    rcases h : s.step with ⟨t, s'⟩
    cases t with
    | ret o =>
      cases o with
      | none => simp
      | some x => have := UnionIter.step_some_size h; omega
    | loop => have := UnionIter.step_loop_size h; omega
  | succ n ih =>
    intro s hs
    rw [UnionIter.drain_eq]
    rcases h : s.step with ⟨t, s'⟩
    cases t with
    | ret o =>
      cases o with
      | none => simp
      | some x =>
        have := UnionIter.step_some_size h
        have := ih s' (by omega)
        simp only [List.length_cons]; omega
    | loop =>
      have := UnionIter.step_loop_size h
      have := ih s' (by omega)
      simp only; omega

theorem InterIter.drain_length (n : Nat) : ∀ s : InterIter, s.size ≤ n → s.drain.length ≤ s.size := by
  induction n with
  | zero =>
    intro s hs
    rw [InterIter.drain_eq]
    rcases h : s.step with ⟨t, s'⟩
    cases t with
    | ret o =>
      cases o with
      | none => simp
      | some x => have := InterIter.step_some_size h; omega
    | loop => have := InterIter.step_loop_size h; omega
  | succ n ih =>
    intro s hs
    rw [InterIter.drain_eq]
    rcases h : s.step with ⟨t, s'⟩
    cases t with
    | ret o =>
      cases o with
      | none => simp
      | some x =>
        have := InterIter.step_some_size h
        have := ih s' (by omega)
        simp only [List.length_cons]; omega
    | loop =>
      have := InterIter.step_loop_size h
      have := ih s' (by omega)
      simp only; omega

theorem complTail_length (p : Int) (l : List Iv) :
    l.length ≤ (TSet.complTail p l).length ∧ (TSet.complTail p l).length ≤ l.length + 1 := by
  induction l generalizing p with
  | nil => simp only [TSet.complTail]; split <;> simp
  | cons x xs ih => simp only [TSet.complTail, List.length_cons]; have := ih (justAfter x.upper); omega

/-! ## Exhausted iterators stay exhausted -/

theorem UnionIter.step_none {s s' : UnionIter} (h : s.step = (.ret none, s')) :
    s'.step = (.ret none, s') := by
  rcases s with ⟨i, j, st, tmp⟩
  cases st <;> cases i <;> cases j <;> simp only [step] at h <;>
    (repeat' split at h) <;> simp_all <;> (try (rw [← h])) <;> simp [step]

theorem UnionIter.next_none {s s' : UnionIter} (h : s.next = (none, s')) : s'.next = (none, s') := by
  fun_induction UnionIter.next s with
  | case1 s o s1 hs =>
    cases h
    have := UnionIter.step_none hs
    rw [UnionIter.next]; split <;> simp_all
  | case2 s s1 hs ih => exact ih h

theorem InterIter.step_none {s s' : InterIter} (h : s.step = (.ret none, s')) :
    s'.step = (.ret none, s') := by
  rcases s with ⟨i, j, st, tmp⟩
  cases st <;> cases i <;> cases j <;> simp only [step] at h <;>
    (repeat' split at h) <;> simp_all <;> (try (rw [← h])) <;> simp [step]

theorem InterIter.next_none {s s' : InterIter} (h : s.next = (none, s')) : s'.next = (none, s') := by
  fun_induction InterIter.next s with
  | case1 s o s1 hs =>
    cases h
    have := InterIter.step_none hs
    rw [InterIter.next]; split <;> simp_all
  | case2 s s1 hs ih => exact ih h

theorem ComplIter.scan_none {l : Int} {xs : List Iv} {s' : ComplIter}
    (h : ComplIter.scan l xs = (none, s')) : s' = ⟨[], INF⟩ := by
  induction xs with
  | nil =>
    simp only [scan] at h
    split at h
    · rename_i c
      rw [isFutureInfinite_iff] at c
      cases h; rw [c]
    · cases h
  | cons y ys ih =>
    simp only [scan] at h
    split at h
    · cases h
    · exact ih h

theorem ComplIter.next_none {s s' : ComplIter} (h : s.next = (none, s')) : s'.next = (none, s') := by
  have : s' = ⟨[], INF⟩ := by
    rcases s with ⟨it, lo⟩
    simp only [next] at h
    split at h
    · cases it with
      | nil => exact scan_none h
      | cons y ys =>
        simp only at h
        split at h
        · exact scan_none h
        · cases h
    · exact scan_none h
  rw [this]; decide

/-! ## The complement iterator between two calls -/

/-- state of the complement iterator after its first call, over a canonical input -/
def ComplIter.Mid (s : ComplIter) : Prop :=
  ∃ u, -INF < u ∧ u ≤ INF ∧ Canon s.iter ∧ (∀ y ∈ s.iter, u + 1 < y.lower) ∧ s.lower = justAfter u

theorem ComplIter.scan_mid {u : Int} {xs : List Iv} (h1 : -INF < u) (h2 : u ≤ INF) (hc : Canon xs)
    (hg : ∀ y ∈ xs, u + 1 < y.lower) : (ComplIter.scan (justAfter u) xs).2.Mid := by
  cases xs with
  | nil =>
    have fin : ComplIter.Mid ⟨[], INF⟩ := ⟨INF, by decide, by decide, Canon_nil, by simp, by decide⟩
    simp only [scan]
    split
    · rename_i c
      rw [isFutureInfinite_iff] at c
      rw [c]; exact fin
    · exact fin
  | cons y ys =>
    obtain ⟨hy, hys, hcy⟩ := Canon_cons.1 hc
    have g := hg y (by simp)
    obtain ⟨g1, g2, g3, g4, g5⟩ := hy
    have hja : justAfter u < y.lower := by rw [justAfter_date (by constructor <;> omega)]; exact g
    simp only [scan, if_pos hja]
    exact ⟨y.upper, g5, g3, hcy, hys, rfl⟩

theorem ComplIter.next_mid {s : ComplIter} (h : s.Mid) : s.next.2.Mid := by
  obtain ⟨u, h1, h2, hc, hg, hl⟩ := h
  rcases s with ⟨it, lo⟩
  simp only at *
  subst hl
  have : isPastInfinite (justAfter u) = false := by
    rw [← Bool.not_eq_true, isPastInfinite_iff, justAfter_eq]; split <;> ticks
  simp only [next, this, Bool.false_eq_true, if_false]
  exact scan_mid h1 h2 hc hg

theorem ComplIter.next_new {s : List Iv} (hs : Canon s) : (ComplIter.new s).next.2.Mid := by
  have h0 : isPastInfinite (-INF) = true := by decide
  simp only [new, next, h0, if_true]
  cases s with
  | nil => exact ⟨INF, by decide, by decide, Canon_nil, by simp [scan, show isFutureInfinite (-INF) = false by decide], by decide⟩
  | cons x xs =>
    obtain ⟨⟨g1, g2, g3, g4, g5⟩, hys, hcy⟩ := Canon_cons.1 hs
    simp only
    split
    · exact scan_mid g5 g3 hcy hys
    · exact ⟨x.upper, g5, g3, hcy, hys, rfl⟩

theorem ComplIter.after_mid {s : ComplIter} (h : s.Mid) (k : Nat) : (ComplIter.after k s).Mid := by
  induction k generalizing s with
  | zero => exact h
  | succ k ih => exact ih (next_mid h)

end Chrono
