import Verif.Props.Set
import Verif.Props.SetArith

set_option linter.unusedSimpArgs false

/-!
# What is lost by the union of a set and a window, and by collecting intervals (C30, C38)
-/

namespace Chrono
open Spec

/-- C30 for `set | window`, decided exactly: the result holds the window and the intervals of the set up to the first one which ends after
the window, nothing else. So no date is lost iff at most one interval, the last one, ends after the window. -/
theorem C30_union_convex_exact (a : TSet) (w : Convex) (ha : Canon a) (hw : Proper w) (hne : ∃ t, Date t ∧ InConvex t w) :
    ∃ r, TSet.unionConvex a w = .ok r ∧ Canon r ∧
      (∀ t, Date t → (InSet t r ↔ InConvex t w ∨ ∃ z ∈ a, InIv t z ∧ ∀ x ∈ a, w.upper < x.upper → z.upper ≤ x.upper)) ∧
      ((∀ t, Date t → (InSet t r ↔ InSet t a ∨ InConvex t w)) ↔ ∀ x ∈ a.dropLast, x.upper ≤ w.upper) := by
  rcases hw.cases with ⟨e1, e2, e3, e4, e5⟩ | ⟨e1, e2, e3, e4⟩
  · obtain ⟨t, ht, h⟩ := hne
    exact absurd h (e5 t ht)
  have hi : (Convex.iv w.into).iter = [⟨w.lower, w.upper⟩] := by rw [e3]; exact TSet.iter_wf e2
  have hc : Canon [⟨w.lower, w.upper⟩] := Canon_cons.2 ⟨e2, by simp, Canon_nil⟩
  have key : ∀ t, Date t → (InSet t (UnionIter.new a [⟨w.lower, w.upper⟩]).drain ↔
      InConvex t w ∨ ∃ z ∈ a, InIv t z ∧ ∀ x ∈ a, w.upper < x.upper → z.upper ≤ x.upper) := fun t ht => by
    rw [UnionIter.points_one ha e2, e4 t ht]; rfl
  refine ⟨_, by rw [TSet.unionConvex, hi]; exact TSet.fromIter_canon (UnionIter.good_new ha hc).1, (UnionIter.good_new ha hc).1, key,
    fun h x hx => ?_, fun h t ht => ?_⟩
  · have hmem := (List.dropLast_sublist a).subset hx
    obtain ⟨l, hl, hlt⟩ := TSet.dropLast_lt ha hx
    obtain ⟨t, ht, h1⟩ := (ha.wf l hl).exists_date
    have hll := (ha.wf l hl).le
    have hxl := (ha.wf x hmem).le
    apply Decidable.byContradiction
    intro c
    have h1' : l.lower ≤ t ∧ t ≤ l.upper := h1
    rcases (key t ht).1 ((h t ht).2 (Or.inl ⟨l, hl, h1⟩)) with h2 | ⟨z, hz, h2, h3⟩
    · have h2' : w.lower ≤ t ∧ t ≤ w.upper := (e4 t ht).1 h2
      omega
    · have := h3 x hmem (by omega)
      have h2' : z.lower ≤ t ∧ t ≤ z.upper := h2
      omega
  · rw [key t ht]
    constructor
    · rintro (h1 | ⟨z, hz, h1, -⟩)
      · exact Or.inr h1
      · exact Or.inl ⟨z, hz, h1⟩
    · rintro (⟨z, hz, h1⟩ | h1)
      · refine Or.inr ⟨z, hz, h1, fun x hx hlt => ?_⟩
        by_cases c : x ∈ a.dropLast
        · have := h x c; omega
        · by_cases c' : z = x
          · subst c'; exact Int.le_refl _
          · have hs := UnionIter.ends_increase ha
            have hne : a ≠ [] := by rintro rfl; cases hx
            have hd := List.dropLast_concat_getLast hne
            have ez : z ∈ a.dropLast := by
              rw [← hd, List.mem_append] at hz hx
              rcases hz with hz | hz
              · exact hz
              · rcases hx with hx | hx
                · exact absurd hx c
                · exact absurd ((List.mem_singleton.1 hz).trans (List.mem_singleton.1 hx).symm) c'
            have := h z ez
            omega
      · exact Or.inl h1

example : Canon [⟨0, 1⟩, ⟨10, 11⟩, ⟨20, 21⟩] ∧ Proper (.iv ⟨5, 6⟩) ∧ Date 5 ∧ InConvex 5 (.iv ⟨5, 6⟩) ∧
    TSet.unionConvex [⟨0, 1⟩, ⟨10, 11⟩, ⟨20, 21⟩] (.iv ⟨5, 6⟩) = .ok [⟨0, 1⟩, ⟨5, 6⟩, ⟨10, 11⟩] ∧
    TSet.unionConvex [⟨0, 1⟩, ⟨10, 11⟩, ⟨20, 21⟩] (.iv ⟨5, 11⟩) = .ok [⟨0, 1⟩, ⟨5, 11⟩, ⟨20, 21⟩] := by
  refine ⟨by decide, by decide, by decide, by unfold InConvex; decide, by decide +kernel, by decide +kernel⟩

/-- one turn of the loop of `collect` -/
def collectStep (r : List Iv) (i : Iv) : List Iv :=
  if i.lower > justAfter (TSet.upperBound r) then r ++ [i] else (UnionIter.new r [i]).drain

theorem collectStep_spec {r : List Iv} {i : Iv} (hr : Canon r) (hi : WF i) : Canon (collectStep r i) ∧
    (∀ k, (if i.lower > justAfter (TSet.upperBound r) then (.ok (r ++ [i]) : Res TSet)
      else TSet.fromIterFuel (k + 1) (UnionIter.new r (Convex.iv i).iter).drain) = .ok (collectStep r i)) ∧
    ∀ t, InSet t (collectStep r i) ↔ InIv t i ∨ ∃ z ∈ r, InIv t z ∧ ∀ x ∈ r, i.upper < x.upper → z.upper ≤ x.upper := by
  unfold collectStep
  split
  · rename_i hc
    have hp := TSet.canon_push hr hi hc
    refine ⟨hp, fun _ => rfl, fun t => ?_⟩
    have hlt : ∀ x ∈ r, x.upper < i.upper := fun x hx =>
      (List.pairwise_append.1 (UnionIter.ends_increase hp)).2.2 x hx i (by simp)
    rw [InSet_append, InSet_singleton]
    constructor
    · rintro (⟨z, hz, h⟩ | h)
      · exact Or.inr ⟨z, hz, h, fun x hx hc => by have := hlt x hx; omega⟩
      · exact Or.inl h
    · rintro (h | ⟨z, hz, h, -⟩)
      · exact Or.inr h
      · exact Or.inl ⟨z, hz, h⟩
  · rw [TSet.iter_wf hi]
    have h1 := (UnionIter.good_new hr (Canon_cons.2 ⟨hi, by simp, Canon_nil⟩ : Canon [i])).1
    exact ⟨h1, fun k => TSet.fromIterFuel_id h1.gap (fun x hx => by have := (h1.wf x hx).lo_lt; omega) k, UnionIter.points_one hr hi⟩

theorem collect_fold (k : Nat) (l : List Iv) : ∀ r : List Iv, Canon r → (∀ i ∈ l, WF i) →
    Canon (l.foldl collectStep r) ∧
    l.foldlM (fun r i => if i.lower > justAfter (TSet.upperBound r) then (.ok (r ++ [i]) : Res TSet)
      else TSet.fromIterFuel (k + 1) (UnionIter.new r (Convex.iv i).iter).drain) r = .ok (l.foldl collectStep r) := by
  induction l with
  | nil => intro r hr _; exact ⟨hr, rfl⟩
  | cons x xs ih =>
    intro r hr hl
    obtain ⟨h1, h2, -⟩ := collectStep_spec hr (hl x (by simp))
    obtain ⟨h3, h4⟩ := ih _ h1 (fun i hi => hl i (by simp [hi]))
    refine ⟨h3, ?_⟩
    rw [List.foldlM_cons, h2 k]
    exact h4

/-- C38, decided exactly: to collect one more interval `w` adds it to what has been collected so far, and drops the intervals after the
first one which ends after `w`. -/
theorem C38_collect_exact (l : List Iv) (w : Iv) (hl : ∀ i ∈ l, WF i) (hw : WF w) :
    ∃ r r', TSet.fromIter l = .ok r ∧ Canon r ∧ TSet.fromIter (l ++ [w]) = .ok r' ∧ Canon r' ∧
      ∀ t, InSet t r' ↔ InIv t w ∨ ∃ z ∈ r, InIv t z ∧ ∀ x ∈ r, w.upper < x.upper → z.upper ≤ x.upper := by
  cases l with
  | nil =>
    refine ⟨[], [w], rfl, Canon_nil, TSet.fromIter_canon (Canon_cons.2 ⟨hw, by simp, Canon_nil⟩),
      Canon_cons.2 ⟨hw, by simp, Canon_nil⟩, fun t => ?_⟩
    rw [InSet_singleton]; simp
  | cons x xs =>
    have hx := hl x (by simp)
    have e : TSet.ofConvex (.iv x) = [x] := TSet.iter_wf hx
    have hc : Canon [x] := Canon_cons.2 ⟨hx, by simp, Canon_nil⟩
    have hxs : ∀ i ∈ xs, WF i := fun i hi => hl i (by simp [hi])
    obtain ⟨h1, h2⟩ := collect_fold (xs.length + 1) xs [x] hc hxs
    obtain ⟨h3, h4⟩ := collect_fold ((xs ++ [w]).length + 1) (xs ++ [w]) [x] hc (fun i hi => by
      rcases List.mem_append.1 hi with h | h
      · exact hxs i h
      · rw [List.mem_singleton.1 h]; exact hw)
    refine ⟨_, _, ?_, h1, ?_, h3, ?_⟩
    · simp only [TSet.fromIter, List.length_cons, TSet.fromIterFuel, e]; exact h2
    · simp only [TSet.fromIter, List.cons_append, List.length_cons, TSet.fromIterFuel, e]; exact h4
    · rw [List.foldl_append]
      exact (collectStep_spec h1 hw).2.2

theorem gap_of_lt {r : List Iv} (hr : Canon r) {x y : Iv} (hx : x ∈ r) (hy : y ∈ r) (h : x.upper < y.upper) :
    x.upper + 1 < y.lower := by
  induction r with
  | nil => cases hx
  | cons z zs ih =>
    obtain ⟨h1, h2, h3⟩ := Canon_cons.1 hr
    rcases List.mem_cons.1 hx with e | e <;> rcases List.mem_cons.1 hy with e' | e'
    · subst e e'; omega
    · subst e; exact h2 y e'
    · subst e'; have := h2 x e; have := (h3.wf x e).le; omega
    · exact ih h3 e e'

/-- C38 is violated each time an interval comes after two intervals have been collected which it neither touches nor follows: of what has
been collected, everything beyond the first interval which ends after the new one is lost. -/
theorem C38_collect_violated (l : List Iv) (w x y : Iv) (hl : ∀ i ∈ l, WF i) (hw : WF w) (r : TSet) (hr : TSet.fromIter l = .ok r)
    (hx : x ∈ r) (hy : y ∈ r) (h1 : w.upper < x.upper) (h2 : x.upper < y.upper) :
    ∃ r' t, TSet.fromIter (l ++ [w]) = .ok r' ∧ Date t ∧ InSet t l ∧ ¬ InSet t r' := by
  obtain ⟨r0, r', e1, c1, e2, c2, hp⟩ := C38_collect_exact l w hl hw
  rw [hr] at e1
  cases e1
  obtain ⟨t, ht, h⟩ := (c1.wf y hy).exists_date
  obtain ⟨r1, e3, -, hs⟩ := TSet.fromIter_sound hl
  rw [hr] at e3
  cases e3
  refine ⟨r', t, e2, ht, hs t ⟨y, hy, h⟩, fun hc => ?_⟩
  have h' : y.lower ≤ t ∧ t ≤ y.upper := h
  have gap := gap_of_lt c1 hx hy h2
  rcases (hp t).1 hc with hc | ⟨z, hz, hc, hm⟩
  · have hc' : w.lower ≤ t ∧ t ≤ w.upper := hc
    omega
  · have := hm x hx h1
    have hc' : z.lower ≤ t ∧ t ≤ z.upper := hc
    omega

/-- C38 is violated when an empty interval comes after what is not empty (and ends before the last date): it is kept as a component, so the set is
not canonical. -/
theorem C38_collect_empty_violated (l : List Iv) (hl : ∀ i ∈ l, WF i) (hne : l ≠ []) (hu : ∀ i ∈ l, i.upper + 1 < INF) :
    ∃ r, TSet.fromIter l = .ok r ∧ TSet.fromIter (l ++ [Iv.empty]) = .ok (r ++ [Iv.empty]) ∧ ¬ Canon (r ++ [Iv.empty]) := by
  cases l with
  | nil => exact absurd rfl hne
  | cons x xs =>
    have hx := hl x (by simp)
    have e : TSet.ofConvex (.iv x) = [x] := TSet.iter_wf hx
    have hc : Canon [x] := Canon_cons.2 ⟨hx, by simp, Canon_nil⟩
    have hxs : ∀ i ∈ xs, WF i := fun i hi => hl i (by simp [hi])
    obtain ⟨h1, h2⟩ := collect_fold (xs.length + 1) xs [x] hc hxs
    obtain ⟨h3, h4⟩ := collect_fold ((xs ++ [Iv.empty]).length + 1) xs [x] hc hxs
    have er : TSet.fromIter (x :: xs) = .ok (xs.foldl collectStep [x]) := by
      simp only [TSet.fromIter, List.length_cons, TSet.fromIterFuel, e]; exact h2
    obtain ⟨r', e', -, hs⟩ := TSet.fromIter_sound hl
    rw [er] at e'
    cases e'
    refine ⟨_, er, ?_, fun hcan => ?_⟩
    · simp only [TSet.fromIter, List.cons_append, List.length_cons, TSet.fromIterFuel, e]
      rw [List.foldlM_append, h4, ok_bind, List.foldlM_cons, if_pos]
      · rfl
      · have hlt : TSet.upperBound (xs.foldl collectStep [x]) + 1 < INF := by
          generalize xs.foldl collectStep [x] = r at *
          cases hr : r.getLast? with
          | none => simp only [TSet.upperBound, hr]; decide
          | some y =>
            have hy : y ∈ r := List.mem_of_getLast? hr
            have w := h1.wf y hy
            obtain ⟨z, hz, hz'⟩ := hs y.upper ⟨y, hy, w.le, Int.le_refl _⟩
            have hz'' : z.lower ≤ y.upper ∧ y.upper ≤ z.upper := hz'
            have := hu z hz
            simp only [TSet.upperBound, hr]
            omega
        have : justAfter (TSet.upperBound (xs.foldl collectStep [x])) < INF := by
          rw [justAfter_eq]
          split <;> omega
        exact this
    · have := (hcan.wf Iv.empty (by simp)).lo_lt
      exact absurd this (by decide)

/-- What is missing from what has been collected stays missing until it comes again. -/
theorem collect_missing (l m : List Iv) (t : Int) (hl : ∀ i ∈ l ++ m, WF i) (r : TSet) (hr : TSet.fromIter l = .ok r) (h : ¬ InSet t r)
    (hm : ∀ i ∈ m, ¬ InIv t i) : ∃ r', TSet.fromIter (l ++ m) = .ok r' ∧ ¬ InSet t r' := by
  induction m generalizing l r with
  | nil => exact ⟨r, by rw [List.append_nil]; exact hr, h⟩
  | cons x xs ih =>
    obtain ⟨r0, r', e1, -, e2, -, hp⟩ := C38_collect_exact l x (fun i hi => hl i (by simp [hi])) (hl x (by simp))
    rw [hr] at e1
    cases e1
    have := ih (l ++ [x]) (by rw [List.append_assoc]; exact hl) r' e2 (fun hc => by
      rcases (hp t).1 hc with hc | ⟨z, hz, hc, -⟩
      · exact hm x (by simp) hc
      · exact h ⟨z, hz, hc⟩) (fun i hi => hm i (by simp [hi]))
    rwa [List.append_assoc] at this

/-- C42 is violated by every pair of dates and triple of durations which interleave: when `p < q` and `u < v < w` are isolated and
`q + u < p + v`, the sum of `{p, q}` and `{u, v, w}` misses `p + w`, unless `p + w = q + v`. -/
theorem C42_violated (dbg : Bool) (p q u v w : Int) (h1 : p + 1 < q) (h2 : u + 1 < v) (h3 : v + 1 < w) (h4 : q + u < p + v)
    (h5 : p + w ≠ q + v) (hd : Date p ∧ Date q ∧ Date u ∧ Date v ∧ Date w) (hs : Date (p + u) ∧ Date (q + w)) :
    ∃ r, TSet.addSpans dbg [⟨p, p⟩, ⟨q, q⟩] [⟨u, u⟩, ⟨v, v⟩, ⟨w, w⟩] = .ok r ∧ InSet p [⟨p, p⟩, ⟨q, q⟩] ∧
      InSet w [⟨u, u⟩, ⟨v, v⟩, ⟨w, w⟩] ∧ ¬ InSet (p + w) r := by
  obtain ⟨⟨d1, d1'⟩, ⟨d2, d2'⟩, ⟨d3, d3'⟩, ⟨d4, d4'⟩, ⟨d5, d5'⟩⟩ := hd
  obtain ⟨⟨d6, d6'⟩, ⟨d7, d7'⟩⟩ := hs
  have wf : ∀ t, -INF < t → t < INF → WF ⟨t, t⟩ := fun t a b =>
    ⟨Int.le_refl _, by simp only; omega, by simp only; omega, b, a⟩
  have c1 : Canon [⟨p, p⟩, ⟨q, q⟩] := Canon_cons.2 ⟨wf p d1 d1', by simp; omega, Canon_cons.2 ⟨wf q d2 d2', by simp, Canon_nil⟩⟩
  have c2 : Canon [⟨u, u⟩, ⟨v, v⟩, ⟨w, w⟩] := Canon_cons.2 ⟨wf u d3 d3', by simp; omega, Canon_cons.2 ⟨wf v d4 d4', by simp; omega,
    Canon_cons.2 ⟨wf w d5 d5', by simp, Canon_nil⟩⟩⟩
  have fits : ∀ i ∈ ([⟨p, p⟩, ⟨q, q⟩] : TSet), ∀ j ∈ ([⟨u, u⟩, ⟨v, v⟩, ⟨w, w⟩] : TSet), FitsSum i j := by
    simp only [List.mem_cons, List.not_mem_nil, or_false, FitsSum, Date]
    rintro i (rfl | rfl) j (rfl | rfl | rfl) <;> simp only <;> omega
  have sum : ∀ a b, -INF < a → a < INF → -INF < b → b < INF → sumIv ⟨a, a⟩ ⟨b, b⟩ = ⟨a + b, a + b⟩ := fun a b ha ha' hb hb' => by
    simp only [sumIv]
    rw [if_neg (by omega), if_neg (by omega)]
  have e := (pairs_collect dbg c1 c2 fits).1
  simp only [TSet.pairs, List.flatMap_cons, List.flatMap_nil, List.map_cons, List.map_nil, List.cons_append, List.nil_append,
    List.append_nil, sum _ _ d1 d1' d3 d3', sum _ _ d1 d1' d4 d4', sum _ _ d1 d1' d5 d5', sum _ _ d2 d2' d3 d3', sum _ _ d2 d2' d4 d4',
    sum _ _ d2 d2' d5 d5'] at e
  have w1 := wf (p + u) d6 (by omega)
  have w2 := wf (p + v) (by omega) (by omega)
  have w3 := wf (p + w) (by omega) (by omega)
  have w4 := wf (q + u) (by omega) (by omega)
  have w5 := wf (q + v) (by omega) (by omega)
  have w6 := wf (q + w) (by omega) (by omega)
  have c3 : Canon [⟨p + u, p + u⟩, ⟨p + v, p + v⟩, ⟨p + w, p + w⟩] := Canon_cons.2 ⟨w1, by simp; omega,
    Canon_cons.2 ⟨w2, by simp; omega, Canon_cons.2 ⟨w3, by simp, Canon_nil⟩⟩⟩
  obtain ⟨r0, r', e1, -, e2, -, hp⟩ := C38_collect_exact [⟨p + u, p + u⟩, ⟨p + v, p + v⟩, ⟨p + w, p + w⟩] ⟨q + u, q + u⟩ c3.wf w4
  rw [TSet.fromIter_canon c3] at e1
  cases e1
  obtain ⟨r, e3, h⟩ := collect_missing _ [⟨q + v, q + v⟩, ⟨q + w, q + w⟩] (p + w) (by
    simp only [List.cons_append, List.nil_append, List.mem_cons, List.not_mem_nil, or_false]
    rintro i (rfl | rfl | rfl | rfl | rfl | rfl) <;> assumption) r' e2 (fun hc => by
      rcases (hp _).1 hc with hc | ⟨z, hz, hc, hm⟩
      · simp only [InIv] at hc; omega
      · have := hm ⟨p + v, p + v⟩ (by simp) h4
        simp only [List.mem_cons, List.not_mem_nil, or_false] at hz
        rcases hz with rfl | rfl | rfl <;> simp only [InIv] at hc this <;> omega) (by
    simp only [List.mem_cons, List.not_mem_nil, or_false, InIv]
    rintro i (rfl | rfl) <;> simp only <;> omega)
  exact ⟨r, e.trans e3, ⟨_, List.mem_cons_self, Int.le_refl _, Int.le_refl _⟩,
    ⟨⟨w, w⟩, by simp, Int.le_refl _, Int.le_refl _⟩, h⟩

example : (0 : Int) + 1 < 5 ∧ (0 : Int) + 1 < 10 ∧ (10 : Int) + 1 < 20 ∧ (5 : Int) + 0 < 0 + 10 ∧ (0 : Int) + 20 ≠ 5 + 10 ∧
    Date 0 ∧ Date 5 ∧ Date 10 ∧ Date 20 ∧ Date 25 := by decide

example : TSet.fromIter [⟨10, 10⟩, ⟨20, 20⟩] = .ok [⟨10, 10⟩, ⟨20, 20⟩] ∧ WF ⟨0, 0⟩ ∧
    TSet.fromIter [⟨10, 10⟩, ⟨20, 20⟩, ⟨0, 0⟩] = .ok [⟨0, 0⟩, ⟨10, 10⟩] ∧
    TSet.fromIter [⟨0, 1⟩, Iv.empty] = .ok [⟨0, 1⟩, Iv.empty] := by
  refine ⟨by decide +kernel, by decide, by decide +kernel, by decide +kernel⟩

end Chrono
