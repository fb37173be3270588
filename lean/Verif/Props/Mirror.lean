import Verif.Props.Set
import Verif.Props.SetRel
import Verif.Props.SetArith
import Verif.Lemmas.Mirror

/-!
# C122: windows seen in a mirror

`-s` takes every date to its opposite. The operations on windows do not depend on the direction of time: applied to the mirror images they
give the mirror image of the result. The union of sets does, exactly when it loses dates (C30).
-/

namespace Chrono
open Spec

/-! ## Lemmas -/

theorem mirror_ext : ∀ {a b : List Iv}, Gap a → Gap b → (∀ y ∈ a, y.lower ≤ y.upper + 1) → (∀ y, y ∈ a ↔ y ∈ b) → a = b := by
  intro a
  induction a with
  | nil =>
    intro b _ _ _ h
    cases b with
    | nil => rfl
    | cons y b => exact absurd ((h y).2 (by simp)) (by simp)
  | cons x a ih =>
    intro b ha hb hl h
    cases b with
    | nil => exact absurd ((h x).1 (by simp)) (by simp)
    | cons y b =>
      have ha' := List.pairwise_cons.1 ha
      have hb' := List.pairwise_cons.1 hb
      have lx := hl x (by simp)
      have ly := hl y ((h y).2 (by simp))
      have e : x = y := by
        have h1 := (h x).1 (by simp)
        have h2 := (h y).2 (by simp)
        rcases List.mem_cons.1 h1 with h1 | h1
        · exact h1
        rcases List.mem_cons.1 h2 with h2 | h2
        · exact h2.symm
        have := ha'.1 y h2
        have := hb'.1 x h1
        omega
      subst e
      congr 1
      refine ih ha'.2 hb'.2 (fun z hz => hl z (by simp [hz])) fun z => ?_
      have := h z
      simp only [List.mem_cons] at this
      constructor
      · intro hz
        rcases this.1 (Or.inr hz) with rfl | r
        · have := ha'.1 z hz; omega
        · exact r
      · intro hz
        rcases this.2 (Or.inr hz) with rfl | r
        · have := hb'.1 z hz; omega
        · exact r

theorem gap_neg {s : TSet} (h : Gap s) : Gap (TSet.neg s) := by
  rw [Gap, TSet.neg, List.pairwise_map, List.pairwise_reverse]
  refine List.Pairwise.imp ?_ h
  intro a b h
  simp only [Iv.neg]
  omega

/-- what `a | b` loses comes after the end of `b` -/
theorem lost_after {a b r : TSet} (ha : Canon a) (hb : Canon b) (e : TSet.union a b = .ok r) {t : Int} (ht : InSet t a ∨ InSet t b)
    (hn : ¬ InSet t r) : b ≠ [] ∧ InSet t a ∧ ∀ y ∈ b, y.upper < t := by
  by_cases hne : b = []
  · obtain ⟨r', e', h⟩ := (C30_lossless_exact a b ha hb).2 (Or.inl hne)
    rw [e] at e'; cases e'
    exact absurd (h t ht) hn
  refine ⟨hne, ?_⟩
  by_cases hall : ∀ z ∈ a, ∃ y ∈ b, z.upper < y.upper
  · obtain ⟨r', e', h⟩ := (C30_lossless_exact a b ha hb).2 (Or.inr (Or.inl fun z hz => hall z ((List.dropLast_sublist a).subset hz)))
    rw [e] at e'; cases e'
    exact absurd (h t ht) hn
  obtain ⟨a1, x, a2, ea, h1, hx⟩ := first_split (fun z => ∃ y ∈ b, z.upper < y.upper) a
    (Classical.byContradiction fun hc => hall fun z hz => Classical.byContradiction fun hc' => hc ⟨z, hz, hc'⟩)
  subst ea
  have hx' : ∀ y ∈ b, y.upper ≤ x.upper := fun y hy => Int.not_lt.1 fun hlt => hx ⟨y, hy, hlt⟩
  obtain ⟨r', e', h⟩ := C30_union_exact a1 a2 b x ha hb hne h1 hx'
  rw [e] at e'; cases e'
  rw [h] at hn
  simp only [not_or] at hn
  obtain ⟨n1, n2, n3, -⟩ := hn
  have hta := ht.resolve_right n3
  refine ⟨hta, fun y hy => ?_⟩
  obtain ⟨z, hz, hi⟩ := hta
  rcases List.mem_append.1 hz with hz | hz
  · exact absurd ⟨z, hz, hi⟩ n1
  rcases List.mem_cons.1 hz with rfl | hz
  · exact absurd hi n2
  have hp := (List.pairwise_append.1 ha.gap).2.1
  have := (List.pairwise_cons.1 hp).1 z hz
  have := hx' y hy
  have := hi.1
  omega

/-! ## Sets -/

/-- C122. The intersection, the complement and the truncations of mirror images are the mirror images; a truncation before a date becomes a
truncation after its opposite, with the same answer. -/
theorem C122_operations {a b : TSet} (ha : Canon a) (hb : Canon b) :
    (∃ r, TSet.inter a b = .ok r ∧ TSet.inter (TSet.neg a) (TSet.neg b) = .ok (TSet.neg r)) ∧
    TSet.compl (TSet.neg a) = TSet.neg (TSet.compl a) ∧
    ∀ c, TSet.truncateAfter (TSet.neg a) (-c) = (TSet.neg (TSet.truncateBefore a c).1, (TSet.truncateBefore a c).2) ∧
      TSet.truncateBefore (TSet.neg a) (-c) = (TSet.neg (TSet.truncateAfter a c).1, (TSet.truncateAfter a c).2) := by
  refine ⟨?_, ?_, fun c => ⟨after_neg a c, before_neg a c⟩⟩
  · obtain ⟨r, e, er, m, -⟩ := C33_inter_exact a b ha hb
    obtain ⟨r', e', er', m', -⟩ := C33_inter_exact _ _ (canon_neg ha) (canon_neg hb)
    obtain ⟨_, g⟩ := InterIter.meets_new ha hb
    obtain ⟨_, g'⟩ := InterIter.meets_new (canon_neg ha) (canon_neg hb)
    refine ⟨r, e, e'.trans (congrArg _ ?_)⟩
    refine mirror_ext (er' ▸ g'.gap) (gap_neg (er ▸ g.gap)) ?_ fun y => ?_
    · intro y hy
      obtain ⟨x, hx, z, hz, l1, l2, rfl⟩ := (m' y).1 hy
      have := ((canon_neg ha).wf x hx).le
      have := ((canon_neg hb).wf z hz).le
      simp only
      omega
    · rw [m', mem_neg]
      constructor
      · rintro ⟨x, hx, z, hz, l1, l2, rfl⟩
        obtain ⟨x, hx', rfl⟩ := mem_neg.1 hx
        obtain ⟨z, hz', rfl⟩ := mem_neg.1 hz
        simp only [Iv.neg] at l1 l2
        refine ⟨_, (m _).2 ⟨x, hx', z, hz', by omega, by omega, rfl⟩, ?_⟩
        simp only [Iv.neg, Iv.mk.injEq]
        omega
      · rintro ⟨j, hj, rfl⟩
        obtain ⟨x, hx, z, hz, l1, l2, rfl⟩ := (m j).1 hj
        refine ⟨_, mem_neg.2 ⟨x, hx, rfl⟩, _, mem_neg.2 ⟨z, hz, rfl⟩, ?_, ?_, ?_⟩
        · simp only [Iv.neg]; omega
        · simp only [Iv.neg]; omega
        · simp only [Iv.neg, Iv.mk.injEq]; omega
  · obtain ⟨c1, n1, d1⟩ := compl_spec (canon_neg ha)
    obtain ⟨c2, n2, d2⟩ := compl_spec ha
    refine canon_ext_dates c1 (canon_neg c2) n1 (noExtreme_neg n2) fun t ht => ?_
    rw [d1 t ht, inSet_neg, inSet_neg, d2 (-t) (by simp only [Date] at *; omega)]

/-- C122. Containment and overlap of mirror images are those of the sets, and the bounds are exchanged. -/
theorem C122_relations {a b : TSet} (ha : Canon a) (hb : Canon b) :
    TSet.containsSet (TSet.neg a) (TSet.neg b) = TSet.containsSet a b ∧
    TSet.overlapsSet (TSet.neg a) (TSet.neg b) = TSet.overlapsSet a b ∧
    (∀ i, WF i → TSet.contains (TSet.neg a) (.iv i.neg) = TSet.contains a (.iv i) ∧
      TSet.overlaps (TSet.neg a) (.iv i.neg) = TSet.overlaps a (.iv i) ∧
      (Convex.iv i.neg).containsSet (TSet.neg a) = (Convex.iv i).containsSet a) ∧
    TSet.lowerBound (TSet.neg a) = -TSet.upperBound a ∧ TSet.upperBound (TSet.neg a) = -TSet.lowerBound a := by
  have cont : ∀ i, WF i → TSet.contains (TSet.neg a) (.iv i.neg) = TSet.contains a (.iv i) := by
    intro i hi
    have := hi.le
    rw [Bool.eq_iff_iff, contains_iff (canon_neg ha), contains_iff ha]
    simp only [Convex.lower, Convex.upper]
    constructor
    · rintro ⟨j, hj, h⟩
      obtain ⟨k, hk, rfl⟩ := mem_neg.1 hj
      simp only [Iv.neg] at h
      exact ⟨k, hk, by omega, by omega, by omega⟩
    · rintro ⟨k, hk, h⟩
      refine ⟨_, mem_neg.2 ⟨k, hk, rfl⟩, ?_⟩
      simp only [Iv.neg]
      omega
  have over : ∀ i, WF i → TSet.overlaps (TSet.neg a) (.iv i.neg) = TSet.overlaps a (.iv i) := by
    intro i hi
    rw [Bool.eq_iff_iff, overlaps_iff (canon_neg ha), overlaps_iff ha]
    simp only [Convex.lower, Convex.upper]
    constructor
    · rintro ⟨j, hj, h⟩
      obtain ⟨k, hk, rfl⟩ := mem_neg.1 hj
      simp only [Iv.neg] at h
      exact ⟨k, hk, by omega, by omega⟩
    · rintro ⟨k, hk, h⟩
      refine ⟨_, mem_neg.2 ⟨k, hk, rfl⟩, ?_⟩
      simp only [Iv.neg]
      omega
  have lo : TSet.lowerBound (TSet.neg a) = -TSet.upperBound a := by
    simp only [TSet.lowerBound, TSet.upperBound, TSet.neg, List.head?_map, List.head?_reverse]
    cases a.getLast? <;> simp [Iv.neg]
  have up : TSet.upperBound (TSet.neg a) = -TSet.lowerBound a := by
    simp only [TSet.lowerBound, TSet.upperBound, TSet.neg, List.getLast?_map, List.getLast?_reverse]
    cases a.head? <;> simp [Iv.neg]
  refine ⟨?_, ?_, fun i hi => ⟨cont i hi, over i hi, ?_⟩, lo, up⟩
  · rw [Bool.eq_iff_iff]
    simp only [TSet.containsSet, List.all_eq_true]
    constructor
    · intro h i hi
      rw [← cont i (hb.wf i hi)]
      exact h _ (mem_neg.2 ⟨i, hi, rfl⟩)
    · intro h j hj
      obtain ⟨i, hi, rfl⟩ := mem_neg.1 hj
      rw [cont i (hb.wf i hi)]
      exact h i hi
  · rw [Bool.eq_iff_iff]
    simp only [TSet.overlapsSet, List.any_eq_true]
    constructor
    · rintro ⟨j, hj, h⟩
      obtain ⟨i, hi, rfl⟩ := mem_neg.1 hj
      rw [over i (hb.wf i hi)] at h
      exact ⟨i, hi, h⟩
    · rintro ⟨i, hi, h⟩
      refine ⟨_, mem_neg.2 ⟨i, hi, rfl⟩, ?_⟩
      rw [over i (hb.wf i hi)]
      exact h
  · simp only [Convex.containsSet, Convex.containsBounds, lo, up, Convex.lower, Convex.upper, Iv.neg]
    rw [Bool.and_comm]
    exact congr (congrArg and (decide_eq_decide.2 (by omega))) (decide_eq_decide.2 (by omega))

/-- C122 for the union, decided exactly: `-(a | b) == -a | -b` iff neither union loses a date. -/
theorem C122_union_partial {a b : TSet} (ha : Canon a) (hb : Canon b) :
    ∃ r r', TSet.union a b = .ok r ∧ TSet.union (TSet.neg a) (TSet.neg b) = .ok r' ∧
      (r' = TSet.neg r ↔ Lossless a b ∧ Lossless (TSet.neg a) (TSet.neg b)) := by
  have na := canon_neg ha
  have nb := canon_neg hb
  obtain ⟨⟨r, e, cr⟩, -⟩ := C31_union_canonical a b ha hb
  obtain ⟨⟨r', e', cr'⟩, -⟩ := C31_union_canonical _ _ na nb
  have sound : ∀ {a b r : TSet}, Canon a → Canon b → TSet.union a b = .ok r → ∀ {t}, InSet t r → InSet t a ∨ InSet t b := by
    intro a b r ha hb e t h
    obtain ⟨⟨s, es, hs⟩, -⟩ := C29_union_sound a b ha hb
    rw [e] at es; cases es
    exact hs t h
  refine ⟨r, r', e, e', ?_, ?_⟩
  · intro heq
    have key : ∀ t, InSet t a ∨ InSet t b → InSet t r := by
      intro t ht
      refine Classical.byContradiction fun hn => ?_
      obtain ⟨hne, -, h1⟩ := lost_after ha hb e ht hn
      have hn' : ¬ InSet (-t) r' := by rw [heq, inSet_neg, Int.neg_neg]; exact hn
      obtain ⟨-, -, h2⟩ := lost_after na nb e' (t := -t) (by rw [inSet_neg, inSet_neg, Int.neg_neg]; exact ht) hn'
      obtain ⟨y, hy⟩ := List.exists_mem_of_ne_nil b hne
      have u1 := h1 y hy
      have u2 := h2 y.neg (mem_neg.2 ⟨y, hy, rfl⟩)
      have := (hb.wf y hy).le
      simp only [Iv.neg] at u2
      omega
    refine ⟨⟨r, e, key⟩, r', e', fun t ht => ?_⟩
    rw [heq, inSet_neg]
    rw [inSet_neg, inSet_neg] at ht
    exact key _ ht
  · rintro ⟨⟨s, es, hs⟩, s', es', hs'⟩
    rw [e] at es; cases es
    rw [e'] at es'; cases es'
    refine canon_ext cr' (canon_neg cr) fun t => ?_
    rw [inSet_neg]
    constructor
    · intro h
      have := sound na nb e' h
      rw [inSet_neg, inSet_neg] at this
      exact hs _ this
    · intro h
      refine hs' _ ?_
      rw [inSet_neg, inSet_neg]
      exact sound ha hb e h

/-- C122 violated for the union: as soon as `a` has an interval, other than its last, which ends after the end of `b`, the mirror image of
`a | b` is not the union of the mirror images. -/
theorem C122_union_violated {a b : TSet} (ha : Canon a) (hb : Canon b) (hne : b ≠ []) {x : Iv} (hx : x ∈ a.dropLast)
    (h : ∀ y ∈ b, y.upper < x.upper) :
    ∃ r r', TSet.union a b = .ok r ∧ TSet.union (TSet.neg a) (TSet.neg b) = .ok r' ∧ r' ≠ TSet.neg r := by
  obtain ⟨r, r', e, e', hi⟩ := C122_union_partial ha hb
  refine ⟨r, r', e, e', fun hc => ?_⟩
  obtain ⟨s, es, hs⟩ := (hi.1 hc).1
  obtain ⟨q, eq, -, t, -, ht, hn⟩ := C30_union_violated a b ha hb hne x hx h
  rw [es] at eq; cases eq
  exact hn (hs t (Or.inl ht))

example : Canon [⟨0, 5⟩, ⟨10, 15⟩, ⟨20, 25⟩] ∧ Canon [⟨2, 3⟩] ∧
    TSet.union [⟨0, 5⟩, ⟨10, 15⟩, ⟨20, 25⟩] [⟨2, 3⟩] = .ok [⟨0, 5⟩] ∧
    TSet.union [⟨-25, -20⟩, ⟨-15, -10⟩, ⟨-5, 0⟩] [⟨-3, -2⟩] = .ok [⟨-25, -20⟩, ⟨-15, -10⟩, ⟨-5, 0⟩] := by decide +kernel

example : Canon [⟨-INF, 3⟩, ⟨7, 9⟩] ∧ Canon [⟨4, 8⟩, ⟨20, INF⟩] ∧
    TSet.inter [⟨-INF, 3⟩, ⟨7, 9⟩] [⟨4, 8⟩, ⟨20, INF⟩] = .ok [⟨4, 3⟩, ⟨7, 8⟩] ∧
    TSet.inter [⟨-9, -7⟩, ⟨-3, INF⟩] [⟨-INF, -20⟩, ⟨-8, -4⟩] = .ok [⟨-8, -7⟩, ⟨-3, -4⟩] ∧
    TSet.compl [⟨-9, -7⟩, ⟨-3, INF⟩] = TSet.neg (TSet.compl [⟨-INF, 3⟩, ⟨7, 9⟩]) := by decide +kernel

/-! ## Intervals -/

/-- C122 for intervals: union, intersection, complement and truncations. -/
theorem C122_intervals {i j : Iv} (hi : WF i) (hj : WF j) :
    Iv.inter i.neg (.iv j.neg) = (Iv.inter i (.iv j)).neg ∧
    Iv.union i.neg (.iv j.neg) = TSet.neg (Iv.union i (.iv j)) ∧
    Iv.compl i.neg = TSet.neg (Iv.compl i) ∧
    ∀ c, i.neg.truncateAfter (-c) = ((i.truncateBefore c).1.neg, (i.truncateBefore c).2) ∧
      i.neg.truncateBefore (-c) = ((i.truncateAfter c).1.neg, (i.truncateAfter c).2) := by
  obtain ⟨a1, a2, a3, a4, a5⟩ := hi
  obtain ⟨b1, b2, b3, b4, b5⟩ := hj
  cases i with | mk il iu => ?_
  cases j with | mk jl ju => ?_
  simp only at *
  refine ⟨?_, ?_, ?_, fun c => ⟨?_, ?_⟩⟩
  · simp only [Iv.inter, Convex.into, Iv.neg, Iv.mk.injEq]; omega
  · have e1 : (Iv.mk il iu).isEmpty = false := by rw [← Bool.not_eq_true, Iv.isEmpty_iff]; simp only; omega
    have e2 : (Iv.mk jl ju).isEmpty = false := by rw [← Bool.not_eq_true, Iv.isEmpty_iff]; simp only; omega
    have e3 : (Iv.mk (-iu) (-il)).isEmpty = false := by rw [← Bool.not_eq_true, Iv.isEmpty_iff]; simp only; omega
    have e4 : (Iv.mk (-ju) (-jl)).isEmpty = false := by rw [← Bool.not_eq_true, Iv.isEmpty_iff]; simp only; omega
    simp only [Iv.union, Iv.neg, Convex.isEmpty, e1, e2, e3, e4, Convex.lower, Convex.upper, Convex.into, Bool.false_eq_true, if_false]
    by_cases c1 : ju < justBefore il
    · have c2 : ¬ -jl < justBefore (-iu) := by
        rw [justBefore_eq] at *; split at c1 <;> split <;> omega
      have c3 : -il < justBefore (-ju) := by
        rw [justBefore_eq] at *; split at c1 <;> split <;> omega
      simp [c1, c2, c3, TSet.neg, Iv.neg]
    · have c3 : ¬ -il < justBefore (-ju) := by
        rw [justBefore_eq] at *; split at c1 <;> split <;> omega
      by_cases c2 : iu < justBefore jl
      · have c4 : -jl < justBefore (-iu) := by
          rw [justBefore_eq] at *; split at c2 <;> split <;> omega
        simp [c1, c2, c4, TSet.neg, Iv.neg]
      · have c4 : ¬ -jl < justBefore (-iu) := by
          rw [justBefore_eq] at *; split at c2 <;> split <;> omega
        simp only [c1, c2, c3, c4, if_false, TSet.neg, Iv.neg, List.reverse_cons, List.reverse_nil, List.nil_append, List.map_cons,
          List.map_nil, List.cons.injEq, Iv.mk.injEq, and_true]
        omega
  · have e1 : (Iv.mk il iu).isEmpty = false := by rw [← Bool.not_eq_true, Iv.isEmpty_iff]; simp only; omega
    have e3 : (Iv.mk (-iu) (-il)).isEmpty = false := by rw [← Bool.not_eq_true, Iv.isEmpty_iff]; simp only; omega
    have j1 : justBefore (-iu) = -justAfter iu := by
      rw [justBefore_eq, justAfter_eq]; split <;> split <;> omega
    have j2 : justAfter (-il) = -justBefore il := by
      rw [justBefore_eq, justAfter_eq]; split <;> split <;> omega
    have k1 : ∀ x, isPastInfinite (-x) = isFutureInfinite x := by
      intro x; rw [Bool.eq_iff_iff, isPastInfinite_iff, isFutureInfinite_iff]; omega
    have k2 : ∀ x, isFutureInfinite (-x) = isPastInfinite x := by
      intro x; rw [Bool.eq_iff_iff, isPastInfinite_iff, isFutureInfinite_iff]; omega
    simp only [Iv.compl, Iv.neg, e1, e3, Bool.false_eq_true, if_false, j1, j2, k1, k2]
    cases isPastInfinite (justBefore il) <;> cases isFutureInfinite (justAfter iu) <;> simp [TSet.neg, Iv.neg]
  · exact ivAfter_neg _ _
  · exact ivBefore_neg _ _

/-! ## Translations -/

/-- C122. Translating forwards becomes translating backwards, with the same panics: `-(i + d) == -i - d`, `-(i + s) == -i - s == -i + -s`. -/
theorem C122_translations {i s : Iv} {d : Int} (h1 : Legal i.lower) (h2 : Legal i.upper) (h3 : Legal d) (h4 : Legal s.lower) (h5 : Legal s.upper)
    (dbg : Bool) :
    i.neg.subTv dbg d = Except.map Iv.neg (i.addTv dbg d) ∧ i.neg.addTv dbg d = Except.map Iv.neg (i.subTv dbg d) ∧
    i.neg.subSpan dbg s = Except.map Iv.neg (i.addSpan dbg s) ∧ i.neg.addSpan dbg s.neg = Except.map Iv.neg (i.addSpan dbg s) ∧
    i.neg.addSpan dbg s = Except.map Iv.neg (i.subSpan dbg s) := by
  have tn : ∀ x, tvNeg x = -x := fun x => rfl
  refine ⟨pair_neg h1 h3 h2 h3, ?_, pair_neg h1 h4 h2 h5, pair_neg h1 h4 h2 h5, ?_⟩
  · have := pair_neg (dbg := dbg) h1 (legal_neg h3) h2 (legal_neg h3)
    rw [Int.neg_neg] at this
    exact this
  · have := pair_neg (dbg := dbg) h1 (legal_neg h5) h2 (legal_neg h4)
    rw [Int.neg_neg, Int.neg_neg] at this
    exact this

theorem mapM_neg {f g : Iv → Res Iv} : ∀ {s r : List Iv}, (∀ i ∈ s, g i.neg = Except.map Iv.neg (f i)) → s.mapM f = .ok r →
    (TSet.neg s).mapM g = .ok (TSet.neg r) := by
  intro s
  induction s with
  | nil => intro r _ h; cases h; rfl
  | cons x s ih =>
    intro r hf h
    rw [List.mapM_cons] at h
    cases e1 : f x with
    | error p => rw [e1] at h; cases h
    | ok y =>
      cases e2 : s.mapM f with
      | error p => rw [e1, e2] at h; cases h
      | ok q =>
        rw [e1, e2] at h; cases h
        have := ih (fun i hi => hf i (by simp [hi])) e2
        have hx := hf x (by simp)
        rw [e1] at hx
        simp only [TSet.neg, List.reverse_cons, List.map_append, List.map_cons, List.map_nil, List.mapM_append] at this ⊢
        rw [this, List.mapM_cons, hx]
        rfl

/-- C122 for the translations of sets by a duration: one succeeds iff the other does, and the results are mirror images. -/
theorem C122_set_translations {s : TSet} {d : Int} (hs : ∀ i ∈ s, Legal i.lower ∧ Legal i.upper) (hd : Legal d) (dbg : Bool) (r : TSet) :
    (TSet.addTv dbg s d = .ok r ↔ TSet.subTv dbg (TSet.neg s) d = .ok (TSet.neg r)) ∧
    (TSet.subTv dbg s d = .ok r ↔ TSet.addTv dbg (TSet.neg s) d = .ok (TSet.neg r)) := by
  have h' : ∀ i ∈ TSet.neg s, Legal i.lower ∧ Legal i.upper := by
    intro i hi
    obtain ⟨j, hj, rfl⟩ := mem_neg.1 hi
    exact ⟨legal_neg (hs j hj).2, legal_neg (hs j hj).1⟩
  have l0 : Legal 0 := by decide
  have fw : ∀ {s r : TSet}, (∀ i ∈ s, Legal i.lower ∧ Legal i.upper) → TSet.addTv dbg s d = .ok r →
      TSet.subTv dbg (TSet.neg s) d = .ok (TSet.neg r) := fun h e =>
    mapM_neg (fun i hi => (C122_translations (s := ⟨0, 0⟩) (h i hi).1 (h i hi).2 hd l0 l0 dbg).1) e
  have bw : ∀ {s r : TSet}, (∀ i ∈ s, Legal i.lower ∧ Legal i.upper) → TSet.subTv dbg s d = .ok r →
      TSet.addTv dbg (TSet.neg s) d = .ok (TSet.neg r) := fun h e =>
    mapM_neg (fun i hi => (C122_translations (s := ⟨0, 0⟩) (h i hi).1 (h i hi).2 hd l0 l0 dbg).2.1) e
  refine ⟨⟨fw hs, fun h => ?_⟩, ⟨bw hs, fun h => ?_⟩⟩
  · have := bw h' h; rwa [neg_neg, neg_neg] at this
  · have := fw h' h; rwa [neg_neg, neg_neg] at this

example : TSet.addTv true [⟨-INF, 3⟩, ⟨7, 9⟩] 5 = .ok [⟨-INF, 8⟩, ⟨12, 14⟩] ∧
    TSet.subTv true [⟨-9, -7⟩, ⟨-3, INF⟩] 5 = .ok [⟨-14, -12⟩, ⟨-8, INF⟩] ∧
    Iv.addSpan true ⟨INF - 5, INF - 3⟩ ⟨8, 9⟩ = .error .debugAssert ∧
    Iv.subSpan true ⟨-INF + 3, -INF + 5⟩ ⟨8, 9⟩ = .error .debugAssert := by decide +kernel

end Chrono
