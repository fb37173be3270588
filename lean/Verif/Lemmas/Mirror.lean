import Verif.Lemmas.SetArith

/-!
# Lemmas: windows seen in a mirror
-/

namespace Chrono
open Spec

theorem inSet_neg {s : TSet} {t : Int} : InSet t (TSet.neg s) ↔ InSet (-t) s := by
  constructor
  · rintro ⟨i, hi, h⟩
    obtain ⟨j, hj, rfl⟩ := mem_neg.1 hi
    exact ⟨j, hj, by simp only [InIv, Iv.neg] at *; omega⟩
  · rintro ⟨j, hj, h⟩
    exact ⟨j.neg, mem_neg.2 ⟨j, hj, rfl⟩, by simp only [InIv, Iv.neg] at *; omega⟩

theorem noExtreme_neg {s : TSet} (h : NoExtreme s) : NoExtreme (TSet.neg s) := by
  intro i hi
  obtain ⟨j, hj, rfl⟩ := mem_neg.1 hi
  have := h j hj
  simp only [Iv.neg]
  omega

theorem iv_neg_neg (i : Iv) : i.neg.neg = i := by cases i; simp [Iv.neg]

theorem legal_neg {x : Int} (h : Legal x) : Legal (-x) := by simp only [Legal] at *; omega

theorem neg_cons (x : Iv) (s : List Iv) : TSet.neg (x :: s) = TSet.neg s ++ [x.neg] := by simp [TSet.neg]

theorem neg_length (s : List Iv) : (TSet.neg s).length = s.length := by simp [TSet.neg]

theorem ivAfter_neg (i : Iv) (c : Int) : i.neg.truncateAfter (-c) = ((i.truncateBefore c).1.neg, (i.truncateBefore c).2) := by
  simp only [Iv.truncateAfter, Iv.truncateBefore, Iv.neg, Iv.empty, Int.neg_le_neg_iff, Int.neg_lt_neg_iff]
  by_cases c1 : c ≤ i.lower
  · simp [c1]
  · by_cases c2 : i.upper < c <;> simp [c1, c2]

theorem findIdx_neg {p q : Iv → Bool} (h : ∀ i, q i.neg = p i) : ∀ s : List Iv, (s.map Iv.neg).findIdx? q = s.findIdx? p
  | [] => rfl
  | x :: s => by
    rw [List.map_cons, List.findIdx?_cons, List.findIdx?_cons, h, findIdx_neg h s]

/-- a truncation after a date is, in the mirror, a truncation before the opposite date: for all lists and all cuts -/
theorem after_neg (s : TSet) (c : Int) :
    TSet.truncateAfter (TSet.neg s) (-c) = (TSet.neg (TSet.truncateBefore s c).1, (TSet.truncateBefore s c).2) := by
  have hp : ∀ i : Iv, decide (i.neg.lower ≤ -c) = decide (i.upper ≥ c) := fun i => by
    rw [decide_eq_decide]; simp only [Iv.neg]; omega
  have er : (TSet.neg s).reverse = s.map Iv.neg := by simp [TSet.neg, List.map_reverse]
  unfold TSet.truncateAfter TSet.rposition TSet.truncateBefore
  rw [er, findIdx_neg (p := fun i => decide (i.upper ≥ c)) hp, neg_length]
  cases e : s.findIdx? (fun i => decide (i.upper ≥ c)) with
  | none =>
    simp only [Option.map_none]
    cases s with
    | nil => rfl
    | cons x s =>
      have h1 : (TSet.neg (x :: s)).isEmpty = false := by
        rw [neg_cons]
        cases h : TSet.neg s ++ [x.neg] with
        | nil => simp at h
        | cons y l => rfl
      rw [h1]
      rfl
  | some k =>
    have hk : k < s.length := by
      have := List.findIdx?_eq_some_iff_findIdx_eq.1 e
      exact this.1
    simp only [Option.map_some]
    cases k with
    | zero =>
      cases s with
      | nil => simp at hk
      | cons x s =>
        simp only [List.length_cons] at *
        rw [if_pos (by omega), neg_cons, List.getLast?_concat, mapLast_append]
        simp only
        rw [ivAfter_neg, neg_cons]
    | succ k =>
      rw [if_neg (by omega)]
      have ed : s.drop (k + 1) = s[k + 1] :: s.drop (k + 1 + 1) := List.drop_eq_getElem_cons hk
      have et : (TSet.neg s).take (s.length - 1 - (k + 1) + 1) = TSet.neg (s.drop (k + 1)) := by
        simp only [TSet.neg, List.reverse_drop, List.map_take]
        congr 1
        omega
      rw [et]
      simp only
      generalize hl : s.drop (k + 1) = l at ed
      rw [ed]
      simp only
      rw [neg_cons, mapLast_append, ivAfter_neg, neg_cons]

theorem before_neg (s : TSet) (c : Int) :
    TSet.truncateBefore (TSet.neg s) (-c) = (TSet.neg (TSet.truncateAfter s c).1, (TSet.truncateAfter s c).2) := by
  have := after_neg (TSet.neg s) (-c)
  rw [neg_neg, Int.neg_neg] at this
  rw [this, neg_neg]

theorem ivBefore_neg (i : Iv) (c : Int) : i.neg.truncateBefore (-c) = ((i.truncateAfter c).1.neg, (i.truncateAfter c).2) := by
  have := ivAfter_neg i.neg (-c)
  rw [iv_neg_neg, Int.neg_neg] at this
  rw [this, iv_neg_neg]

/-! ## Translations -/

theorem tvAdd_neg {a b : Int} (ha : Legal a) (hb : Legal b) : tvAdd (-a) (-b) = Except.map (fun x => -x) (tvAdd a b) := by
  rw [tvAdd_eq ha hb, tvAdd_eq (legal_neg ha) (legal_neg hb)]
  have e : -a + -b = -(a + b) := by omega
  have n1 : ∀ x : Int, -x = INF ↔ x = -INF := by intro x; omega
  have n2 : ∀ x : Int, -x = -INF ↔ x = INF := by intro x; omega
  have n3 : ¬ (-INF : Int) = INF := by decide
  simp only [n1, n2, e, round_neg]
  by_cases a1 : a = INF
  · subst a1
    by_cases b1 : b = -INF <;> simp [b1, Except.map, Ne.symm n3]
  by_cases a2 : a = -INF
  · subst a2
    by_cases b1 : b = INF <;> simp [b1, Except.map, n3]
  by_cases b1 : b = INF
  · subst b1; simp [a1, a2, Except.map, Ne.symm n3]
  by_cases b2 : b = -INF
  · subst b2; simp [a1, a2, Except.map, n3]
  simp [a1, a2, b1, b2, Except.map]

theorem tvAdd_legal {a b x : Int} (ha : Legal a) (hb : Legal b) (h : tvAdd a b = .ok x) : Legal x := by
  rw [tvAdd_eq ha hb] at h
  simp only [Legal, round] at *
  split at h
  · split at h <;> cases h; ticks
  split at h
  · split at h <;> cases h; ticks
  split at h
  · cases h; ticks
  split at h
  · cases h; ticks
  cases h
  split
  · ticks
  · split <;> ticks

theorem tvAdd_stops {a b : Int} {e : Panic} (ha : Legal a) (hb : Legal b) (h : tvAdd a b = .error e) : e = .assertFail := by
  rw [tvAdd_eq ha hb] at h
  split at h
  · split at h <;> cases h; rfl
  split at h
  · split at h <;> cases h; rfl
  split at h
  · cases h
  split at h <;> cases h

theorem new_neg {l u : Int} (hl : Legal l) (hu : Legal u) (dbg : Bool) :
    Iv.debugNonEmpty dbg (Iv.new (-u) (-l)) = Except.map Iv.neg (Iv.debugNonEmpty dbg (Iv.new l u)) := by
  have e : Iv.new (-u) (-l) = (Iv.new l u).neg := by
    simp only [Iv.new, Iv.singleton, Int.neg_lt_neg_iff]
    by_cases c : l < u
    · simp [c, Iv.neg]
    · by_cases c' : l = u
      · subst c'
        have : isFinite (-l) = isFinite l := by rw [Bool.eq_iff_iff, isFinite_iff, isFinite_iff]; omega
        simp only [this, if_true, Int.lt_irrefl, if_false]
        split <;> simp [Iv.neg, Iv.empty]
      · have : ¬ -u = -l := by omega
        simp [c, c', this, Iv.neg, Iv.empty]
  have f : (Iv.new l u).neg.isEmpty = (Iv.new l u).isEmpty := by
    rw [Bool.eq_iff_iff, Iv.isEmpty_iff, Iv.isEmpty_iff]
    simp only [Legal] at *
    simp only [Iv.new, Iv.singleton, Iv.neg]
    split
    · simp only; omega
    split
    · split
      · next h => rw [isFinite_iff] at h; simp only; omega
      · simp [Iv.empty]
    · simp [Iv.empty]
  rw [e]
  simp only [Iv.debugNonEmpty, f]
  split <;> rfl

theorem pair_neg {l u x y : Int} {dbg : Bool} (hl : Legal l) (hx : Legal x) (hu : Legal u) (hy : Legal y) :
    (do let a ← tvAdd (-u) (-y); let b ← tvAdd (-l) (-x); Iv.debugNonEmpty dbg (Iv.new a b)) =
    Except.map Iv.neg (do let a ← tvAdd l x; let b ← tvAdd u y; Iv.debugNonEmpty dbg (Iv.new a b)) := by
  rw [tvAdd_neg hu hy, tvAdd_neg hl hx]
  cases e1 : tvAdd l x with
  | error p =>
    cases e2 : tvAdd u y with
    | error q => rw [tvAdd_stops hl hx e1, tvAdd_stops hu hy e2]; rfl
    | ok b => rfl
  | ok a =>
    cases e2 : tvAdd u y with
    | error q => rfl
    | ok b => exact new_neg (tvAdd_legal hl hx e1) (tvAdd_legal hu hy e2) dbg

end Chrono
