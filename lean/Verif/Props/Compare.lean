import Verif.Props.SetRel

/-!
# Contracts of the comparison and hash traits (C112)
-/

namespace Chrono
open Spec

/-- A value the crate can hold on the left of a comparison: a well-formed or empty interval, a canonical set. -/
def Spec.SoundW : LWin → Prop
  | .iv i => WF i ∨ i = Iv.empty
  | .set s => Canon s

/-- The value has no date. -/
def Spec.EmptyW : LWin → Prop
  | .iv i => i = Iv.empty
  | .set s => s = []

theorem sound_iter {a : LWin} (h : SoundW a) :
    Canon a.win.iter ∧ a.win.lower = TSet.lowerBound a.win.iter ∧ a.win.upper = TSet.upperBound a.win.iter ∧
    a.win.isConvex = TSet.isConvex a.win.iter ∧ (a.win.iter = [] ↔ EmptyW a) := by
  cases a with
  | set s => exact ⟨h, rfl, rfl, rfl, Iff.rfl⟩
  | iv i =>
    rcases h with h | h
    · have e : (LWin.iv i).win.iter = [i] := TSet.iter_wf h
      rw [e]
      refine ⟨⟨by intro j hj; rw [List.mem_singleton.1 hj]; exact h, List.pairwise_singleton _ _⟩, rfl, rfl, rfl, by simp, ?_⟩
      intro h'
      have := h.le
      rw [show i = Iv.empty from h'] at this
      exact absurd this (by decide)
    · subst h
      exact ⟨by decide, by decide, by decide, by decide, by simp [EmptyW, LWin.win, Window.iter]; decide⟩

theorem eq_iff_iter {a b : LWin} (ha : SoundW a) (hb : SoundW b) : a.eq b.win = true ↔ a.win.iter = b.win.iter := by
  cases a with
  | set s => exact eqWin_go
  | iv i =>
    obtain ⟨b0, b1, b2, b3, -⟩ := sound_iter hb
    show (b.win.isConvex && i.lower == b.win.lower && i.upper == b.win.upper) = true ↔ (Convex.iv i).iter = b.win.iter
    rw [b1, b2, b3]
    generalize b.win.iter = l at *
    rcases ha with h | h
    · rw [TSet.iter_wf h]
      obtain ⟨h1, h2, h3, h4, h5⟩ := h
      cases i with
      | mk lo up =>
      simp only at h1 h2 h3 h4 h5
      match l with
      | [] =>
        simp [TSet.isConvex, TSet.convexCount, TSet.lowerBound, TSet.upperBound]
        omega
      | [⟨x, y⟩] => simp [TSet.isConvex, TSet.convexCount, TSet.lowerBound, TSet.upperBound]
      | x :: y :: r => simp [TSet.isConvex, TSet.convexCount]
    · subst h
      rw [show (Convex.iv Iv.empty).iter = [] from by decide]
      match l with
      | [] => decide
      | [⟨x, y⟩] =>
        have := (b0.wf ⟨x, y⟩ (by simp)).lo_lt
        simp only at this
        simp [TSet.isConvex, TSet.convexCount, TSet.lowerBound, TSet.upperBound, Iv.empty]
        omega
      | x :: y :: r => simp [TSet.isConvex, TSet.convexCount]

/-- C112. `==` is reflexive, symmetric and transitive, on intervals, on sets and between the two, empty ones included. -/
theorem C112_equivalence (a b c : LWin) (ha : SoundW a) (hb : SoundW b) (hc : SoundW c) :
    a.eq a.win = true ∧ a.eq b.win = b.eq a.win ∧ (a.eq b.win = true → b.eq c.win = true → a.eq c.win = true) := by
  refine ⟨(eq_iff_iter ha ha).2 rfl, ?_, ?_⟩
  · rw [Bool.eq_iff_iff, eq_iff_iter ha hb, eq_iff_iter hb ha]; exact eq_comm
  · rw [eq_iff_iter ha hb, eq_iff_iter hb hc, eq_iff_iter ha hc]; exact Eq.trans

theorem hash_flat : ∀ a b : List Iv, a.flatMap Iv.hashInput = b.flatMap Iv.hashInput → a = b
  | [], [], _ => rfl
  | [], ⟨_, _⟩ :: _, h => by simp [Iv.hashInput] at h
  | ⟨_, _⟩ :: _, [], h => by simp [Iv.hashInput] at h
  | ⟨x, y⟩ :: r, ⟨x', y'⟩ :: r', h => by
    simp only [List.flatMap_cons, Iv.hashInput, List.cons_append, List.nil_append, List.cons.injEq] at h
    obtain ⟨h1, h2, h3⟩ := h
    rw [h1, h2, hash_flat r r' h3]

/-- C112. Two intervals, or two sets, whatever they hold, are `==` exactly when they give the same input to the hasher, so equal values
always have equal hashes. -/
theorem C112_hash (i j : Iv) (a b : TSet) :
    (i.eqWin (.conv (.iv j)) = true ↔ i.hashInput = j.hashInput) ∧
    (TSet.eqWin a (.set b) = true ↔ TSet.hashInput a = TSet.hashInput b) := by
  constructor
  · rw [eqWin_iv]; cases i; cases j; simp [Iv.hashInput]
  · rw [show TSet.eqWin a (.set b) = TSet.eqWin.go a b from rfl, eqWin_go]
    constructor
    · intro h; rw [h]
    · intro h
      simp only [TSet.hashInput, List.cons.injEq] at h
      exact hash_flat a b h.2

/-- C112. Two canonical sets with the same points have the same hash, however they were computed. -/
theorem C112_hash_points (a b : TSet) (ha : Canon a) (hb : Canon b) (h : ∀ t, InSet t a ↔ InSet t b) :
    TSet.hashInput a = TSet.hashInput b :=
  (C112_hash Iv.empty Iv.empty a b).2.1 ((C34_set_eq a b ha hb).1.2 h)

theorem sound_nonempty {a : LWin} (h : SoundW a) (hne : ¬ EmptyW a) : a.win.lower ≤ a.win.upper := by
  obtain ⟨h0, h1, h2, -, h4⟩ := sound_iter h
  rw [h1, h2]
  exact (canon_bounds h0 (fun e => hne (h4.1 e))).1.le

/-- C112. On non-empty values the operators agree with `partial_cmp` as the standard library requires, `a < b` is `b > a`, `a <= b` is
`b >= a`, and `<`, `<=` are transitive. Missing: empty values, see `C112_order_violated`. -/
theorem C112_order_partial (a b c : LWin) (ha : SoundW a) (hb : SoundW b) (hc : SoundW c)
    (na : ¬ EmptyW a) (nb : ¬ EmptyW b) :
    (a.eq b.win = true ↔ a.partialCmp b.win = some .eq) ∧
    (a.lt b.win = true ↔ a.partialCmp b.win = some .lt) ∧
    (a.gt b.win = true ↔ a.partialCmp b.win = some .gt) ∧
    (a.le b.win = true ↔ a.partialCmp b.win = some .lt ∨ a.partialCmp b.win = some .eq) ∧
    (a.ge b.win = true ↔ a.partialCmp b.win = some .gt ∨ a.partialCmp b.win = some .eq) ∧
    a.lt b.win = b.gt a.win ∧ a.le b.win = b.ge a.win ∧
    (a.lt b.win = true → b.lt c.win = true → a.lt c.win = true) ∧
    (a.le b.win = true → b.le c.win = true → a.le c.win = true) := by
  have ka := sound_nonempty ha na
  have kb := sound_nonempty hb nb
  have eqb : ∀ {x y : LWin}, SoundW x → SoundW y → x.eq y.win = true → x.win.lower = y.win.lower ∧ x.win.upper = y.win.upper := by
    intro x y hx hy h
    obtain ⟨-, x1, x2, -⟩ := sound_iter hx
    obtain ⟨-, y1, y2, -⟩ := sound_iter hy
    have := (eq_iff_iter hx hy).1 h
    exact ⟨by rw [x1, y1, this], by rw [x2, y2, this]⟩
  have sym := (C112_equivalence a b c ha hb hc).2
  have l : a.lt b.win = true ↔ a.win.upper < b.win.lower := by simp [LWin.lt]
  have g : a.gt b.win = true ↔ b.win.upper < a.win.lower := by simp [LWin.gt]
  have lc : b.lt c.win = true ↔ b.win.upper < c.win.lower := by simp [LWin.lt]
  have lac : a.lt c.win = true ↔ a.win.upper < c.win.lower := by simp [LWin.lt]
  have n1 : a.lt b.win = true → a.gt b.win = true → False := by rw [l, g]; omega
  have n2 : a.lt b.win = true → a.eq b.win = true → False := by
    intro h1 h2; have := eqb ha hb h2; rw [l] at h1; omega
  have n3 : a.gt b.win = true → a.eq b.win = true → False := by
    intro h1 h2; have := eqb ha hb h2; rw [g] at h1; omega
  have dual : a.lt b.win = b.gt a.win := by simp [LWin.lt, LWin.gt]
  refine ⟨?_, ?_, ?_, ?_, ?_, dual, by rw [LWin.le, LWin.ge, dual, sym.1], by rw [l, lc, lac]; omega, ?_⟩
  case refine_6 =>
    simp only [LWin.le, Bool.or_eq_true]
    rintro (h1 | h1) (h2 | h2)
    · left; rw [lac]; rw [l] at h1; rw [lc] at h2; omega
    · left; have := eqb hb hc h2; rw [lac]; rw [l] at h1; omega
    · left; have := eqb ha hb h1; rw [lac]; rw [lc] at h2; omega
    · right; exact sym.2 h1 h2
  all_goals
    unfold LWin.partialCmp
    try unfold LWin.le
    try unfold LWin.ge
    clear l g lc lac dual sym
    revert n1 n2 n3
    generalize a.lt b.win = p
    generalize a.gt b.win = q
    generalize a.eq b.win = r
    cases p <;> cases q <;> cases r <;> simp

/-- C112 fails for empty values: compared with any value `b`, the empty one is `<` unless `b` is unbounded below, and `>` unless `b` is
unbounded above, so it is both at once with every bounded value. With the empty value itself it is `==`, `<` and `>`, and `partial_cmp`
answers `Less`. -/
theorem C112_order_violated (a b : LWin) (hb : SoundW b) (ea : EmptyW a) :
    (a.lt b.win = true ↔ b.win.lower ≠ -INF) ∧ (a.gt b.win = true ↔ b.win.upper ≠ INF) ∧
    (b.lt a.win = true ↔ b.win.upper ≠ INF) ∧ (b.gt a.win = true ↔ b.win.lower ≠ -INF) ∧
    (a.eq a.win = true ∧ a.lt a.win = true ∧ a.gt a.win = true ∧ a.partialCmp a.win = some .lt) := by
  have k : a.win.lower = INF ∧ a.win.upper = -INF ∧ SoundW a := by
    cases a with
    | iv i => rw [show i = Iv.empty from ea]; exact ⟨rfl, rfl, Or.inr rfl⟩
    | set s => rw [show s = [] from ea]; exact ⟨rfl, rfl, (by decide : Canon [])⟩
  obtain ⟨k1, k2, k3⟩ := k
  have r := (C112_equivalence a a a k3 k3 k3).1
  have leg : -INF ≤ b.win.lower ∧ b.win.upper ≤ INF := by
    by_cases e : EmptyW b
    · cases b with
      | iv i => rw [show i = Iv.empty from e]; decide
      | set s => rw [show s = [] from e]; decide
    · obtain ⟨h0, h1, h2, -, h4⟩ := sound_iter hb
      rw [h1, h2]
      have := (canon_bounds h0 (fun e' => e (h4.1 e'))).1
      exact ⟨this.lo, this.hi⟩
  have z : a.lt a.win = true := by simp only [LWin.lt, decide_eq_true_eq, k1, k2]; decide
  have z' : a.gt a.win = true := by simp only [LWin.gt, decide_eq_true_eq, k1, k2]; decide
  refine ⟨?_, ?_, ?_, ?_, r, z, z', by rw [LWin.partialCmp, if_pos z]⟩
  all_goals
    simp only [LWin.lt, LWin.gt, decide_eq_true_eq, k1, k2]
    omega

example : SoundW (.iv ⟨0, 9⟩) ∧ SoundW (.set [⟨0, 9⟩]) ∧ SoundW (.set [⟨12, 20⟩, ⟨30, INF⟩]) ∧
    ¬ EmptyW (.iv ⟨0, 9⟩) ∧ ¬ EmptyW (.set [⟨0, 9⟩]) ∧ EmptyW (.iv Iv.empty) ∧ EmptyW (.set []) ∧
    (LWin.iv ⟨0, 9⟩).eq (.set [⟨0, 9⟩]) = true ∧ (LWin.set [⟨0, 9⟩]).eq (.conv (.iv ⟨0, 9⟩)) = true ∧
    (LWin.iv ⟨0, 9⟩).partialCmp (.set [⟨12, 20⟩, ⟨30, INF⟩]) = some .lt ∧
    TSet.hashInput [⟨12, 20⟩, ⟨30, 31⟩] = [2, 12, 20, 30, 31] ∧
    (LWin.iv Iv.empty).lt (.conv (.iv ⟨0, 9⟩)) = true ∧ (LWin.iv Iv.empty).gt (.conv (.iv ⟨0, 9⟩)) = true := by
  refine ⟨Or.inl (by constructor <;> decide), by simp only [SoundW]; decide, by simp only [SoundW]; decide, by simp only [EmptyW]; decide, by simp only [EmptyW]; decide, rfl, rfl, by decide,
    by decide, by decide, by decide, by decide, by decide⟩

end Chrono
