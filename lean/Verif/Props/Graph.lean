import Verif.Lemmas.GraphHist

/-!
# C58, C60–C64, C69, C70: storage, propagation, comparison of instants
-/

set_option linter.unusedSimpArgs false

namespace Chrono
open Spec

/-! ## A graph for the examples: `0 →[10,20] 1 →[5,6] 2`, in minimal form -/

/-- an example -/
def exGraph : Graph := ⟨3, [0, -20, 0, 10, -26, -6, 0, 5, 15]⟩

theorem exGraph_valid : Valid exGraph := by decide

theorem exGraph_minimal : Minimal exGraph := by
  rw [minimal_iff exGraph_valid]
  have d : ∀ i : Fin 3, mat exGraph i i = 0 := by decide
  have t : ∀ i k j : Fin 3, mat exGraph i k ≠ -INF → mat exGraph k j ≠ -INF →
      mat exGraph i j ≠ -INF ∧ mat exGraph i k + mat exGraph k j ≤ mat exGraph i j := by decide
  exact ⟨fun i hi => d ⟨i, hi⟩, fun i hi k hk j hj => t ⟨i, hi⟩ ⟨k, hk⟩ ⟨j, hj⟩⟩

theorem exGraph_within : Within 26 exGraph := by
  rw [within_iff exGraph_valid]
  show ∀ i, i < 3 → ∀ j, j < 3 → (_ ∨ _)
  decide

theorem exGraph_clean : Clean exGraph := by
  rw [clean_iff]
  intro i j _ _ _ h
  apply mat_oob
  show 9 ≤ _
  exact ix_ge_sq (n := 3) h

/-! ## C58 -/

/-- Each pair of instants has its own cell. -/
theorem C58_cells_injective {i j a b c : Nat} (hi : i ≤ 65534) (hj : j ≤ 65534) (ha : a ≤ 65534) (hb : b ≤ 65534)
    (h1 : Graph.cell i j = .ok c) (h2 : Graph.cell a b = .ok c) : i = a ∧ j = b := by
  rw [cell_eq (by omega) (by omega)] at h1 h2
  cases h1
  exact ix_inj (Except.ok.inj h2).symm

/-- The pairs of the `n` first instants use exactly the `n²` first cells. -/
theorem C58_cells_cover {n : Nat} (hn : n ≤ 65535) (c : Nat) :
    c < n * n ↔ ∃ i j, i < n ∧ j < n ∧ Graph.cell i j = .ok c := by
  constructor
  · intro h
    obtain ⟨i, j, hi, hj, e⟩ := ix_surj h
    exact ⟨i, j, hi, hj, by rw [cell_eq (by omega) (by omega), e]⟩
  · rintro ⟨i, j, hi, hj, e⟩
    rw [cell_eq (by omega) (by omega)] at e
    cases e
    exact ix_lt hi hj

/-- Writing one bound changes this one and no other. -/
theorem C58_write_read {g : Graph} (hv : Valid g) {i j a b : Nat} (hi : i < g.size) (hj : j < g.size)
    (ha : a < g.size) (hb : b < g.size) (v : Int) :
    ∃ g', g.setLower i j v = .ok g' ∧ g'.size = g.size ∧ Valid g' ∧
      g'.lower a b = if a = i ∧ b = j then .ok v else g.lower a b := by
  refine ⟨_, setLower_eq hv hi hj v, rfl, hv.put i j v, ?_⟩
  rw [lower_eq (hv.put i j v) (i := a) (j := b) ha hb, lower_eq hv ha hb, mat_put v (hv.ix_lt hi hj)]
  split <;> rfl

/-- Resizing keeps the constraints between the remaining instants; new instants are unconstrained. -/
theorem C58_resize {g : Graph} (hv : Valid g) (hc : Clean g) {n : Nat} (hn : n ≤ 65535) :
    ∃ g', g.resize n = .ok g' ∧ g'.size = n ∧ Valid g' ∧ Clean g' ∧
      (∀ i j, i < g.size → j < g.size → i < n → j < n → g'.timespan i j = g.timespan i j) ∧
      (∀ i j, i ≠ j → (g.size ≤ i ∨ g.size ≤ j) → g'.timespan i j = .ok ⟨-INF, INF⟩) ∧
      (∀ i, g.size ≤ i → i < n → g'.timespan i i = .ok ⟨0, 0⟩) := by
  obtain ⟨g', h1, h2, h3, h4, h5⟩ := grow (clean_iff.1 hc) hn
  refine ⟨g', h1, h2, h3, clean_iff.2 h4, ?_, ?_, ?_⟩
  · intro i j hi hj hin hjn
    rw [timespan_eq h3 (by omega) (by omega), timespan_eq hv hi hj, h5 i j hin hjn, h5 j i hjn hin,
      if_pos ⟨hi, hj⟩, if_pos ⟨hj, hi⟩]
  · intro i j hij ho
    by_cases c : i < n ∧ j < n
    · rw [timespan_eq h3 (by omega) (by omega), h5 i j c.1 c.2, h5 j i c.2 c.1, if_neg (by omega), if_neg hij, if_neg (by omega),
        if_neg (Ne.symm hij)]
      rfl
    · rw [timespan_out (by omega)]; rfl
  · intro i ho hi
    rw [timespan_eq h3 (by omega) (by omega), h5 i i hi hi, if_neg (by omega), if_pos rfl]
    rfl

example : Graph.cell 2 1 = .ok 5 ∧ Graph.cell 1 2 = .ok 7 ∧ Valid exGraph ∧ Clean exGraph :=
  ⟨by decide, by decide, exGraph_valid, exGraph_clean⟩

/-! ## Constraints built from windows -/

/-- The constraint `((i,j), w)` is satisfied exactly when the delay from `i` to `j` is in the window `w`. -/
theorem C62_window_constraint {w : Convex} (hw : Proper w) (i j : Nat) (τ : Nat → Int) (hd : Date (τ j - τ i)) :
    Holds τ (Constr.ofConvex i j w) ↔ InConvex (τ j - τ i) w := by
  rcases hw.cases with ⟨e1, -, -, -, e2⟩ | ⟨e1, e2, -, e3⟩
  · constructor
    · rintro ⟨h, -⟩
      exact absurd (e1.symm.trans h) (by decide)
    · intro h; exact absurd h (e2 _ hd)
  · rw [holds_iff (k := Constr.ofConvex i j w) e1, e3 _ hd]
    show (w.lower = -INF ∨ w.lower ≤ τ j - τ i) ∧ (w.upper = INF ∨ τ j - τ i ≤ w.upper) ↔ _
    unfold Date at hd
    omega

/-- A constraint built from a proper window whose finite bounds are at most `W` is usable. -/
theorem C62_window_usable {w : Convex} (hw : Proper w) {W : Int} {i j n : Nat} (hi : i < n) (hj : j < n)
    (h1 : w.lower = INF ∨ w.lower = -INF ∨ (-W ≤ w.lower ∧ w.lower ≤ W))
    (h2 : w.upper = -INF ∨ w.upper = INF ∨ (-W ≤ w.upper ∧ w.upper ≤ W)) :
    Usable n W (Constr.ofConvex i j w) := by
  refine ⟨hi, hj, fun h => ?_⟩
  rcases hw.cases with ⟨e1, -, -, -, e2⟩ | ⟨e1, e2, -, e3⟩
  · exact absurd (e1.symm.trans h) (by decide)
  · refine ⟨e2, ?_⟩
    have a := e2.lo_lt
    have b := e2.lt_hi
    show (w.lower = -INF ∨ (-W ≤ w.lower ∧ w.lower ≤ W)) ∧ (w.upper = INF ∨ (-W ≤ w.upper ∧ w.upper ≤ W))
    simp only at a b
    refine ⟨?_, ?_⟩ <;> omega

example : Proper (.rangeIncl 10 20) ∧ Holds (fun i => 15 * (i : Int)) (Constr.ofConvex 0 1 (.rangeIncl 10 20)) ∧
    Usable 2 20 (Constr.ofConvex 0 1 (.rangeIncl 10 20)) := by
  refine ⟨by decide, by decide, by decide⟩

/-! ## C60, C61, C62: one call -/

/-- what `propagate` does on the instants of a minimal graph -/
theorem propagate_cases {g : Graph} (hv : Valid g) (hm : Minimal g) {B : Int} (hg : Within B g) {k : Constr}
    (hk : Usable g.size B k) (hB0 : 0 ≤ B) (hB : 9 * B < INF) :
    (g.propagate k = .ok (g, .unchanged) ∧ ∀ τ, Sat τ g → Holds τ k) ∨
    (g.propagate k = .ok (g, .recovered) ∧ ∀ τ, Sat τ g → ¬ Holds τ k) ∨
    (∃ g', g.propagate k = .ok (g', .propagated) ∧ Shape g g' ∧ Minimal g' ∧
      (∀ τ, Sat τ g' ↔ Sat τ g ∧ Holds τ k) ∧ (Clean g → Clean g') ∧ (∃ τ, Sat τ g ∧ ¬ Holds τ k)) := by
  obtain ⟨hs, hd, hk⟩ := hk
  have hC := (minimal_iff hv).1 hm
  have hS := small_of_within hv hg
  cases he : k.isEmpty with
  | true =>
    right; left
    refine ⟨?_, fun τ _ h => ?_⟩
    · unfold Graph.propagate
      rw [if_pos he]; rfl
    · have := h.1
      rw [he] at this
      cases this
  | false =>
    obtain ⟨hw, hkB⟩ := hk he
    have w1 := hw.le
    have w2 := hw.lo
    have w3 := hw.hi
    simp only at w1 w2 w3
    rcases propagate_in hv hC hS he hw hkB hs hd hB0 (by omega) (Or.inr hB) with
      ⟨h1, h2, h3⟩ | ⟨h1, h2⟩ | ⟨g', h1, h2, h3, h4, h5, h6, -⟩
    · left
      refine ⟨h1, fun τ hτ => ?_⟩
      rw [sat_iff hv] at hτ
      rw [holds_iff he]
      have a := hτ _ hs _ hd
      have b := hτ _ hd _ hs
      have sa := hS _ hs _ hd
      have sb := hS _ hd _ hs
      unfold Small at sa sb
      refine ⟨?_, ?_⟩ <;> omega
    · right; left
      exact ⟨h1, fun τ hτ => h2 τ ((sat_iff hv τ).1 hτ)⟩
    · right; right
      have hv' := h2.valid hv
      have sz := h2.size
      refine ⟨g', h1, h2, (minimal_iff hv').2 (by rw [sz]; exact h3), fun τ => ?_, fun hc => ?_, ?_⟩
      · rw [sat_iff hv', sat_iff hv, sz]; exact h4 τ
      · exact clean_iff.2 (h2.clean h5 (clean_iff.1 hc))
      · have sa := hS _ hs _ hd
        have sb := hS _ hd _ hs
        unfold Small at sa sb
        rcases h6 with h6 | h6
        · by_cases c : mat g k.src k.dst = -INF
          · obtain ⟨τ, t1, t2⟩ := hC.attain_below hs hd c k.lower
            refine ⟨τ, (sat_iff hv τ).2 t1, fun h => ?_⟩
            rw [holds_iff he] at h
            omega
          · obtain ⟨τ, t1, t2⟩ := hC.attain_lower hs hd c
            refine ⟨τ, (sat_iff hv τ).2 t1, fun h => ?_⟩
            rw [holds_iff he] at h
            omega
        · by_cases c : mat g k.dst k.src = -INF
          · obtain ⟨τ, t1, t2⟩ := hC.attain_below hd hs c (-k.upper)
            refine ⟨τ, (sat_iff hv τ).2 t1, fun h => ?_⟩
            rw [holds_iff he] at h
            omega
          · obtain ⟨τ, t1, t2⟩ := hC.attain_lower hd hs c
            refine ⟨τ, (sat_iff hv τ).2 t1, fun h => ?_⟩
            rw [holds_iff he] at h
            omega

/-- C60: `propagate` answers `Ok(Unchanged)` exactly when the constraint already follows from the graph; the graph
is then untouched. -/
theorem C60_unchanged_iff {g : Graph} (hv : Valid g) (hm : Minimal g) {B : Int} (hg : Within B g) {k : Constr}
    (hk : Usable g.size B k) (hB0 : 0 ≤ B) (hB : 9 * B < INF) :
    ((∃ g', g.propagate k = .ok (g', .unchanged)) ↔ ∀ τ, Sat τ g → Holds τ k) ∧
    (∀ g', g.propagate k = .ok (g', .unchanged) → g' = g) := by
  obtain ⟨τ0, h0⟩ := hm.1
  rcases propagate_cases hv hm hg hk hB0 hB with ⟨h1, h2⟩ | ⟨h1, h2⟩ | ⟨g1, h1, -, -, -, -, τ, h2, h3⟩
  · rw [h1]
    exact ⟨⟨fun _ => h2, fun _ => ⟨g, rfl⟩⟩, fun g' h => by cases h; rfl⟩
  · rw [h1]
    refine ⟨⟨?_, fun h => absurd (h τ0 h0) (h2 τ0 h0)⟩, ?_⟩
    · rintro ⟨g', h⟩; cases h
    · intro g' h; cases h
  · rw [h1]
    refine ⟨⟨?_, fun h => absurd (h τ h2) h3⟩, ?_⟩
    · rintro ⟨g', h⟩; cases h
    · intro g' h; cases h

/-- C61: `propagate` fails exactly when no solution of the graph satisfies the constraint; the failure is always
`Recovered`, and the graph is then untouched. -/
theorem C61_recovered_iff {g : Graph} (hv : Valid g) (hm : Minimal g) {B : Int} (hg : Within B g) {k : Constr}
    (hk : Usable g.size B k) (hB0 : 0 ≤ B) (hB : 9 * B < INF) :
    ∃ g' o, g.propagate k = .ok (g', o) ∧ (o = .recovered ↔ ¬ ∃ τ, Sat τ g ∧ Holds τ k) ∧ o ≠ .fatal ∧
      (o = .recovered → g' = g) := by
  obtain ⟨τ0, h0⟩ := hm.1
  rcases propagate_cases hv hm hg hk hB0 hB with ⟨h1, h2⟩ | ⟨h1, h2⟩ | ⟨g1, h1, -, h2, h3, -⟩
  · refine ⟨_, _, h1, ⟨fun h => by (cases h), fun h => absurd ⟨τ0, h0, h2 τ0 h0⟩ h⟩, by decide, fun h => rfl⟩
  · exact ⟨_, _, h1, ⟨fun _ ⟨τ, a, b⟩ => h2 τ a b, fun _ => rfl⟩, by decide, fun h => rfl⟩
  · refine ⟨_, _, h1, ⟨fun h => by (cases h), fun h => ?_⟩, by decide, fun h => by (cases h)⟩
    obtain ⟨τ, hτ⟩ := h2.1
    exact absurd ⟨τ, (h3 τ).1 hτ⟩ h

/-- C61: an empty constraint is always rejected, and nothing changes, whatever the graph and the instants. -/
theorem C61_empty_rejected (g : Graph) {k : Constr} (h : k.isEmpty = true) : g.propagate k = .ok (g, .recovered) := by
  unfold Graph.propagate
  rw [if_pos h]; rfl

/-- C61: a constraint `((i,j), w)` whose window has no date is always rejected, and nothing changes. -/
theorem C61_empty_window (g : Graph) {w : Convex} (hw : Proper w) (he : ∀ t, Date t → ¬ InConvex t w) (i j : Nat) :
    g.propagate (Constr.ofConvex i j w) = .ok (g, .recovered) := by
  rcases hw.cases with ⟨e1, -⟩ | ⟨-, e2, -, e3⟩
  · exact C61_empty_rejected g e1
  · exfalso
    have a := e2.lo_lt
    have b := e2.lt_hi
    have c := e2.le
    have l := e2.lo
    have u := e2.hi
    simp only at a b c l u
    by_cases h : w.lower = -INF
    · by_cases h' : w.upper = INF
      · exact he 0 (by decide) ((e3 0 (by decide)).2 ⟨by rw [h]; decide, by rw [h']; decide⟩)
      · have d : Date w.upper := by unfold Date; omega
        exact he _ d ((e3 _ d).2 ⟨by omega, by omega⟩)
    · have d : Date w.lower := by unfold Date; omega
      exact he _ d ((e3 _ d).2 ⟨by omega, by omega⟩)

example : Proper (.rangeIncl 20 10) ∧
    exGraph.propagate (Constr.ofConvex 0 1 (.rangeIncl 20 10)) = .ok (exGraph, .recovered) := by decide

/-- C62: after `Ok(_)` the solutions are exactly those of the old graph which satisfy the constraint; the graph
remains minimal, with the same instants. -/
theorem C62_solutions {g : Graph} (hv : Valid g) (hm : Minimal g) {B : Int} (hg : Within B g) {k : Constr}
    (hk : Usable g.size B k) (hB0 : 0 ≤ B) (hB : 9 * B < INF) {g' : Graph} {o : Outcome}
    (h : g.propagate k = .ok (g', o)) (ho : o = .unchanged ∨ o = .propagated) :
    g'.size = g.size ∧ Valid g' ∧ Minimal g' ∧ (Clean g → Clean g') ∧ ∀ τ, Sat τ g' ↔ Sat τ g ∧ Holds τ k := by
  rcases propagate_cases hv hm hg hk hB0 hB with ⟨h1, h2⟩ | ⟨h1, h2⟩ | ⟨g1, h1, h2, h3, h4, h5, -⟩
  · rw [h1] at h
    cases h
    exact ⟨rfl, hv, hm, id, fun τ => ⟨fun h => ⟨h, h2 τ h⟩, fun h => h.1⟩⟩
  · rw [h1] at h
    cases h
    rcases ho with ho | ho <;> cases ho
  · rw [h1] at h
    cases h
    exact ⟨h2.size, h2.valid hv, h3, h5, h4⟩

/-- the three outcomes, on the example -/
example : Valid exGraph ∧ Minimal exGraph ∧ Within 26 exGraph ∧
    Usable 3 26 ⟨0, 2, false, 1, 26⟩ ∧ exGraph.propagate ⟨0, 2, false, 1, 26⟩ = .ok (exGraph, .unchanged) ∧
    Usable 3 26 ⟨0, 2, false, -5, 14⟩ ∧ exGraph.propagate ⟨0, 2, false, -5, 14⟩ = .ok (exGraph, .recovered) ∧
    Usable 3 26 ⟨0, 2, false, 24, 25⟩ ∧ exGraph.propagate ⟨0, 2, false, 24, 25⟩ =
      .ok (⟨3, [0, -20, 0, 18, -25, -6, 0, 5, 24]⟩, .propagated) ∧ 9 * 26 < INF := by
  refine ⟨exGraph_valid, exGraph_minimal, exGraph_within, ?_, ?_, ?_, ?_, ?_, ?_, ?_⟩ <;> decide

/-! ## Growth: C62 and C64 -/

/-- C62, when the graph grows: the solutions are exactly those of the old graph which satisfy the constraint. -/
theorem C62_solutions_growth {g : Graph} (hv : Valid g) (hc : Clean g) {k : Constr} (hk : k.isEmpty = false)
    (hs : g.size ≤ max k.src k.dst) (hm : max k.src k.dst < 65535) (hne : k.src ≠ k.dst) :
    ∃ g', g.propagate k = .ok (g', .propagated) ∧ g'.size = max k.src k.dst + 1 ∧ Valid g' ∧ Clean g' ∧
      ∀ τ, Sat τ g' ↔ Sat τ g ∧ Holds τ k := by
  obtain ⟨g', h1, h2, h3, h4, h5⟩ := propagate_grow (clean_iff.1 hc) hk hs hm hne
  refine ⟨g', h1, h2, h3, clean_iff.2 h4, fun τ => ?_⟩
  rw [sat_iff h3, sat_iff hv]
  exact grow_step_sat hk hs hne h2 h5 τ

/-- C62 is violated by every non-empty constraint without 0 from a new instant to itself, which no assignment satisfies: it is
accepted. All the solutions of the graph remain if the time span is positive, none if it is negative. -/
theorem C62_self_violated {g : Graph} (hv : Valid g) (hc : Clean g) {k : Constr} (hk : k.isEmpty = false)
    (hw : WF k.span) (he : k.src = k.dst) (hs : g.size ≤ k.src) (hm : k.src < 65535)
    (h0 : 0 < k.lower ∨ k.upper < 0) :
    ∃ g', g.propagate k = .ok (g', .propagated) ∧ (∀ τ, ¬ Holds τ k) ∧
      (0 < k.lower → ∀ τ, Sat τ g' ↔ Sat τ g) ∧ (k.upper < 0 → ∀ τ, ¬ Sat τ g') := by
  have w1 := hw.le
  have w2 := hw.hi
  have w3 := hw.lo
  obtain ⟨src, dst, em, lo, up⟩ := k
  simp only [Constr.span] at *
  subst he hk
  obtain ⟨g1, r1, r2, r3, r4, r5⟩ := grow (clean_iff.1 hc) (n := src + 1) (by omega)
  have hs1 : src < g1.size := by omega
  have v2 := r3.put src src lo
  have v3 := v2.put src src (-up)
  have hmat : ∀ a b, a < src + 1 → b < src + 1 → mat (put (put g1 src src lo) src src (-up)) a b =
      if a = src ∧ b = src then -up else if a < g.size ∧ b < g.size then mat g a b else if a = b then 0 else -INF := by
    intro a b ha hb
    rw [mat_put _ (v2.ix_lt (i := src) (j := src) hs1 hs1), mat_put _ (r3.ix_lt hs1 hs1), r5 a b ha hb]
    split <;> rfl
  refine ⟨put (put g1 src src lo) src src (-up), ?_, ?_, ?_, ?_⟩
  · unfold Graph.propagate
    have hs' : g.size ≤ max src src := by omega
    simp only [Bool.false_eq_true, if_false]
    rw [if_pos hs']
    have e : ((max src src : Nat) : Int) + 1 = ((src + 1 : Nat) : Int) := by omega
    have e2 : ((src + 1 : Nat) : Int).toNat = src + 1 := by omega
    rw [e, chkU32_ok (by omega) (by omega), ok_bind, e2, r1, ok_bind, setLower_eq r3 hs1 hs1, ok_bind,
      setLower_eq v2 (i := src) (j := src) hs1 hs1, ok_bind]
    rfl
  · intro τ h
    rw [holds_iff rfl] at h
    simp only at h
    ticks
  · intro hl τ
    rw [sat_iff v3, sat_iff hv]
    simp only [put_size, r2]
    constructor
    · intro h i hi j hj
      have := h i (by omega) j (by omega)
      rw [hmat i j (by omega) (by omega), if_neg (by omega), if_pos ⟨hi, hj⟩] at this
      exact this
    · intro h i hi j hj
      rw [hmat i j hi hj]
      split
      · rename_i c; obtain ⟨rfl, rfl⟩ := c; omega
      · split
        · rename_i c; exact h i c.1 j c.2
        · split
          · rename_i c; subst c; right; omega
          · left; rfl
  · intro hl τ h
    rw [sat_iff v3] at h
    have := h src (by simp only [put_size]; omega) src (by simp only [put_size]; omega)
    rw [hmat src src (by omega) (by omega), if_pos ⟨rfl, rfl⟩] at this
    ticks

example : Valid Graph.default ∧ Graph.default.size ≤ 0 ∧ WF (Constr.span ⟨0, 0, false, 5, 10⟩) ∧
    Graph.default.propagate ⟨0, 0, false, 5, 10⟩ = .ok (⟨1, [-10]⟩, .propagated) := by decide

/-- C64, partial: growing never loses consistency, keeps exactly the right solutions, and keeps the graph minimal when
both instants of the constraint are new. Missing: minimality when one of them already has constraints, which fails
(next theorem). -/
theorem C64_growth_partial {g : Graph} (hv : Valid g) (hc : Clean g) (hmin : Minimal g) {k : Constr}
    (hk : k.isEmpty = false) (hw : WF ⟨k.lower, k.upper⟩) (hs : g.size ≤ max k.src k.dst)
    (hm : max k.src k.dst < 65535) (hne : k.src ≠ k.dst) :
    ∃ g', g.propagate k = .ok (g', .propagated) ∧ (∀ τ, Sat τ g' ↔ Sat τ g ∧ Holds τ k) ∧ (∃ τ, Sat τ g') ∧
      (g.size ≤ k.src → g.size ≤ k.dst → Minimal g') := by
  obtain ⟨g', h1, h2, h3, h4, h5⟩ := propagate_grow (clean_iff.1 hc) hk hs hm hne
  have w1 := hw.le
  have w2 := hw.lo
  have w3 := hw.hi
  have w4 := hw.lo_lt
  have w5 := hw.lt_hi
  simp only at w1 w2 w3 w4 w5
  have hsat : ∀ τ, Sat τ g' ↔ Sat τ g ∧ Holds τ k := by
    intro τ
    rw [sat_iff h3, sat_iff hv]
    exact grow_step_sat hk hs hne h2 h5 τ
  refine ⟨g', h1, hsat, ?_, ?_⟩
  · -- move the new instant
    obtain ⟨τ, hτ⟩ := hmin.1
    -- a delay allowed by the constraint
    obtain ⟨d, d1, d2⟩ : ∃ d, (k.lower = -INF ∨ k.lower ≤ d) ∧ (k.upper = INF ∨ d ≤ k.upper) := by
      by_cases c : k.lower = -INF
      · by_cases c2 : k.upper = INF
        · exact ⟨0, Or.inl c, Or.inl c2⟩
        · exact ⟨k.upper, Or.inl c, Or.inr (Int.le_refl _)⟩
      · exact ⟨k.lower, Or.inr (Int.le_refl _), Or.inr w1⟩
    have old : ∀ σ : Nat → Int, (∀ i, i < g.size → σ i = τ i) → Sat σ g := by
      intro σ h i j hi hj
      obtain ⟨s, a, b⟩ := hτ i j hi hj
      exact ⟨s, a, by rw [h i hi, h j hj]; exact b⟩
    by_cases c : g.size ≤ k.dst
    · refine ⟨fun i => if i = k.dst then τ k.src + d else τ i, (hsat _).2 ⟨old _ ?_, ?_⟩⟩
      · intro i hi; show (if _ then _ else _) = _; rw [if_neg (by omega)]
      · rw [holds_iff hk]
        simp only [if_true]
        rw [if_neg hne]
        have : τ k.src + d - τ k.src = d := by omega
        rw [this]; exact ⟨d1, d2⟩
    · refine ⟨fun i => if i = k.src then τ k.dst - d else τ i, (hsat _).2 ⟨old _ ?_, ?_⟩⟩
      · intro i hi; show (if _ then _ else _) = _; rw [if_neg (by omega)]
      · rw [holds_iff hk]
        simp only [if_true]
        rw [if_neg (Ne.symm hne)]
        have : τ k.dst - (τ k.dst - d) = d := by omega
        rw [this]; exact ⟨d1, d2⟩
  · intro n1 n2
    rw [minimal_iff h3]
    have hC := (minimal_iff hv).1 hmin
    have z : (0 : Int) ≠ -INF := by decide
    -- the entries of the row and of the column of a new instant
    constructor
    · intro i hi
      rw [h5 i i hi hi, if_neg (by omega), if_neg (by omega)]
      split
      · rename_i c; exact hC.diag i c.1
      · rw [if_pos rfl]
    · intro i hi j hj l hl h6 h7
      have key : ∀ a b, a < g'.size → b < g'.size → mat g' a b ≠ -INF →
          (a < g.size ∧ b < g.size ∧ mat g' a b = mat g a b) ∨
          (g.size ≤ a ∧ g.size ≤ b ∧ ((a = b ∧ mat g' a b = 0) ∨ (a = k.src ∧ b = k.dst ∧ mat g' a b = k.lower) ∨
            (a = k.dst ∧ b = k.src ∧ mat g' a b = -k.upper))) := by
        intro a b ha hb hn
        rw [h5 a b ha hb] at hn ⊢
        by_cases c1 : a = k.src ∧ b = k.dst
        · rw [if_pos c1] at hn ⊢
          right
          exact ⟨by omega, by omega, Or.inr (Or.inl ⟨c1.1, c1.2, rfl⟩)⟩
        · rw [if_neg c1] at hn ⊢
          by_cases c2 : a = k.dst ∧ b = k.src
          · rw [if_pos c2] at hn ⊢
            right
            exact ⟨by omega, by omega, Or.inr (Or.inr ⟨c2.1, c2.2, rfl⟩)⟩
          · rw [if_neg c2] at hn ⊢
            by_cases c3 : a < g.size ∧ b < g.size
            · rw [if_pos c3]
              left; exact ⟨c3.1, c3.2, rfl⟩
            · rw [if_neg c3] at hn ⊢
              by_cases c4 : a = b
              · rw [if_pos c4]
                right; exact ⟨by omega, by omega, Or.inl ⟨c4, rfl⟩⟩
              · rw [if_neg c4] at hn
                exact absurd rfl hn
      rcases key i j hi hj h6 with ⟨a1, a2, a3⟩ | ⟨a1, a2, a3⟩
      · rcases key j l hj hl h7 with ⟨b1, b2, b3⟩ | ⟨b1, b2, b3⟩
        · rw [a3] at h6 ⊢
          rw [b3] at h7 ⊢
          rw [h5 i l hi hl, if_neg (by omega), if_neg (by omega), if_pos ⟨a1, b2⟩]
          exact hC.tri i a1 j a2 l b2 h6 h7
        · omega
      · rcases key j l hj hl h7 with ⟨b1, b2, b3⟩ | ⟨b1, b2, b3⟩
        · omega
        · -- between the new instants
          have e1 : i = j → mat g' i j = 0 := by
            intro e; subst e
            rw [h5 i i hi hi, if_neg (by omega), if_neg (by omega), if_neg (by omega), if_pos rfl]
          have e2 : j = l → mat g' j l = 0 := by
            intro e; subst e
            rw [h5 j j hj hj, if_neg (by omega), if_neg (by omega), if_neg (by omega), if_pos rfl]
          by_cases c1 : i = j
          · have := e1 c1
            subst c1
            exact ⟨h7, by omega⟩
          · by_cases c2 : j = l
            · have := e2 c2
              subst c2
              exact ⟨h6, by omega⟩
            · have eil : i = l := by omega
              subst eil
              rw [h5 i i hi hi, if_neg (by omega), if_neg (by omega), if_neg (by omega), if_pos rfl]
              exact ⟨z, by omega⟩

/-- A closed matrix extended with a row and a column for a new instant `n`, linked only to `a`: closed iff nothing can be deduced. -/
theorem link_closed {m m' n a : Nat} {M M' : Mat} {p q : Int} (hC : Closed m M) (ha : a < m) (hn : m ≤ n) (hn' : n < m')
    (hpq : p ≠ -INF → q ≠ -INF → p + q ≤ 0)
    (h : ∀ x y, x < m' → y < m' → M' x y = if x = a ∧ y = n then p else if x = n ∧ y = a then q
      else if x < m ∧ y < m then M x y else if x = y then 0 else -INF) :
    Closed m' M' ↔ ∀ b, b < m → b ≠ a → (p = -INF ∨ M b a = -INF) ∧ (q = -INF ∨ M a b = -INF) := by
  have z : (0 : Int) ≠ -INF := by decide
  have e1 : M' a n = p := by rw [h a n (by omega) hn', if_pos ⟨rfl, rfl⟩]
  have e2 : M' n a = q := by rw [h n a hn' (by omega), if_neg (by omega), if_pos ⟨rfl, rfl⟩]
  have e3 : ∀ x y, x < m → y < m → M' x y = M x y := by
    intro x y hx hy
    rw [h x y (by omega) (by omega), if_neg (by omega), if_neg (by omega), if_pos ⟨hx, hy⟩]
  constructor
  · intro hc b hb hne
    have e4 : M' b n = -INF := by
      rw [h b n (by omega) hn', if_neg (by omega), if_neg (by omega), if_neg (by omega), if_neg (by omega)]
    have e5 : M' n b = -INF := by
      rw [h n b hn' (by omega), if_neg (by omega), if_neg (by omega), if_neg (by omega), if_neg (by omega)]
    constructor
    · by_cases c1 : p = -INF
      · exact Or.inl c1
      · by_cases c2 : M b a = -INF
        · exact Or.inr c2
        · exact absurd e4 (hc.tri b (by omega) a (by omega) n hn' (by rw [e3 b a hb ha]; exact c2) (by rw [e1]; exact c1)).1
    · by_cases c1 : q = -INF
      · exact Or.inl c1
      · by_cases c2 : M a b = -INF
        · exact Or.inr c2
        · exact absurd e5 (hc.tri n hn' a (by omega) b (by omega) (by rw [e2]; exact c1) (by rw [e3 a b ha hb]; exact c2)).1
  · intro hcond
    constructor
    · intro i hi
      rw [h i i hi hi, if_neg (by omega), if_neg (by omega)]
      split
      · rename_i c; exact hC.diag i c.1
      · rw [if_pos rfl]
    · have key : ∀ x y, x < m' → y < m' → M' x y ≠ -INF → (x = y ∧ M' x y = 0) ∨ (x < m ∧ y < m ∧ M' x y = M x y) ∨
          (x = a ∧ y = n ∧ M' x y = p) ∨ (x = n ∧ y = a ∧ M' x y = q) := by
        intro x y hx hy hne
        rw [h x y hx hy] at hne ⊢
        by_cases c1 : x = a ∧ y = n
        · rw [if_pos c1]; exact Or.inr (Or.inr (Or.inl ⟨c1.1, c1.2, rfl⟩))
        · rw [if_neg c1] at hne ⊢
          by_cases c2 : x = n ∧ y = a
          · rw [if_pos c2]; exact Or.inr (Or.inr (Or.inr ⟨c2.1, c2.2, rfl⟩))
          · rw [if_neg c2] at hne ⊢
            by_cases c3 : x < m ∧ y < m
            · rw [if_pos c3]; exact Or.inr (Or.inl ⟨c3.1, c3.2, rfl⟩)
            · rw [if_neg c3] at hne ⊢
              by_cases c4 : x = y
              · rw [if_pos c4]; exact Or.inl ⟨c4, rfl⟩
              · rw [if_neg c4] at hne; exact absurd rfl hne
      intro i hi j hj l hl h6 h7
      rcases key i j hi hj h6 with ⟨a1, a2⟩ | ⟨a1, a2, a3⟩ | ⟨a1, a2, a3⟩ | ⟨a1, a2, a3⟩
      · subst a1; exact ⟨h7, by omega⟩
      · rcases key j l hj hl h7 with ⟨b1, b2⟩ | ⟨b1, b2, b3⟩ | ⟨b1, b2, b3⟩ | ⟨b1, b2, b3⟩
        · subst b1; exact ⟨h6, by omega⟩
        · rw [a3] at h6 ⊢
          rw [b3] at h7 ⊢
          rw [e3 i l a1 b2]
          exact hC.tri i a1 j a2 l b2 h6 h7
        · rw [a3] at h6 ⊢
          rw [b3] at h7 ⊢
          subst b1 b2
          by_cases c : i = j
          · subst c
            rw [e1, hC.diag i a1]
            exact ⟨h7, by omega⟩
          · rcases (hcond i a1 c).1 with d | d
            · exact absurd d h7
            · exact absurd d h6
        · omega
      · subst a1 a2
        rcases key j l hj hl h7 with ⟨b1, b2⟩ | ⟨b1, b2, b3⟩ | ⟨b1, b2, b3⟩ | ⟨b1, b2, b3⟩
        · subst b1; exact ⟨h6, by omega⟩
        · omega
        · omega
        · subst b2
          rw [a3] at h6 ⊢
          rw [b3] at h7 ⊢
          rw [e3 l l ha ha, hC.diag l ha]
          exact ⟨z, hpq h6 h7⟩
      · subst a1 a2
        rcases key j l hj hl h7 with ⟨b1, b2⟩ | ⟨b1, b2, b3⟩ | ⟨b1, b2, b3⟩ | ⟨b1, b2, b3⟩
        · subst b1; exact ⟨h6, by omega⟩
        · rw [a3] at h6 ⊢
          rw [b3] at h7 ⊢
          by_cases c : l = j
          · subst c
            rw [e2, hC.diag l b2]
            exact ⟨h6, by omega⟩
          · rcases (hcond l b2 c).2 with d | d
            · exact absurd d h6
            · exact absurd d h7
        · subst b2
          rw [a3] at h6 ⊢
          rw [b3] at h7 ⊢
          rw [h l l hl hl, if_neg (by omega), if_neg (by omega), if_neg (by omega), if_pos rfl]
          have := hpq h7 h6
          exact ⟨z, by omega⟩
        · omega

/-- C64, decided, for a constraint from an old instant to a new one: the grown graph is minimal iff nothing can be deduced, that is
iff no other instant has a lower bound to the old one which the lower bound of the constraint would prolong, nor an upper bound to the
old one which its upper bound would prolong. -/
theorem C64_exact_partial {g : Graph} (hv : Valid g) (hc : Clean g) (hmin : Minimal g) {k : Constr}
    (hk : k.isEmpty = false) (hw : WF ⟨k.lower, k.upper⟩) (hs : k.src < g.size) (hd : g.size ≤ k.dst) (hm : k.dst < 65535) :
    ∃ g', g.propagate k = .ok (g', .propagated) ∧
      (Minimal g' ↔ ∀ b, b < g.size → b ≠ k.src → ∀ s, g.timespan b k.src = .ok s →
        (k.lower = -INF ∨ s.lower = -INF) ∧ (k.upper = INF ∨ s.upper = INF)) := by
  obtain ⟨g', h1, h2, h3, h4, h5⟩ := propagate_grow (clean_iff.1 hc) hk (by omega) (by omega) (by omega)
  refine ⟨g', h1, ?_⟩
  have w1 := hw.le
  simp only at w1
  rw [minimal_iff h3, link_closed ((minimal_iff hv).1 hmin) hs hd (by omega) (p := k.lower) (q := -k.upper) (by omega) h5]
  constructor
  · intro h b hb hne s he
    rw [timespan_eq hv hb hs] at he
    cases he
    have := h b hb hne
    simp only; omega
  · intro h b hb hne
    have := h b hb hne _ (timespan_eq hv hb hs)
    simp only at this; omega

/-- C64, decided, for a constraint from a new instant to an old one. -/
theorem C64_exact_reverse_partial {g : Graph} (hv : Valid g) (hc : Clean g) (hmin : Minimal g) {k : Constr}
    (hk : k.isEmpty = false) (hw : WF ⟨k.lower, k.upper⟩) (hs : g.size ≤ k.src) (hd : k.dst < g.size) (hm : k.src < 65535) :
    ∃ g', g.propagate k = .ok (g', .propagated) ∧
      (Minimal g' ↔ ∀ b, b < g.size → b ≠ k.dst → ∀ s, g.timespan k.dst b = .ok s →
        (k.lower = -INF ∨ s.lower = -INF) ∧ (k.upper = INF ∨ s.upper = INF)) := by
  obtain ⟨g', h1, h2, h3, h4, h5⟩ := propagate_grow (clean_iff.1 hc) hk (by omega) (by omega) (by omega)
  refine ⟨g', h1, ?_⟩
  have w1 := hw.le
  simp only at w1
  rw [minimal_iff h3, link_closed ((minimal_iff hv).1 hmin) hd hs (by omega) (p := -k.upper) (q := k.lower) (by omega)
    (by
      intro x y hx hy
      rw [h5 x y hx hy]
      by_cases c1 : x = k.src ∧ y = k.dst
      · rw [if_pos c1, if_neg (by omega), if_pos c1]
      · rw [if_neg c1]
        by_cases c2 : x = k.dst ∧ y = k.src
        · rw [if_pos c2, if_pos c2]
        · rw [if_neg c2, if_neg c2, if_neg c1])]
  constructor
  · intro h b hb hne s he
    rw [timespan_eq hv hd hb] at he
    cases he
    have := h b hb hne
    simp only; omega
  · intro h b hb hne
    have := h b hb hne _ (timespan_eq hv hd hb)
    simp only at this; omega

/-- C64 is violated as soon as something can be deduced: if `b` is at least `s.lower` before the old instant and the new one at least
`k.lower` after it, the new one is at least `s.lower + k.lower` after `b` in every solution, but any delay is announced. -/
theorem C64_deduction_violated {g : Graph} (hv : Valid g) (hc : Clean g) (hmin : Minimal g) {k : Constr}
    (hk : k.isEmpty = false) (hw : WF ⟨k.lower, k.upper⟩) (hs : k.src < g.size) (hd : g.size ≤ k.dst) (hm : k.dst < 65535)
    {b : Nat} (hb : b < g.size) (hne : b ≠ k.src) {s : Iv} (he : g.timespan b k.src = .ok s) (h1 : k.lower ≠ -INF)
    (h2 : s.lower ≠ -INF) :
    ∃ g', g.propagate k = .ok (g', .propagated) ∧ g'.timespan b k.dst = .ok ⟨-INF, INF⟩ ∧
      (∀ τ, Sat τ g' → s.lower + k.lower ≤ τ k.dst - τ b) ∧ ¬ Minimal g' := by
  obtain ⟨g', e1, hsat, -, -⟩ := C64_growth_partial hv hc hmin hk hw (by omega) (by omega) (by omega)
  obtain ⟨g1, e2, sz, v1, -, h5⟩ := propagate_grow (clean_iff.1 hc) hk (by omega) (by omega) (by omega)
  obtain ⟨g2, e3, hx⟩ := C64_exact_partial hv hc hmin hk hw hs hd hm
  rw [e1] at e2 e3
  cases e2
  cases e3
  refine ⟨g', e1, ?_, ?_, ?_⟩
  · rw [timespan_eq v1 (by omega) (by omega), h5 b k.dst (by omega) (by omega), h5 k.dst b (by omega) (by omega),
      if_neg (by omega), if_neg (by omega), if_neg (by omega), if_neg (by omega), if_neg (by omega), if_neg (by omega),
      if_neg (by omega), if_neg (by omega)]
    rfl
  · intro τ hτ
    obtain ⟨p1, p2⟩ := (hsat τ).1 hτ
    obtain ⟨s', q1, q2⟩ := p1 b k.src hb hs
    rw [he] at q1
    cases q1
    have r1 := q2.1
    have r2 := p2.2.1
    simp only at r2
    omega
  · intro hmn
    have := (hx.1 hmn b hb hne s he).1
    omega

example : Valid exGraph ∧ Clean exGraph ∧ Minimal exGraph ∧ (1 : Nat) < exGraph.size ∧ exGraph.timespan 0 1 = .ok ⟨10, 20⟩ :=
  ⟨exGraph_valid, exGraph_clean, exGraph_minimal, by decide, by decide⟩

/-- C64 is violated: with `10 ≤ t₁ - t₀ ≤ 20` known, accepting `5 ≤ t₂ - t₁ ≤ 6` on the new instant 2 announces any
delay from 0 to 2, although all the solutions have a delay of at least 15. -/
theorem C64_growth_violated : ∃ g g', Graph.default.propagate ⟨0, 1, false, 10, 20⟩ = .ok (g, .propagated) ∧
    Valid g ∧ Clean g ∧ Minimal g ∧ g.propagate ⟨1, 2, false, 5, 6⟩ = .ok (g', .propagated) ∧
    g'.timespan 0 2 = .ok ⟨-INF, INF⟩ ∧ (∀ τ, Sat τ g' → 15 ≤ τ 2 - τ 0) ∧ ¬ Minimal g' := by
  have hmin : Minimal ⟨2, [0, -20, 0, 10]⟩ := by
    obtain ⟨g', h1, h2, h3, h4⟩ := C64_growth_partial (g := Graph.default) default_valid (clean_iff.2 default_clean)
      ((minimal_iff default_valid).2 ⟨fun i hi => absurd hi (by show ¬ i < 0; omega),
        fun i hi => absurd hi (by show ¬ i < 0; omega)⟩) (k := ⟨0, 1, false, 10, 20⟩) rfl (by decide)
      (by decide) (by decide) (by decide)
    have e : Graph.default.propagate ⟨0, 1, false, 10, 20⟩ = .ok (⟨2, [0, -20, 0, 10]⟩, .propagated) := by decide
    rw [e] at h1
    cases h1
    exact h4 (by decide) (by decide)
  have sat15 : ∀ τ, Sat τ ⟨3, [0, -20, 0, 10, -INF, -6, 0, 5, -INF]⟩ → 15 ≤ τ 2 - τ 0 := by
    intro τ h
    obtain ⟨s, h1, h2⟩ := h 0 1 (by decide) (by decide)
    obtain ⟨s', h3, h4⟩ := h 1 2 (by decide) (by decide)
    have e1 : Graph.timespan ⟨3, [0, -20, 0, 10, -INF, -6, 0, 5, -INF]⟩ 0 1 = .ok ⟨10, 20⟩ := by decide
    have e2 : Graph.timespan ⟨3, [0, -20, 0, 10, -INF, -6, 0, 5, -INF]⟩ 1 2 = .ok ⟨5, 6⟩ := by decide
    rw [e1] at h1
    rw [e2] at h3
    cases h1
    cases h3
    have a := h2.1
    have b := h4.1
    simp only [INF] at a b
    omega
  have e3 : Graph.timespan ⟨3, [0, -20, 0, 10, -INF, -6, 0, 5, -INF]⟩ 0 2 = .ok ⟨-INF, INF⟩ := by decide
  refine ⟨⟨2, [0, -20, 0, 10]⟩, ⟨3, [0, -20, 0, 10, -INF, -6, 0, 5, -INF]⟩, by decide, by decide, ?_, hmin,
    by decide, e3, sat15, ?_⟩
  · rw [clean_iff]
    intro i j _ _ _ h
    exact mat_oob (ix_ge_sq (n := 2) h)
  · intro h
    obtain ⟨τ, t1, t2⟩ := h.2 0 2 (by decide) (by decide) _ e3 0 (by decide)
    have := sat15 τ t1
    omega

example : Valid exGraph ∧ Clean exGraph ∧ Minimal exGraph ∧ WF ⟨1, 2⟩ ∧ exGraph.size ≤ max 3 4 :=
  ⟨exGraph_valid, exGraph_clean, exGraph_minimal, by decide, by decide⟩

/-! ## C63: histories -/

/-- C63: successive propagations on a graph of `n` instants keep it minimal, whatever is rejected; the solutions are
the assignments which satisfy all the accepted constraints; the delays announced by `timespan` are exactly
those that the accepted constraints imply. A further constraint is rejected if and only if it contradicts the
accepted ones, and reported as bringing nothing if and only if they imply it. The bounds are such that no computation
saturates: `3·n·W` is at most `i64::MAX`. -/
theorem C63_history {n : Nat} (hn : n ≤ 65535) {W : Int} (hW : 0 ≤ W) (hB : 3 * (n : Int) * W < INF)
    {ks : List Constr} (hks : ∀ k ∈ ks, Usable n W k) :
    ∃ g acc, (Graph.withSize n >>= fun g => propagateAll g ks) = .ok (g, acc) ∧ g.size = n ∧ Minimal g ∧
      (∀ τ, Sat τ g ↔ ∀ k ∈ acc, Holds τ k) ∧
      (∀ i j, i < n → j < n → ∃ s, g.timespan i j = .ok s ∧
        ∀ d, InExt d s ↔ ∃ τ, (∀ k ∈ acc, Holds τ k) ∧ τ j - τ i = d) ∧
      ∀ k, Usable n W k → ∃ g' o, g.propagate k = .ok (g', o) ∧ o ≠ .fatal ∧
        (o = .recovered ↔ ¬ ∃ τ, (∀ k ∈ acc, Holds τ k) ∧ Holds τ k) ∧
        (o = .unchanged ↔ ∀ τ, (∀ k ∈ acc, Holds τ k) → Holds τ k) := by
  obtain ⟨g0, e0, n0, v0, -, m0⟩ := withSize_eq hn
  obtain ⟨g, acc, e1, s1, c1, t1, -, a1, -, -⟩ := propagateAll_tight hW v0 (unconstrained_closed (by rw [n0]; exact m0))
    (unconstrained_tight (by rw [n0]; exact m0)) (by rw [n0]; exact hB) (by rw [n0]; exact hks)
  have sz := s1.size
  have hv := s1.valid v0
  have hsat : ∀ τ, MSat g.size (mat g) τ ↔ ∀ k ∈ acc, Holds τ k := by
    intro τ
    rw [sz, a1]
    exact ⟨fun h => h.2, fun h => ⟨unconstrained_sat (by rw [n0]; exact m0) τ, h⟩⟩
  have hmin := (minimal_iff hv).2 (by rw [sz]; exact c1)
  refine ⟨g, acc, by rw [e0, ok_bind]; exact e1, by omega, hmin, fun τ => by rw [sat_iff hv, hsat], ?_, ?_⟩
  · intro i j hi hj
    refine ⟨_, timespan_eq hv (i := i) (j := j) (by omega) (by omega), fun d => ⟨fun h => ?_, ?_⟩⟩
    · obtain ⟨τ, t1, t2⟩ := hmin.2 i j (by omega) (by omega) _ (timespan_eq hv (by omega) (by omega)) d h
      rw [sat_iff hv, hsat] at t1
      exact ⟨τ, t1, t2⟩
    · rintro ⟨τ, t1, t2⟩
      rw [← hsat, ← sat_iff hv] at t1
      obtain ⟨s, t3, t4⟩ := t1 i j (by omega) (by omega)
      rw [timespan_eq hv (by omega) (by omega)] at t3
      cases t3
      rw [← t2]
      exact t4
  · intro k hk
    obtain ⟨g', o, e, -, cl, -, -, nf, r, a, u⟩ := propagate_tight hv hW (by rw [sz]; exact c1) (by rw [sz]; exact t1)
      (by rw [sz, n0]; exact hB) (k := k) (by rw [sz, n0]; exact hk)
    refine ⟨g', o, e, nf, ⟨fun h => ?_, fun h => ?_⟩, ?_⟩
    · rintro ⟨τ, t1, t2⟩
      exact (r h).2 τ ((hsat τ).2 t1) t2
    · by_cases c : o = .recovered
      · exact c
      · obtain ⟨τ, t⟩ := cl.sat
        rw [a c] at t
        exact absurd ⟨τ, (hsat τ).1 t.1, t.2⟩ h
    · rw [u]
      exact ⟨fun h τ t => h τ ((hsat τ).2 t), fun h τ t => h τ ((hsat τ).1 t)⟩

example : 3 * ((3 : Nat) : Int) * 26 < INF ∧ Usable 3 26 ⟨0, 1, false, 10, 20⟩ ∧ Usable 3 26 ⟨1, 0, false, 5, INF⟩ ∧
    Usable 3 26 ⟨1, 2, false, 5, 6⟩ ∧
    (Graph.withSize 3 >>= fun g => propagateAll g
      [⟨0, 1, false, 10, 20⟩, ⟨1, 0, false, 5, INF⟩, ⟨1, 2, false, 5, 6⟩]) =
      .ok (exGraph, [⟨0, 1, false, 10, 20⟩, ⟨1, 2, false, 5, 6⟩]) := by
  refine ⟨?_, ?_, ?_, ?_, ?_⟩ <;> decide

/-! ## C69: comparison of instants -/

/-- C69: on a minimal graph, `instant_cmp` answers an order exactly when it holds in every solution. -/
theorem C69_instant_cmp {g : Graph} (hv : Valid g) (hm : Minimal g) {i j : Nat} (hi : i < g.size) (hj : j < g.size) :
    ∃ r, g.instantCmp i j = .ok r ∧ (r = some .lt ↔ ∀ τ, Sat τ g → τ i < τ j) ∧
      (r = some .gt ↔ ∀ τ, Sat τ g → τ j < τ i) ∧ (r = some .eq ↔ ∀ τ, Sat τ g → τ i = τ j) := by
  have hC := (minimal_iff hv).1 hm
  have hz : (0 : Int) < INF := by decide
  -- bounds read on the matrix
  have pos : ∀ {a b : Nat}, a < g.size → b < g.size → (0 < mat g a b ↔ ∀ τ, Sat τ g → τ a < τ b) := by
    intro a b ha hb
    constructor
    · intro h τ t
      have := ((sat_iff hv τ).1 t) a ha b hb
      omega
    · intro h
      by_cases c : mat g a b = -INF
      · obtain ⟨τ, t1, t2⟩ := hC.attain_below ha hb c 0
        have := h τ ((sat_iff hv τ).2 t1)
        omega
      · obtain ⟨τ, t1, t2⟩ := hC.attain_lower ha hb c
        have := h τ ((sat_iff hv τ).2 t1)
        omega
  have nonneg : ∀ {a b : Nat}, a < g.size → b < g.size → (0 ≤ mat g a b ↔ ∀ τ, Sat τ g → τ a ≤ τ b) := by
    intro a b ha hb
    constructor
    · intro h τ t
      have := ((sat_iff hv τ).1 t) a ha b hb
      omega
    · intro h
      by_cases c : mat g a b = -INF
      · obtain ⟨τ, t1, t2⟩ := hC.attain_below ha hb c 0
        have := h τ ((sat_iff hv τ).2 t1)
        omega
      · obtain ⟨τ, t1, t2⟩ := hC.attain_lower ha hb c
        have := h τ ((sat_iff hv τ).2 t1)
        omega
  have anti : ¬ (0 < mat g i j ∧ 0 < mat g j i) := by
    rintro ⟨h1, h2⟩
    have := hC.anti hi hj (by omega) (by omega)
    omega
  have eqv : (∀ τ, Sat τ g → τ i = τ j) ↔ 0 ≤ mat g i j ∧ 0 ≤ mat g j i := by
    rw [nonneg hi hj, nonneg hj hi]
    constructor
    · intro h
      exact ⟨fun τ t => by have := h τ t; omega, fun τ t => by have := h τ t; omega⟩
    · intro h τ t
      have := h.1 τ t
      have := h.2 τ t
      omega
  have anti0 : 0 ≤ mat g i j → 0 ≤ mat g j i → mat g i j = 0 ∧ mat g j i = 0 := by
    intro h1 h2
    have := hC.anti hi hj (by omega) (by omega)
    omega
  rw [← pos hi hj, ← pos hj hi, eqv]
  unfold Graph.instantCmp isStrictlyPositive
  rw [if_neg (by simp only [Bool.or_eq_true, decide_eq_true_eq]; omega), lower_eq hv hi hj, ok_bind]
  by_cases c1 : 0 < mat g i j
  · refine ⟨some .lt, by rw [if_pos (by simpa using c1)]; rfl, by simpa using c1, ?_, ?_⟩
    · refine ⟨fun h => (by cases h), fun h => absurd ⟨c1, h⟩ anti⟩
    · refine ⟨fun h => (by cases h), fun h => ?_⟩
      have := anti0 h.1 h.2
      omega
  · rw [if_neg (by simpa using c1), lower_eq hv hj hi, ok_bind]
    by_cases c2 : 0 < mat g j i
    · refine ⟨some .gt, by rw [if_pos (by simpa using c2)]; rfl, ?_, by simpa using c2, ?_⟩
      · exact ⟨fun h => (by cases h), fun h => absurd h c1⟩
      · refine ⟨fun h => (by cases h), fun h => ?_⟩
        have := anti0 h.1 h.2
        omega
    · rw [if_neg (by simpa using c2)]
      by_cases c3 : mat g i j = 0 ∧ mat g j i = 0
      · refine ⟨some .eq, by rw [if_pos (by simpa using c3)]; rfl, ⟨fun h => (by cases h), fun h => absurd h c1⟩,
          ⟨fun h => (by cases h), fun h => absurd h c2⟩, fun _ => by omega, fun _ => rfl⟩
      · refine ⟨none, by rw [if_neg (by simpa using c3)]; rfl, ⟨fun h => (by cases h), fun h => absurd h c1⟩,
          ⟨fun h => (by cases h), fun h => absurd h c2⟩, fun h => (by cases h), fun h => absurd (anti0 h.1 h.2) c3⟩

/-- C69: an instant which is not in the graph is not compared, nor distinct from any other. -/
theorem C69_out_of_range (g : Graph) {i j : Nat} (h : g.size ≤ i ∨ g.size ≤ j) :
    g.instantCmp i j = .ok none ∧ g.areDistinct i j = .ok false := by
  constructor
  · unfold Graph.instantCmp
    rw [if_pos (by simpa using h)]; rfl
  · unfold Graph.areDistinct Graph.constraint
    rw [if_pos (by simpa using h)]; rfl

theorem constraint_eq {g : Graph} (hv : Valid g) {i j : Nat} (hi : i < g.size) (hj : j < g.size) :
    g.constraint i j = .ok (if mat g i j = -INF ∧ mat g j i = -INF then none
      else some ⟨i, j, false, mat g i j, -mat g j i⟩) := by
  unfold Graph.constraint Graph.view
  rw [if_neg (by simp only [Bool.or_eq_true, decide_eq_true_eq]; omega), lower_eq hv hi hj, ok_bind, lower_eq hv hj hi,
    ok_bind]
  have e : (isPastInfinite (mat g i j) && isFutureInfinite (tvNeg (mat g j i))) = true ↔
      mat g i j = -INF ∧ mat g j i = -INF := by
    simp only [isPastInfinite, isFutureInfinite, tvNeg, Bool.and_eq_true, beq_iff_eq]
    omega
  show (if (isPastInfinite (mat g i j) && isFutureInfinite (tvNeg (mat g j i))) = true then
    (.ok none : Res (Option Constr)) else .ok (some ⟨i, j, false, mat g i j, -mat g j i⟩)) = _
  by_cases c : mat g i j = -INF ∧ mat g j i = -INF
  · rw [if_pos c, if_pos (e.2 c)]
  · rw [if_neg c, if_neg (fun h => c (e.1 h))]

/-- C69: on a minimal graph, two instants are reported distinct exactly when they differ in every solution. -/
theorem C69_are_distinct {g : Graph} (hv : Valid g) (hm : Minimal g) {i j : Nat} (hi : i < g.size) (hj : j < g.size) :
    ∃ b, g.areDistinct i j = .ok b ∧ (b = true ↔ ∀ τ, Sat τ g → τ i ≠ τ j) := by
  have hC := (minimal_iff hv).1 hm
  have hz : (0 : Int) < INF := by decide
  have key : (0 < mat g i j ∨ 0 < mat g j i) ↔ ∀ τ, Sat τ g → τ i ≠ τ j := by
    constructor
    · intro h τ t
      have a := ((sat_iff hv τ).1 t) i hi j hj
      have b := ((sat_iff hv τ).1 t) j hj i hi
      omega
    · intro h
      by_cases c : 0 < mat g i j ∨ 0 < mat g j i
      · exact c
      · obtain ⟨τ, t1, t2⟩ := hC.attain hi hj (d := 0) (by omega) (by omega) (fun _ => rfl)
        have := h τ ((sat_iff hv τ).2 t1)
        omega
  rw [← key]
  unfold Graph.areDistinct
  rw [constraint_eq hv hi hj, ok_bind]
  by_cases c : mat g i j = -INF ∧ mat g j i = -INF
  · rw [if_pos c]
    exact ⟨false, rfl, fun h => (by cases h), fun h => by omega⟩
  · rw [if_neg c]
    refine ⟨_, rfl, ?_⟩
    simp only [isStrictlyPositive, isStrictlyNegative, Bool.or_eq_true, decide_eq_true_eq]
    omega

example : Valid exGraph ∧ Minimal exGraph ∧ exGraph.instantCmp 0 2 = .ok (some .lt) ∧
    exGraph.instantCmp 2 1 = .ok (some .gt) ∧ exGraph.instantCmp 1 1 = .ok (some .eq) ∧
    exGraph.instantCmp 0 7 = .ok none ∧ exGraph.areDistinct 2 0 = .ok true ∧ exGraph.areDistinct 1 1 = .ok false :=
  ⟨exGraph_valid, exGraph_minimal, by decide, by decide, by decide, by decide, by decide, by decide⟩

/-! ## C70: the views -/

/-- C70: reading a pair of instants the other way round gives the opposite span. -/
theorem C70_antisymmetric {g : Graph} (hv : Valid g) (i j : Nat) :
    ∃ s, g.timespan i j = .ok s ∧ g.timespan j i = .ok ⟨-s.upper, -s.lower⟩ := by
  by_cases h : i < g.size ∧ j < g.size
  · exact ⟨_, timespan_eq hv h.1 h.2, by rw [timespan_eq hv h.2 h.1]; simp only [Int.neg_neg]⟩
  · exact ⟨_, timespan_out (by omega), by rw [timespan_out (by omega)]; decide⟩

/-- C70: `constraint` gives a constraint exactly when the span is not the whole time line; it is then a non-empty
constraint between these two instants with the bounds of the span. -/
theorem C70_constraint {g : Graph} (hv : Valid g) (i j : Nat) :
    ∃ s r, g.timespan i j = .ok s ∧ g.constraint i j = .ok r ∧
      (r = none ↔ g.size ≤ i ∨ g.size ≤ j ∨ s = ⟨-INF, INF⟩) ∧
      (∀ k, r = some k → k.src = i ∧ k.dst = j ∧ k.isEmpty = false ∧ k.span = s) := by
  by_cases h : i < g.size ∧ j < g.size
  · refine ⟨_, _, timespan_eq hv h.1 h.2, constraint_eq hv h.1 h.2, ?_, ?_⟩
    · by_cases c : mat g i j = -INF ∧ mat g j i = -INF
      · rw [if_pos c, c.1, c.2]
        exact ⟨fun _ => Or.inr (Or.inr (by decide)), fun _ => rfl⟩
      · rw [if_neg c]
        refine ⟨fun h => (by cases h), fun h' => ?_⟩
        rcases h' with h' | h' | h'
        · omega
        · omega
        · have e1 := congrArg Iv.lower h'
          have e2 := congrArg Iv.upper h'
          simp only at e1 e2
          omega
    · intro k hk
      by_cases c : mat g i j = -INF ∧ mat g j i = -INF
      · rw [if_pos c] at hk; cases hk
      · rw [if_neg c] at hk; cases hk; exact ⟨rfl, rfl, rfl, rfl⟩
  · refine ⟨_, none, timespan_out (by omega), ?_, ?_, fun k hk => by cases hk⟩
    · unfold Graph.constraint
      rw [if_pos (by simp only [Bool.or_eq_true, decide_eq_true_eq]; omega)]; rfl
    · exact ⟨fun _ => by omega, fun _ => rfl⟩

theorem span_ext {a b : Iv} (ha : WF a) (hb : WF b) (h : ∀ d, InExt d a ↔ InExt d b) : a = b := by
  obtain ⟨al, au⟩ := a
  obtain ⟨bl, bu⟩ := b
  have a1 := ha.le; have a2 := ha.lo; have a3 := ha.hi; have a4 := ha.lo_lt; have a5 := ha.lt_hi
  have b1 := hb.le; have b2 := hb.lo; have b3 := hb.hi; have b4 := hb.lo_lt; have b5 := hb.lt_hi
  simp only [InExt] at *
  have hz : (0 : Int) < INF := by decide
  have e1 : al = bl := by
    have x1 := h al
    have x2 := h bl
    have x3 := h (min (bl - 1) au)
    have x4 := h (min (al - 1) bu)
    omega
  have e2 : au = bu := by
    have x1 := h au
    have x2 := h bu
    have x3 := h (max (bu + 1) al)
    have x4 := h (max (au + 1) bl)
    omega
  rw [e1, e2]

/-- C70: the constraint read from a graph and converted into a pair of instants with its span holds for the same
assignments, and propagating either into any graph does the same, when its span has a date. -/
theorem C70_to_tuple {g : Graph} (hv : Valid g) {i j : Nat} {k : Constr} (h : g.constraint i j = .ok (some k))
    (hd : ∃ d, Date d ∧ InExt d k.span) :
    k.toTuple.src = i ∧ k.toTuple.dst = j ∧ k.toTuple.span = k.span ∧ (∀ τ, Holds τ k.toTuple ↔ Holds τ k) ∧
      ∀ g' : Graph, g'.propagate k.toTuple = g'.propagate k := by
  obtain ⟨s, r, h1, h2, -, h4⟩ := C70_constraint hv i j
  rw [h] at h2
  cases h2
  obtain ⟨a, b, c, -⟩ := h4 k rfl
  obtain ⟨src, dst, e, l, u⟩ := k
  simp only at a b c
  subst a b c
  obtain ⟨d, d1, d2⟩ := hd
  have : l ≠ INF := by
    intro hl
    subst hl
    have := d2.1
    unfold Constr.span at this
    simp only at this
    unfold Date at d1
    have : (0 : Int) < INF := by decide
    omega
  have e : Constr.toTuple ⟨src, dst, false, l, u⟩ = ⟨src, dst, false, l, u⟩ := by
    unfold Constr.toTuple Constr.ofConvex Convex.isEmpty Iv.isEmpty isFutureInfinite
    simp [this, Convex.lower, Convex.upper]
  rw [e]
  exact ⟨rfl, rfl, rfl, fun _ => Iff.rfl, fun _ => rfl⟩

example : exGraph.constraint 0 2 = .ok (some ⟨0, 2, false, 15, 26⟩) ∧ Date 20 ∧
    InExt 20 (Constr.span ⟨0, 2, false, 15, 26⟩) := by decide

/-- C70: two non-empty constraints between the same two distinct instants, in the same or in the opposite direction,
are identified by `equiv` exactly when they say the same: they hold for the same assignments. -/
theorem C70_equiv {a b : Constr} (ha : a.isEmpty = false) (hb : b.isEmpty = false) (wa : WF a.span) (wb : WF b.span)
    (hne : a.src ≠ a.dst) (hp : (b.src = a.src ∧ b.dst = a.dst) ∨ (b.src = a.dst ∧ b.dst = a.src)) :
    a.equiv b = true ↔ ∀ τ, Holds τ a ↔ Holds τ b := by
  obtain ⟨i, j, e, al, au⟩ := a
  obtain ⟨i', j', e', bl, bu⟩ := b
  simp only at ha hb hne hp
  subst ha hb
  have hτ : ∀ d : Int, ∃ τ : Nat → Int, τ j - τ i = d := fun d =>
    ⟨fun x => if x = j then d else 0, by simp only [if_true, if_neg hne]; omega⟩
  rcases hp with ⟨rfl, rfl⟩ | ⟨rfl, rfl⟩
  · have : Constr.equiv ⟨i', j', false, al, au⟩ ⟨i', j', false, bl, bu⟩ = true ↔ al = bl ∧ au = bu := by
      simp [Constr.equiv]
    rw [this]
    constructor
    · rintro ⟨rfl, rfl⟩ τ; exact Iff.rfl
    · intro h
      have := span_ext wa wb (fun d => by
        obtain ⟨τ, t⟩ := hτ d
        have := h τ
        simp only [Holds, t, true_and] at this
        exact this)
      exact ⟨congrArg Iv.lower this, congrArg Iv.upper this⟩
  · have : Constr.equiv ⟨j', i', false, al, au⟩ ⟨i', j', false, bl, bu⟩ = true ↔ al = -bu ∧ au = -bl := by
      simp [Constr.equiv, hne]
    rw [this]
    have w1 := wb.le; have w2 := wb.lo; have w3 := wb.hi; have w4 := wb.lo_lt; have w5 := wb.lt_hi
    simp only [Constr.span] at w1 w2 w3 w4 w5
    have flip : ∀ τ : Nat → Int, InExt (τ j' - τ i') ⟨bl, bu⟩ ↔ InExt (τ i' - τ j') ⟨-bu, -bl⟩ := by
      intro τ
      simp only [InExt]
      omega
    constructor
    · rintro ⟨rfl, rfl⟩ τ
      simp only [Holds, true_and]
      rw [flip]
    · intro h
      have := span_ext (b := ⟨-bu, -bl⟩) wa (by
        refine ⟨?_, ?_, ?_, ?_, ?_⟩ <;> simp only <;> omega) (fun d => by
        obtain ⟨τ, t⟩ := hτ d
        have := h τ
        simp only [Holds, true_and] at this
        rw [flip, t] at this
        exact this)
      exact ⟨congrArg Iv.lower this, congrArg Iv.upper this⟩

/-- C70: `equiv` never identifies constraints which do not have the same bounds on the same pair of instants. -/
theorem C70_equiv_sound {a b : Constr} (h : a.equiv b = true) :
    (a.src = b.src ∧ a.dst = b.dst ∧ a.span = b.span) ∨
    (a.src = b.dst ∧ a.dst = b.src ∧ a.span = ⟨-b.upper, -b.lower⟩) := by
  unfold Constr.equiv at h
  unfold Constr.span
  split at h
  · left
    simp only [Bool.and_eq_true, beq_iff_eq] at h
    rename_i c
    exact ⟨c, h.1.1, by rw [h.1.2, h.2]⟩
  · split at h
    · right
      simp only [Bool.and_eq_true, beq_iff_eq] at h
      rename_i c
      exact ⟨c, h.1.1, by rw [h.1.2, h.2]⟩
    · cases h

example : exGraph.timespan 0 2 = .ok ⟨15, 26⟩ ∧ exGraph.timespan 2 0 = .ok ⟨-26, -15⟩ ∧
    exGraph.constraint 2 0 = .ok (some ⟨2, 0, false, -26, -15⟩) ∧ exGraph.constraint 0 3 = .ok none ∧
    Constr.equiv ⟨0, 2, false, 15, 26⟩ ⟨2, 0, false, -26, -15⟩ = true ∧ WF (⟨0, 2, false, 15, 26⟩ : Constr).span := by
  refine ⟨?_, ?_, ?_, ?_, ?_, ?_⟩ <;> decide

end Chrono
