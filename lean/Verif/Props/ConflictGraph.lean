import Verif.Props.Disjoint
import Verif.Props.GraphAny
import Verif.Lemmas.GraphJunk

/-!
# C159: asking a graph for the delays which are in two intervals at once
-/

set_option linter.unusedSimpArgs false

namespace Chrono
open Spec

theorem conflict_constr {a b : Iv} (ha : WF a) (hb : WF b) (h : a.upper < b.lower) (i j : Nat) :
    Constr.ofConvex i j (.iv (Iv.inter a (.iv b))) = ⟨i, j, false, b.lower, a.upper⟩ ∧ Date b.lower ∧ Date a.upper := by
  obtain ⟨e, d1, d2, -⟩ := before_inter ha hb h
  have ne : (⟨b.lower, a.upper⟩ : Iv).isEmpty = false := by
    rw [← Bool.not_eq_true, Iv.isEmpty_iff]; ticks
  rw [e]
  refine ⟨?_, d1, d2⟩
  simp only [Constr.ofConvex, Convex.isEmpty, ne]
  rfl

theorem conflict_holds {a b : Iv} (ha : WF a) (hb : WF b) (h : a.upper < b.lower) (i j : Nat) (τ : Nat → Int) :
    ¬ Holds τ (Constr.ofConvex i j (.iv (Iv.inter a (.iv b)))) := by
  obtain ⟨e, d1, d2⟩ := conflict_constr ha hb h i j
  rw [e, holds_iff rfl]
  simp only []
  intro c
  ticks

/-- the decision of `propagate` on bounds in the wrong order -/
theorem conflict_branch {g : Graph} (hv : Valid g) {i j : Nat} (hi : i < g.size) (hj : j < g.size) {l u : Int} (h : u < l)
    (hij : mat g i j = -INF ∨ mat g j i = -INF ∨ mat g i j + mat g j i ≤ 0) (hl : Date l) (hu : Date u) :
    (mat g i j < l ∧ mat g j i ≤ -l → ∀ g' o, g.propagate ⟨i, j, false, l, u⟩ = .ok (g', o) → o = .propagated) ∧
    (¬ (mat g i j < l ∧ mat g j i ≤ -l) → g.propagate ⟨i, j, false, l, u⟩ = .ok (g, .recovered)) := by
  have tneg : ∀ x : Int, tvNeg x = -x := fun _ => rfl
  unfold Graph.propagate
  simp only [Bool.false_eq_true, if_false]
  rw [if_neg (by omega), lower_eq hv hi hj, ok_bind, lower_eq hv hj hi, ok_bind]
  simp only [tneg]
  constructor
  · intro c
    rw [if_neg (by omega), if_neg (by omega)]
    intro g' o h
    obtain ⟨x, -, h⟩ := bind_ok h
    obtain ⟨y, -, h⟩ := bind_ok h
    obtain ⟨v, -, h⟩ := bind_ok h
    split at h
    · obtain ⟨z, -, h⟩ := bind_ok h
      obtain ⟨t, -, h⟩ := bind_ok h
      cases h
      rfl
    · cases h
      rfl
  · intro c
    by_cases c1 : l ≤ mat g i j
    · rw [if_pos c1, if_neg (by ticks), if_pos (by omega)]
      rfl
    · rw [if_neg c1, if_pos (by omega)]
      rfl

theorem conflict_between {g : Graph} (hv : Valid g) (hm : Minimal g) {i j : Nat} (hi : i < g.size) (hj : j < g.size) {l : Int} (hl : Date l) :
    ((∃ τ, Sat τ g ∧ τ j - τ i < l) ∧ ∃ τ, Sat τ g ∧ l ≤ τ j - τ i) ↔ mat g i j < l ∧ mat g j i ≤ -l := by
  have hC := (minimal_iff hv).1 hm
  constructor
  · rintro ⟨⟨τ, t1, t2⟩, ⟨σ, s1, s2⟩⟩
    rw [sat_iff hv] at t1 s1
    have x := t1 _ hi _ hj
    have y := s1 _ hj _ hi
    ticks
  · rintro ⟨c1, c2⟩
    constructor
    · by_cases c : mat g i j = -INF
      · obtain ⟨τ, t1, t2⟩ := hC.attain_below hi hj c l
        exact ⟨τ, (sat_iff hv τ).2 t1, t2⟩
      · obtain ⟨τ, t1, t2⟩ := hC.attain_lower hi hj c
        exact ⟨τ, (sat_iff hv τ).2 t1, by omega⟩
    · by_cases c : mat g j i = -INF
      · obtain ⟨τ, t1, t2⟩ := hC.attain_below hj hi c (-l)
        exact ⟨τ, (sat_iff hv τ).2 t1, by omega⟩
      · obtain ⟨τ, t1, t2⟩ := hC.attain_lower hj hi c
        exact ⟨τ, (sat_iff hv τ).2 t1, by omega⟩

/-- **C159**, partial: the delays which are in two intervals without a common value, `propagate(((i, j), a & b))`, are refused and the graph is left
as it was, exactly when the graph does not allow both delays less than the second interval and others. Missing: the other graphs, see
`C159_violated` and `C159_growth_violated`. -/
theorem C159_refused_partial {g : Graph} (hv : Valid g) (hm : Minimal g) {i j : Nat} (hi : i < g.size) (hj : j < g.size)
    {a b : Iv} (ha : WF a) (hb : WF b) (h : a.upper < b.lower) :
    g.propagate (Constr.ofConvex i j (.iv (Iv.inter a (.iv b)))) = .ok (g, .recovered) ↔
      ¬ ((∃ τ, Sat τ g ∧ τ j - τ i < b.lower) ∧ ∃ τ, Sat τ g ∧ b.lower ≤ τ j - τ i) := by
  obtain ⟨e, d1, d2⟩ := conflict_constr ha hb h i j
  have hC := (minimal_iff hv).1 hm
  obtain ⟨h1, h2⟩ := conflict_branch hv hi hj h (by
    by_cases c1 : mat g i j = -INF
    · exact Or.inl c1
    · by_cases c2 : mat g j i = -INF
      · exact Or.inr (Or.inl c2)
      · exact Or.inr (Or.inr (hC.anti hi hj c1 c2))) d1 d2
  rw [e, conflict_between hv hm hi hj d1]
  constructor
  · intro c c'
    exact absurd (h1 c' _ _ c) (by decide)
  · exact h2

/-- **C159** is violated on every graph which allows both, whatever its bounds are: the request is never refused, and once it has been answered,
`Ok(Propagated)`, the graph has no solution left. -/
theorem C159_any_bounds_violated {g : Graph} (hv : Valid g) (hm : Minimal g) (hg : Within INF g) {i j : Nat} (hi : i < g.size) (hj : j < g.size)
    {a b : Iv} (ha : WF a) (hb : WF b) (h : a.upper < b.lower)
    (hx : (∃ τ, Sat τ g ∧ τ j - τ i < b.lower) ∧ ∃ τ, Sat τ g ∧ b.lower ≤ τ j - τ i) :
    ∀ g' o, g.propagate (Constr.ofConvex i j (.iv (Iv.inter a (.iv b)))) = .ok (g', o) →
      o = .propagated ∧ g'.size = g.size ∧ ¬ ∃ τ, Representable g.size τ ∧ Sat τ g' := by
  intro g' o hp
  obtain ⟨e, d1, d2⟩ := conflict_constr ha hb h i j
  have hC := (minimal_iff hv).1 hm
  obtain ⟨h1, -⟩ := conflict_branch hv hi hj h (by
    by_cases c1 : mat g i j = -INF
    · exact Or.inl c1
    · by_cases c2 : mat g j i = -INF
      · exact Or.inr (Or.inl c2)
      · exact Or.inr (Or.inr (hC.anti hi hj c1 c2))) d1 d2
  have ho : o = .propagated := h1 ((conflict_between hv hm hi hj d1).1 hx) g' o (by rw [← e]; exact hp)
  obtain ⟨p, -⟩ := C62_any_bounds hv hg (k := Constr.ofConvex i j (.iv (Iv.inter a (.iv b)))) hi hj (by
    rw [e]; exact ⟨Or.inr (by ticks), Or.inr (by ticks)⟩)
  obtain ⟨q1, -, -, -, -, q⟩ := p g' o hp (Or.inr ho)
  refine ⟨ho, q1, ?_⟩
  rintro ⟨τ, r, s⟩
  exact conflict_holds ha hb h i j τ ((q τ r).1 s).2

/-- **C159** is violated on every graph which allows both: without overflow, the request is accepted, `Ok(Propagated)`, and the graph has no solution
left. -/
theorem C159_violated {g : Graph} (hv : Valid g) (hm : Minimal g) {B : Int} (hg : Within B g) (hB0 : 0 ≤ B) (hB : 18 * B < INF)
    {i j : Nat} (hi : i < g.size) (hj : j < g.size) {a b : Iv} (ha : WF a) (hb : WF b) (h : a.upper < b.lower)
    (hal : -B ≤ a.upper) (hbu : b.lower ≤ B)
    (hx : (∃ τ, Sat τ g ∧ τ j - τ i < b.lower) ∧ ∃ τ, Sat τ g ∧ b.lower ≤ τ j - τ i) :
    ∃ g', g.propagate (Constr.ofConvex i j (.iv (Iv.inter a (.iv b)))) = .ok (g', .propagated) ∧ g'.size = g.size ∧
      ¬ ∃ τ, Representable g.size τ ∧ Sat τ g' := by
  have hg' : Within INF g := by
    intro i j hi hj s e
    obtain ⟨h1, h2⟩ := hg i j hi hj s e
    exact ⟨by omega, by omega⟩
  suffices hs : ∃ g' o, g.propagate (Constr.ofConvex i j (.iv (Iv.inter a (.iv b)))) = .ok (g', o) by
    obtain ⟨g', o, e⟩ := hs
    obtain ⟨h1, h2, h3⟩ := C159_any_bounds_violated hv hm hg' hi hj ha hb h hx g' o e
    exact ⟨g', by rw [e, h1], h2, h3⟩
  obtain ⟨e, d1, d2⟩ := conflict_constr ha hb h i j
  obtain ⟨c1, c2⟩ := (conflict_between hv hm hi hj d1).1 hx
  have hC := (minimal_iff hv).1 hm
  have hS := small_of_within hv hg
  have hne : i ≠ j := by
    intro c
    subst c
    have := hC.diag i hi
    omega
  have hl1 : b.lower ≠ -INF := by ticks
  have sl : Small B b.lower := Or.inr (by omega)
  obtain ⟨g1, h1, s1, m1, -⟩ := set_plb hv hC hS hi hj hne sl hl1 hB0 (by omega) (by omega) (by omega)
  have S1 : SmallMat (3 * B) g.size (mat g1) := mat_eq_small m1 (addEdge_small hS hi hj sl (by omega) hl1)
  have sz := s1.size
  have v1 := s1.valid hv
  have tneg : ∀ x : Int, tvNeg x = -x := fun _ => rfl
  rw [e]
  unfold Graph.propagate
  simp only [Bool.false_eq_true, if_false]
  rw [if_neg (by omega), lower_eq hv hi hj, ok_bind, lower_eq hv hj hi, ok_bind]
  simp only [tneg]
  rw [if_neg (by omega), if_neg (by omega)]
  obtain ⟨y, y1, y2⟩ := bind_ok h1
  rw [y1, ok_bind, y2, ok_bind, lower_eq v1 (by omega) (by omega), ok_bind]
  split
  · rw [setLower_eq v1 (by omega) (by omega), ok_bind]
    obtain ⟨g2, e2⟩ := plb_returns (g := put g1 j i (-a.upper)) (v1.put j i _) (B := 3 * B) (io := j) (jo := i) (by
      intro x hx y hy
      have hx' : x < g.size := by rw [← sz]; exact hx
      have hy' : y < g.size := by rw [← sz]; exact hy
      rw [mat_put _ (v1.ix_lt (by omega) (by omega))]
      split
      · exact Or.inr (by omega)
      · exact S1 x hx' y hy') (by show j < g1.size; omega) (by show i < g1.size; omega) (fun c => hne c.symm) (by omega) (by omega)
    exact ⟨g2, _, by rw [e2, ok_bind]; rfl⟩
  · exact ⟨g1, _, rfl⟩

/-- **C159** is violated for every new instant: the request is accepted, `Ok(Propagated)`, and the graph has no solution left. -/
theorem C159_growth_violated {g : Graph} (hv : Valid g) (hc : Clean g) {i j : Nat} (hs : g.size ≤ max i j) (hm : max i j < 65535) (hne : i ≠ j)
    {a b : Iv} (ha : WF a) (hb : WF b) (h : a.upper < b.lower) :
    ∃ g', g.propagate (Constr.ofConvex i j (.iv (Iv.inter a (.iv b)))) = .ok (g', .propagated) ∧ ¬ ∃ τ, Sat τ g' := by
  obtain ⟨e, d1, d2⟩ := conflict_constr ha hb h i j
  obtain ⟨g', h1, -, -, -, h5⟩ := C62_solutions_growth hv hc (k := Constr.ofConvex i j (.iv (Iv.inter a (.iv b)))) (by rw [e]) hs hm hne
  refine ⟨g', h1, ?_⟩
  rintro ⟨τ, t⟩
  exact conflict_holds ha hb h i j τ ((h5 τ).1 t).2

/-! ## Examples -/

-- the delay from 0 to 1 is between 10 and 20
example : Valid exGraph ∧ Minimal exGraph ∧ Clean exGraph ∧ Within 26 exGraph ∧ WF ⟨0, 12⟩ ∧ WF ⟨15, 18⟩ ∧
    exGraph.timespan 0 1 = .ok ⟨10, 20⟩ ∧ ((∃ τ, Sat τ exGraph ∧ τ 1 - τ 0 < 15) ∧ ∃ τ, Sat τ exGraph ∧ 15 ≤ τ 1 - τ 0) ∧
    exGraph.propagate (Constr.ofConvex 0 1 (.iv (Iv.inter ⟨0, 12⟩ (.iv ⟨15, 18⟩)))) =
      .ok (⟨3, [6, -6, 6, 18, -12, 0, 5, 11, 23]⟩, .propagated) ∧
    exGraph.propagate (Constr.ofConvex 0 1 (.iv (Iv.inter ⟨0, 12⟩ (.iv ⟨25, 28⟩)))) = .ok (exGraph, .recovered) := by
  refine ⟨exGraph_valid, exGraph_minimal, exGraph_clean, exGraph_within, by decide, by decide, by decide, ?_, by decide, by decide⟩
  exact (conflict_between exGraph_valid exGraph_minimal (by decide) (by decide) (by decide)).2 (by decide)

end Chrono
