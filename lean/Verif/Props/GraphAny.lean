import Verif.Lemmas.GraphAny
import Verif.Lemmas.GraphPairs
import Verif.Props.GraphBatch

/-!
# C60–C63, C65, C67, whatever the bounds are

The theorems of `Props/Graph.lean` and `Props/GraphBatch.lean` assume bounds small enough for the sums not to saturate.
Here there is no such assumption: the bounds may be any time values. What is said is then about the solutions whose
delays can be represented.
-/

set_option linter.unusedSimpArgs false

namespace Chrono
open Spec

/-- the decision taken by `propagate` on instants of the graph -/
theorem propagate_branch {g : Graph} (hv : Valid g) {k : Constr} (he : k.isEmpty = false) (hs : k.src < g.size)
    (hd : k.dst < g.size) (hle : k.lower ≤ k.upper) :
    (k.lower ≤ mat g k.src k.dst ∧ -k.upper ≤ mat g k.dst k.src ∧ g.propagate k = .ok (g, .unchanged)) ∨
    ((mat g k.src k.dst < k.lower ∨ mat g k.dst k.src < -k.upper) ∧
      (k.upper < mat g k.src k.dst ∨ -k.lower < mat g k.dst k.src) ∧ g.propagate k = .ok (g, .recovered)) ∨
    ((mat g k.src k.dst < k.lower ∨ mat g k.dst k.src < -k.upper) ∧
      mat g k.src k.dst ≤ k.upper ∧ mat g k.dst k.src ≤ -k.lower ∧
      ∀ g' o, g.propagate k = .ok (g', o) → o = .propagated) := by
  unfold Graph.propagate
  rw [if_neg (by rw [he]; simp), if_neg (by omega), lower_eq hv hs hd, ok_bind, lower_eq hv hd hs, ok_bind]
  have tneg : ∀ x : Int, tvNeg x = -x := fun _ => rfl
  simp only [tneg]
  by_cases c1 : k.lower ≤ mat g k.src k.dst
  · rw [if_pos c1]
    by_cases c2 : -k.upper ≤ mat g k.dst k.src
    · rw [if_pos c2]
      exact Or.inl ⟨c1, c2, rfl⟩
    · rw [if_neg c2]
      by_cases c3 : mat g k.src k.dst > k.upper
      · rw [if_pos c3]
        exact Or.inr (Or.inl ⟨by omega, by omega, rfl⟩)
      · rw [if_neg c3]
        refine Or.inr (Or.inr ⟨by omega, by omega, by omega, fun g' o h => ?_⟩)
        obtain ⟨x, -, h⟩ := bind_ok h
        obtain ⟨y, -, h⟩ := bind_ok h
        cases h
        rfl
  · rw [if_neg c1]
    by_cases c2 : mat g k.dst k.src > -k.lower
    · rw [if_pos c2]
      exact Or.inr (Or.inl ⟨by omega, by omega, rfl⟩)
    · rw [if_neg c2]
      refine Or.inr (Or.inr ⟨by omega, by omega, by omega, fun g' o h => ?_⟩)
      obtain ⟨x, -, h⟩ := bind_ok h
      obtain ⟨y, -, h⟩ := bind_ok h
      obtain ⟨v, -, h⟩ := bind_ok h
      split at h
      · obtain ⟨z, -, h⟩ := bind_ok h
        obtain ⟨t, -, h⟩ := bind_ok h
        cases h
        rfl
      · cases h
        rfl

/-! ## C60, C61 -/

/-- C60, whatever the bounds are: on a minimal graph `propagate` answers `Ok(Unchanged)` exactly when the constraint
already follows from the graph; the graph is then untouched. -/
theorem C60_unchanged_any_bounds {g : Graph} (hv : Valid g) (hm : Minimal g) (hg : Within INF g) {k : Constr}
    (hk : Usable g.size INF k) :
    ((∃ g', g.propagate k = .ok (g', .unchanged)) ↔ ∀ τ, Sat τ g → Holds τ k) ∧
    (∀ g', g.propagate k = .ok (g', .unchanged) → g' = g) := by
  obtain ⟨τ0, h0⟩ := hm.1
  obtain ⟨hs, hd, hk⟩ := hk
  have hC := (minimal_iff hv).1 hm
  have hS := small_of_within hv hg
  cases he : k.isEmpty with
  | true =>
    rw [C61_empty_rejected g he]
    refine ⟨⟨fun ⟨g', h⟩ => (by cases h), fun h => ?_⟩, fun g' h => (by cases h)⟩
    have := (h τ0 h0).1
    rw [he] at this
    cases this
  | false =>
    obtain ⟨hw, hkB⟩ := hk he
    have w1 := hw.le
    simp only at w1
    have sa := hS _ hs _ hd
    have sb := hS _ hd _ hs
    unfold Small at sa sb
    have viol : (mat g k.src k.dst < k.lower ∨ mat g k.dst k.src < -k.upper) → ¬ ∀ τ, Sat τ g → Holds τ k := by
      intro h6 hall
      rcases h6 with h6 | h6
      · by_cases c : mat g k.src k.dst = -INF
        · obtain ⟨τ, t1, t2⟩ := hC.attain_below hs hd c k.lower
          have h := hall τ ((sat_iff hv τ).2 t1)
          rw [holds_iff he] at h
          omega
        · obtain ⟨τ, t1, t2⟩ := hC.attain_lower hs hd c
          have h := hall τ ((sat_iff hv τ).2 t1)
          rw [holds_iff he] at h
          omega
      · by_cases c : mat g k.dst k.src = -INF
        · obtain ⟨τ, t1, t2⟩ := hC.attain_below hd hs c (-k.upper)
          have h := hall τ ((sat_iff hv τ).2 t1)
          rw [holds_iff he] at h
          omega
        · obtain ⟨τ, t1, t2⟩ := hC.attain_lower hd hs c
          have h := hall τ ((sat_iff hv τ).2 t1)
          rw [holds_iff he] at h
          omega
    rcases propagate_branch hv he hs hd w1 with ⟨a, b, e⟩ | ⟨a, b, e⟩ | ⟨a, b, c, e⟩
    · rw [e]
      refine ⟨⟨fun _ τ hτ => ?_, fun _ => ⟨g, rfl⟩⟩, fun g' h => by cases h; rfl⟩
      rw [sat_iff hv] at hτ
      rw [holds_iff he]
      have x := hτ _ hs _ hd
      have y := hτ _ hd _ hs
      have := hkB.1
      have := hkB.2
      refine ⟨?_, ?_⟩ <;> omega
    · rw [e]
      exact ⟨⟨fun ⟨g', h⟩ => (by cases h), fun h => absurd h (viol a)⟩, fun g' h => (by cases h)⟩
    · exact ⟨⟨fun ⟨g', h⟩ => absurd (e _ _ h) (by decide), fun h => absurd h (viol a)⟩,
        fun g' h => absurd (e _ _ h) (by decide)⟩

/-- C61, whatever the bounds are: on a minimal graph `propagate` fails exactly when no solution of the graph satisfies
the constraint; the failure is always `Recovered`, and the graph is then untouched. -/
theorem C61_recovered_any_bounds {g : Graph} (hv : Valid g) (hm : Minimal g) (hg : Within INF g) {k : Constr}
    (hk : Usable g.size INF k) :
    ((∃ g', g.propagate k = .ok (g', .recovered)) ↔ ¬ ∃ τ, Sat τ g ∧ Holds τ k) ∧
    (∀ g', g.propagate k = .ok (g', .recovered) → g' = g) ∧ (∀ g', g.propagate k ≠ .ok (g', .fatal)) := by
  obtain ⟨τ0, h0⟩ := hm.1
  refine ⟨?_, ?_, fun g' => propagate_not_fatal⟩
  all_goals
    obtain ⟨hs, hd, hk⟩ := hk
    have hC := (minimal_iff hv).1 hm
    have hS := small_of_within hv hg
  · cases he : k.isEmpty with
    | true =>
      rw [C61_empty_rejected g he]
      refine ⟨fun _ ⟨τ, _, h⟩ => ?_, fun _ => ⟨g, rfl⟩⟩
      have := h.1
      rw [he] at this
      cases this
    | false =>
      obtain ⟨hw, hkB⟩ := hk he
      have w1 := hw.le
      have w4 := hw.lo_lt
      have w5 := hw.lt_hi
      simp only at w1 w4 w5
      have sa := hS _ hs _ hd
      have sb := hS _ hd _ hs
      unfold Small at sa sb
      have INF0 : (0 : Int) < INF := by decide
      have anti : mat g k.src k.dst ≠ -INF → mat g k.dst k.src ≠ -INF → mat g k.src k.dst + mat g k.dst k.src ≤ 0 :=
        fun a b => hC.anti hs hd a b
      have eqd : k.src = k.dst → mat g k.src k.dst = 0 ∧ mat g k.dst k.src = 0 := by
        intro e
        rw [e]
        exact ⟨hC.diag _ hd, hC.diag _ hd⟩
      rcases propagate_branch hv he hs hd w1 with ⟨a, b, e⟩ | ⟨a, b, e⟩ | ⟨a, b, c, e⟩
      · rw [e]
        refine ⟨fun ⟨g', h⟩ => (by cases h), fun h => absurd ⟨τ0, h0, ?_⟩ h⟩
        rw [sat_iff hv] at h0
        rw [holds_iff he]
        have x := h0 _ hs _ hd
        have y := h0 _ hd _ hs
        have := hkB.1
        have := hkB.2
        refine ⟨?_, ?_⟩ <;> omega
      · rw [e]
        refine ⟨fun _ ⟨τ, t1, t2⟩ => ?_, fun _ => ⟨g, rfl⟩⟩
        rw [sat_iff hv] at t1
        rw [holds_iff he] at t2
        have x := t1 _ hs _ hd
        have y := t1 _ hd _ hs
        have := hkB.1
        have := hkB.2
        omega
      · refine ⟨fun ⟨g', h⟩ => absurd (e _ _ h) (by decide), fun h => absurd ?_ h⟩
        -- a delay allowed by both
        obtain ⟨d, d1, d2, d3, d4, d5⟩ : ∃ d, (mat g k.src k.dst = -INF ∨ mat g k.src k.dst ≤ d) ∧
            (mat g k.dst k.src = -INF ∨ mat g k.dst k.src ≤ -d) ∧ (k.lower = -INF ∨ k.lower ≤ d) ∧
            (k.upper = INF ∨ d ≤ k.upper) ∧ (k.src = k.dst → d = 0) := by
          by_cases c1 : k.src = k.dst
          · obtain ⟨z1, z2⟩ := eqd c1
            exact ⟨0, by omega, by omega, by omega, by omega, fun _ => rfl⟩
          · by_cases c2 : mat g k.src k.dst = -INF ∧ k.lower = -INF
            · by_cases c3 : mat g k.dst k.src = -INF ∧ k.upper = INF
              · exact ⟨0, by omega, by omega, by omega, by omega, by omega⟩
              · refine ⟨min k.upper (-mat g k.dst k.src), ?_, ?_, ?_, ?_, ?_⟩ <;> omega
            · refine ⟨max k.lower (mat g k.src k.dst), ?_, ?_, ?_, ?_, ?_⟩ <;> omega
        obtain ⟨τ, t1, t2⟩ := hC.attain hs hd d1 d2 d5
        refine ⟨τ, (sat_iff hv τ).2 t1, (holds_iff he).2 ?_⟩
        rw [t2]
        exact ⟨d3, d4⟩
  · intro g' h
    cases he : k.isEmpty with
    | true =>
      rw [C61_empty_rejected g he] at h
      cases h
      rfl
    | false =>
      obtain ⟨hw, -⟩ := hk he
      have w1 := hw.le
      simp only at w1
      rcases propagate_branch hv he hs hd w1 with ⟨a, b, e⟩ | ⟨a, b, e⟩ | ⟨a, b, c, e⟩
      · rw [e] at h; cases h
      · rw [e] at h; cases h; rfl
      · exact absurd (e _ _ h) (by decide)

/-! ## C62 -/

/-- C62, whatever the bounds are, and whether the graph is minimal or not: after `Ok(_)` the representable solutions are
exactly those of the old graph which satisfy the constraint. The call returns `Ok(_)` if there is one; a failure is
recovered, and leaves the graph untouched. -/
theorem C62_any_bounds {g : Graph} (hv : Valid g) (hg : Within INF g) {k : Constr} (hs : k.src < g.size)
    (hd : k.dst < g.size) (hk : WithinK INF k) :
    (∀ g' o, g.propagate k = .ok (g', o) → (o = .unchanged ∨ o = .propagated) →
      g'.size = g.size ∧ Valid g' ∧ Within INF g' ∧ (Clean g → Clean g') ∧ (Tidy g → Tidy g') ∧
      ∀ τ, Representable g.size τ → (Sat τ g' ↔ Sat τ g ∧ Holds τ k)) ∧
    (∀ g' o, g.propagate k = .ok (g', o) → ¬ (o = .unchanged ∨ o = .propagated) →
      o = .recovered ∧ g' = g ∧ ¬ ∃ τ, Representable g.size τ ∧ Sat τ g ∧ Holds τ k) ∧
    ((∃ τ, Representable g.size τ ∧ Sat τ g ∧ Holds τ k) →
      ∃ g' o, g.propagate k = .ok (g', o) ∧ (o = .unchanged ∨ o = .propagated)) := by
  have post : ∀ g' o, PropPost g k (g', o) → (o = .unchanged ∨ o = .propagated) →
      g'.size = g.size ∧ Valid g' ∧ Within INF g' ∧ (Clean g → Clean g') ∧ (Tidy g → Tidy g') ∧
      ∀ τ, Representable g.size τ → (Sat τ g' ↔ Sat τ g ∧ Holds τ k) := by
    intro g' o p ho
    have sz := p.frame.shape.size
    have v := p.frame.valid hv
    refine ⟨sz, v, (within_iff v).2 (by rw [sz]; exact p.range), fun c => clean_iff.2 (p.frame.clean (clean_iff.1 c)),
      p.frame.tidy, fun τ hτ => ?_⟩
    rw [sat_iff v, sat_iff hv]
    have q := p.sat (by rcases ho with rfl | rfl <;> simp) τ hτ
    simp only at sz
    rw [sz]
    exact q
  rcases (propagate_any hv (small_of_within hv hg) hs hd hk).cases with ⟨⟨g1, o1⟩, e, p⟩ | ⟨e', e, p⟩
  · rw [e]
    refine ⟨fun g' o h => ?_, fun g' o h => ?_, fun ⟨τ, h1, h2, h3⟩ => ?_⟩
    · cases h; exact post g1 o1 p
    · cases h
      intro ho
      have hr : o1 = .recovered := by
        have := p.fatal
        cases o1 <;> simp_all
      refine ⟨hr, p.same (Or.inr hr), fun ⟨τ, h1, h2, h3⟩ => p.bad hr τ h1 ⟨(sat_iff hv τ).1 h2, h3⟩⟩
    · refine ⟨g1, o1, rfl, ?_⟩
      have a := p.fatal
      have b : o1 ≠ .recovered := fun hr => p.bad hr τ h1 ⟨(sat_iff hv τ).1 h2, h3⟩
      cases o1 <;> simp_all
  · rw [e]
    refine ⟨fun g' o h => (by cases h), fun g' o h => (by cases h), fun ⟨τ, h1, h2, h3⟩ => ?_⟩
    exact absurd ⟨τ, h1, (sat_iff hv τ).1 h2, h3⟩ p

/-- a graph whose bounds are close to the limits: `t₁ - t₀ ≤ -INF + 1` and `t₂ - t₁ ≥ 5`, not propagated -/
def exLimit : Graph := ⟨3, [0, INF - 1, 0, -INF, -INF, -INF, 0, 5, -INF]⟩

/-- a solution of `exLimit` -/
def exLimitSol (i : Nat) : Int := if i = 0 then 0 else if i = 1 then -INF + 1 else 0

example : Valid exLimit ∧ Within INF exLimit ∧ Representable 3 exLimitSol ∧ Sat exLimitSol exLimit ∧
    Holds exLimitSol ⟨2, 0, false, -5, INF - 2⟩ ∧ WithinK INF ⟨2, 0, false, -5, INF - 2⟩ ∧
    (exLimit.propagate ⟨2, 0, false, -5, INF - 2⟩).map Prod.snd = .ok .propagated := by
  have hv : Valid exLimit := by decide
  have r : ∀ i j : Fin 3, -INF < exLimitSol j - exLimitSol i ∧ exLimitSol j - exLimitSol i < INF := by decide
  have s : ∀ i j : Fin 3, mat exLimit i j = -INF ∨ mat exLimit i j ≤ exLimitSol j - exLimitSol i := by decide
  refine ⟨hv, (within_iff hv).2 ?_, fun i j hi hj => r ⟨i, hi⟩ ⟨j, hj⟩,
    (sat_iff hv _).2 fun i hi j hj => s ⟨i, hi⟩ ⟨j, hj⟩, by decide, by decide, by decide⟩
  show ∀ i, i < 3 → ∀ j, j < 3 → (_ ∨ _)
  decide

/-! ## C63 -/

/-- C63, whatever the bounds are, from any state, and even if the graph grows: among the representable assignments, the
solutions are those of the first graph which satisfy all the accepted constraints; all the calls return, and accept their
constraint, if one of them satisfies them all. -/
theorem C63_any_bounds {n : Nat} (hn : n ≤ 65535) : ∀ {ks : List Constr} {g : Graph}, Valid g → Clean g → Within INF g →
    g.size ≤ n → (∀ k ∈ ks, k.src < n ∧ k.dst < n ∧ k.src ≠ k.dst ∧ WithinK INF k) →
    (∀ g' acc, propagateAll g ks = .ok (g', acc) → acc.Sublist ks ∧ Valid g' ∧ Clean g' ∧ Within INF g' ∧
      g.size ≤ g'.size ∧ g'.size ≤ n ∧
      (∀ τ, Representable n τ → (Sat τ g' ↔ Sat τ g ∧ ∀ k ∈ acc, Holds τ k))) ∧
    ((∃ τ, Representable n τ ∧ Sat τ g ∧ ∀ k ∈ ks, Holds τ k) → ∃ g', propagateAll g ks = .ok (g', ks))
  | [], g, hv, hc, hg, hs, _ => by
    refine ⟨fun g' acc h => ?_, fun _ => ⟨g, rfl⟩⟩
    cases h
    exact ⟨List.Sublist.refl _, hv, hc, hg, Nat.le_refl _, hs, fun τ _ => ⟨fun h => ⟨h, fun _ h => nomatch h⟩, fun h => h.1⟩⟩
  | k :: ks, g, hv, hc, hg, hs, hks => by
    obtain ⟨k1, k2, k3, k4⟩ := hks k (by simp)
    have rest : ∀ k ∈ ks, k.src < n ∧ k.dst < n ∧ k.src ≠ k.dst ∧ WithinK INF k := fun k h => hks k (by simp [h])
    have INF0 : (0 : Int) < INF := by decide
    -- one call
    have step : (∀ g' o, g.propagate k = .ok (g', o) → Valid g' ∧ Clean g' ∧ Within INF g' ∧ g.size ≤ g'.size ∧
        g'.size ≤ n ∧ ((o = .recovered ∨ o = .fatal) → ∀ τ, Representable n τ → (Sat τ g' ↔ Sat τ g)) ∧
        (¬ (o = .recovered ∨ o = .fatal) → ∀ τ, Representable n τ → (Sat τ g' ↔ Sat τ g ∧ Holds τ k))) ∧
        ((∃ τ, Representable n τ ∧ Sat τ g ∧ Holds τ k) →
          ∃ g' o, g.propagate k = .ok (g', o) ∧ ¬ (o = .recovered ∨ o = .fatal)) := by
      cases he : k.isEmpty with
      | true =>
        rw [C61_empty_rejected g he]
        refine ⟨fun g' o h => ?_, fun ⟨τ, _, _, h⟩ => ?_⟩
        · cases h
          exact ⟨hv, hc, hg, Nat.le_refl _, hs, fun _ τ _ => Iff.rfl, fun h => absurd (Or.inl rfl) h⟩
        · have := h.1
          rw [he] at this
          cases this
      | false =>
        by_cases c : g.size ≤ max k.src k.dst
        · obtain ⟨g', h1, h2, h3, h4, h5⟩ := propagate_grow (clean_iff.1 hc) he c (by omega) k3
          rw [h1]
          refine ⟨fun g'' o h => ?_, fun _ => ⟨g', _, rfl, by decide⟩⟩
          cases h
          refine ⟨h3, clean_iff.2 h4, (within_iff h3).2 fun i hi j hj => ?_, by omega, by omega,
            fun h => by simp at h, fun _ τ _ => ?_⟩
          · rw [h5 i j hi hj]
            have b1 := k4.1
            have b2 := k4.2
            unfold Small
            split
            · omega
            · split
              · omega
              · split
                · next c => exact small_of_within hv hg i c.1 j c.2
                · split <;> omega
          · rw [sat_iff h3, sat_iff hv]
            exact grow_step_sat he c k3 h2 h5 τ
        · obtain ⟨q1, q2, q3⟩ := C62_any_bounds hv hg (k := k) (by omega) (by omega) k4
          have rep : ∀ τ, Representable n τ → Representable g.size τ := fun τ h i j hi hj => h i j (by omega) (by omega)
          refine ⟨fun g' o h => ?_, fun ⟨τ, h1, h2⟩ => ?_⟩
          · by_cases ho : o = .unchanged ∨ o = .propagated
            · obtain ⟨a1, a2, a3, a4, -, a5⟩ := q1 g' o h ho
              refine ⟨a2, a4 hc, a3, by omega, by omega, fun h => ?_, fun _ τ hτ => a5 τ (rep τ hτ)⟩
              rcases ho with rfl | rfl <;> simp at h
            · obtain ⟨rfl, rfl, -⟩ := q2 g' o h ho
              exact ⟨hv, hc, hg, Nat.le_refl _, hs, fun _ τ _ => Iff.rfl, fun h => absurd (Or.inl rfl) h⟩
          · obtain ⟨g', o, e, ho⟩ := q3 ⟨τ, rep τ h1, h2⟩
            exact ⟨g', o, e, by rcases ho with rfl | rfl <;> decide⟩
    constructor
    · intro g' acc h
      unfold propagateAll at h
      obtain ⟨⟨g1, o⟩, e1, h⟩ := bind_ok h
      obtain ⟨⟨g2, acc2⟩, e2, h⟩ := bind_ok h
      cases h
      obtain ⟨a1, a2, a3, a4, a5, a6, a7⟩ := step.1 g1 o e1
      obtain ⟨b0, b1, b2, b3, b4, b5, b6⟩ := (C63_any_bounds hn a1 a2 a3 a5 rest).1 _ _ e2
      refine ⟨?_, b1, b2, b3, by omega, b5, fun τ hτ => ?_⟩
      · split
        · exact b0.cons _
        · exact b0.cons_cons _
      · rw [b6 τ hτ]
        split
        · next c => rw [a6 c τ hτ]
        · next c =>
          rw [a7 c τ hτ]
          simp only [List.mem_cons, forall_eq_or_imp]
          exact and_assoc
    · rintro ⟨τ, t1, t2, t3⟩
      obtain ⟨g1, o, e1, ho⟩ := step.2 ⟨τ, t1, t2, t3 k (by simp)⟩
      obtain ⟨a1, a2, a3, a4, a5, a6, a7⟩ := step.1 g1 o e1
      obtain ⟨g2, e2⟩ := (C63_any_bounds hn a1 a2 a3 a5 rest).2
        ⟨τ, t1, (a7 ho τ t1).2 ⟨t2, t3 k (by simp)⟩, fun k hk => t3 k (by simp [hk])⟩
      refine ⟨g2, ?_⟩
      unfold propagateAll
      rw [e1, ok_bind]
      show (propagateAll g1 ks >>= fun p => _) = _
      rw [e2, ok_bind]
      show Except.ok (g2, if _ then _ else _) = _
      rw [if_neg ho]

example : Valid Graph.default ∧ Clean Graph.default ∧ Within INF Graph.default ∧ Graph.default.size ≤ 4 ∧
    (∀ k ∈ [⟨0, 1, false, 10, INF - 1⟩, ⟨1, 2, false, 3 - INF, 6⟩, ⟨2, 0, false, -INF + 1, 9⟩, ⟨0, 1, false, 3, 4⟩],
      k.src < 4 ∧ k.dst < 4 ∧ k.src ≠ k.dst ∧ WithinK INF k) ∧
    (propagateAll Graph.default [⟨0, 1, false, 10, INF - 1⟩, ⟨1, 2, false, 3 - INF, 6⟩, ⟨2, 0, false, -INF + 1, 9⟩,
      ⟨0, 1, false, 3, 4⟩]).map Prod.snd =
      .ok [⟨0, 1, false, 10, INF - 1⟩, ⟨1, 2, false, 3 - INF, 6⟩, ⟨2, 0, false, -INF + 1, 9⟩] :=
  ⟨default_valid, clean_iff.2 default_clean, fun i _ hi => absurd hi (Nat.not_lt_zero i), by decide, by decide, by decide⟩

/-! ## C65 -/

/-- C65, whatever the bounds are: after `Ok(_)` the representable solutions are exactly those of the old graph which satisfy
all the constraints of the batch; if there is one, `extend` returns `Ok(_)`. If it fails, the graph has no instant left. -/
theorem C65_any_bounds {g : Graph} (hv : Valid g) (hc : Clean g) (hg : Within INF g) {n : Nat} (hn : g.size ≤ n)
    (hn2 : n ≤ 65535) {ks : List Constr} (hks : ∀ k ∈ ks, Batchable n INF k) {hint : Option Nat} (h0 : hint ≠ some 0)
    (h1 : hint ≠ some 1) :
    (∀ g' o, g.extend hint ks = .ok (g', o) →
      (o = .propagated ∧ Valid g' ∧ Clean g' ∧ Within INF g' ∧ g.size ≤ g'.size ∧ g'.size ≤ n ∧
        (∀ k ∈ ks, k.src < g'.size ∧ k.dst < g'.size) ∧
        ∀ τ, Representable n τ → (Sat τ g' ↔ Sat τ g ∧ ∀ k ∈ ks, Holds τ k)) ∨
      (o = .fatal ∧ g'.size = 0 ∧ ¬ ∃ τ, Representable n τ ∧ Sat τ g ∧ ∀ k ∈ ks, Holds τ k)) ∧
    ((∃ τ, Representable n τ ∧ Sat τ g ∧ ∀ k ∈ ks, Holds τ k) → ∃ g', g.extend hint ks = .ok (g', .propagated)) := by
  have hle := needed_le (n := n) (ks := ks) (fun k hk => ⟨(hks k hk).1, (hks k hk).2.1⟩)
  have rep : ∀ τ, Representable n τ → Representable (max g.size (needed ks)) τ :=
    fun τ h i j hi hj => h i j (by omega) (by omega)
  rcases (extend_any hv (clean_iff.1 hc) (small_of_within hv hg) hn2 hks h0 h1).cases with ⟨⟨g1, o1⟩, e, p, q, r, -⟩ | ⟨e', e, p⟩
  · rw [e]
    constructor
    · intro g' o h
      cases h
      rcases q with q | q
      · left
        simp only at q
        subst q
        have sz := p.size (by simp)
        have v := p.valid
        simp only at sz v
        refine ⟨rfl, v, clean_iff.2 (r rfl), (within_iff v).2 (by rw [sz]; exact p.range (by simp)), by omega, by omega,
          fun k hk => ?_, fun τ hτ => ?_⟩
        · have := lt_needed hk
          omega
        · rw [sat_iff v, sat_iff hv, sz]
          exact p.sat (by simp) τ (rep τ hτ)
      · right
        refine ⟨q, (p.fatal q).1, fun ⟨τ, t1, t2, t3⟩ => (p.fatal q).2 ⟨τ, rep τ t1, (sat_iff hv τ).1 t2, t3⟩⟩
    · rintro ⟨τ, t1, t2, t3⟩
      refine ⟨g1, ?_⟩
      rcases q with q | q
      · simp only at q
        rw [q]
      · exact absurd ⟨τ, rep τ t1, (sat_iff hv τ).1 t2, t3⟩ (p.fatal q).2
  · rw [e]
    exact ⟨fun _ _ h => (by cases h), fun ⟨τ, t1, t2, t3⟩ => absurd ⟨τ, rep τ t1, (sat_iff hv τ).1 t2, t3⟩ p⟩

example : Valid exLimit ∧ Within INF exLimit ∧ Clean exLimit ∧ Batchable 4 INF ⟨2, 3, false, 0, 1⟩ ∧
    Batchable 4 INF ⟨3, 1, false, -INF + 1, INF - 1⟩ ∧
    Representable 4 exLimitSol ∧ Sat exLimitSol exLimit ∧ Holds exLimitSol ⟨2, 3, false, 0, 1⟩ ∧
    Holds exLimitSol ⟨3, 1, false, -INF + 1, INF - 1⟩ ∧
    (exLimit.extend none [⟨2, 3, false, 0, 1⟩, ⟨3, 1, false, -INF + 1, INF - 1⟩]).map Prod.snd = .ok .propagated := by
  have hv : Valid exLimit := by decide
  have r : ∀ i j : Fin 4, -INF < exLimitSol j - exLimitSol i ∧ exLimitSol j - exLimitSol i < INF := by decide
  have s : ∀ i j : Fin 3, mat exLimit i j = -INF ∨ mat exLimit i j ≤ exLimitSol j - exLimitSol i := by decide
  refine ⟨hv, (within_iff hv).2 ?_, clean_iff.2 (tidy_clean (tidy_of_len (by decide))), by decide, by decide,
    fun i j hi hj => r ⟨i, hi⟩ ⟨j, hj⟩, (sat_iff hv _).2 fun i hi j hj => s ⟨i, hi⟩ ⟨j, hj⟩, by decide, by decide, by decide⟩
  show ∀ i, i < 3 → ∀ j, j < 3 → (_ ∨ _)
  decide

/-! ## C67 -/

theorem merge_any {g h : Graph} (hg : Valid g) (hh : Valid h) (tg : Tidy g) (th : Tidy h) (zg : ∀ i, i < g.size → 0 ≤ mat g i i)
    (zh : ∀ i, i < h.size → 0 ≤ mat h i i) (wg : Within INF g) (wh : Within INF h) :
    (∀ g' o, g.merge h = .ok (g', o) →
      ((o = .unchanged ∨ o = .propagated) ∧ (o = .unchanged → g' = g) ∧ Valid g' ∧ Tidy g' ∧ Within INF g' ∧
        g'.size = max g.size h.size ∧ (∀ i, i < g'.size → 0 ≤ mat g' i i) ∧
        ∀ τ, Representable (max g.size h.size) τ → (Sat τ g' ↔ Sat τ g ∧ Sat τ h)) ∨
      (o = .fatal ∧ g'.size = 0 ∧ ¬ ∃ τ, Representable (max g.size h.size) τ ∧ Sat τ g ∧ Sat τ h)) ∧
    ((∃ τ, Representable (max g.size h.size) τ ∧ Sat τ g ∧ Sat τ h) →
      ∃ g' o, g.merge h = .ok (g', o) ∧ (o = .unchanged ∨ o = .propagated)) := by
  have key : ∀ {a b : Graph}, Valid a → Valid b → Tidy a → Tidy b → (∀ i, i < a.size → 0 ≤ mat a i i) → Within INF a → Within INF b →
      b.size ≤ a.size → ∀ u : Outcome, (u = .unchanged ∨ u = .propagated) → ∀ r : Res (Graph × Outcome),
      r = (if (Graph.zipMax a.data b.data).2 then Graph.globalPropagation { a with data := (Graph.zipMax a.data b.data).1 }
          else .ok ({ a with data := (Graph.zipMax a.data b.data).1 }, u)) →
      (∀ g' o, r = .ok (g', o) →
        ((o = .unchanged ∨ o = .propagated) ∧ (o = .unchanged → g' = a ∧ u = .unchanged) ∧ Valid g' ∧ Tidy g' ∧ Within INF g' ∧
          g'.size = a.size ∧ (∀ i, i < g'.size → 0 ≤ mat g' i i) ∧ ∀ τ, Representable a.size τ → (Sat τ g' ↔ Sat τ a ∧ Sat τ b)) ∨
        (o = .fatal ∧ g'.size = 0 ∧ ¬ ∃ τ, Representable a.size τ ∧ Sat τ a ∧ Sat τ b)) ∧
      ((∃ τ, Representable a.size τ ∧ Sat τ a ∧ Sat τ b) → ∃ g' o, r = .ok (g', o) ∧ (o = .unchanged ∨ o = .propagated)) := by
    intro a b va vb ta tb za wa wb hl u hu r hr
    have s := merge_one va hl tb za (small_of_within va wa)
      (small_of_within vb wb) (u := u) (by rcases hu with rfl | rfl <;> decide)
    rcases s.cases with ⟨⟨g1, o1⟩, e, p, q1, q2, q3, q4⟩ | ⟨e', e, p⟩
    · rw [← hr] at e
      rw [e]
      have nr : o1 = .unchanged ∨ o1 = .propagated ∨ o1 = .fatal := by
        rcases q1 with q | q | q
        · rcases hu with rfl | rfl
          · exact Or.inl q
          · exact Or.inr (Or.inl q)
        · exact Or.inr (Or.inl q)
        · exact Or.inr (Or.inr q)
      by_cases c : o1 = .fatal
      · obtain ⟨f1, f2⟩ := p.fatal c
        have no : ¬ ∃ τ, Representable a.size τ ∧ Sat τ a ∧ Sat τ b :=
          fun ⟨τ, t1, t2, t3⟩ => f2 ⟨τ, t1, (sat_iff va τ).1 t2, (sat_iff vb τ).1 t3⟩
        refine ⟨fun g' o h => ?_, fun h => absurd h no⟩
        cases h
        exact Or.inr ⟨c, f1, no⟩
      · have sz := p.size c
        have v := p.valid
        simp only at sz v
        have ho : o1 = .unchanged ∨ o1 = .propagated := by
          rcases nr with n | n | n
          · exact Or.inl n
          · exact Or.inr n
          · exact absurd n c
        refine ⟨fun g' o h => ?_, fun _ => ⟨g1, o1, rfl, ho⟩⟩
        cases h
        refine Or.inl ⟨ho, fun h => ⟨q2 h, ?_⟩, v, q3 c ta, (within_iff v).2 (by rw [sz]; exact p.range c), sz, fun i hi => q4 c i (by omega), fun τ hτ => ?_⟩
        · rcases q1 with q | q | q <;> simp only at q
          · rw [← q]; exact h
          · rw [h] at q; cases q
          · rw [h] at q; cases q
        · rw [sat_iff v, sat_iff va, sat_iff vb, sz]
          exact p.sat c τ hτ
    · rw [← hr] at e
      rw [e]
      exact ⟨fun _ _ h => (by cases h),
        fun ⟨τ, t1, t2, t3⟩ => absurd ⟨τ, t1, (sat_iff va τ).1 t2, (sat_iff vb τ).1 t3⟩ p⟩
  by_cases c : g.size < h.size
  · have e : max g.size h.size = h.size := by omega
    rw [e]
    obtain ⟨k1, k2⟩ := key hh hg th tg zh wh wg (by omega) .propagated (Or.inr rfl) (g.merge h) (by
      unfold Graph.merge
      rw [if_pos c]
      rfl)
    refine ⟨fun g' o r => ?_, fun ⟨τ, t1, t2, t3⟩ => k2 ⟨τ, t1, t3, t2⟩⟩
    rcases k1 g' o r with ⟨a1, a2, a3, a4, a5, a6, a7, a8⟩ | ⟨a1, a2, a3⟩
    · exact Or.inl ⟨a1, fun h => absurd (a2 h).2 (by decide), a3, a4, a5, a6, a7, fun τ hτ => by rw [a8 τ hτ]; exact and_comm⟩
    · exact Or.inr ⟨a1, a2, fun ⟨τ, t1, t2, t3⟩ => a3 ⟨τ, t1, t3, t2⟩⟩
  · have e : max g.size h.size = g.size := by omega
    rw [e]
    obtain ⟨k1, k2⟩ := key hg hh tg th zg wg wh (by omega) .unchanged (Or.inl rfl) (g.merge h) (by
      unfold Graph.merge
      rw [if_neg c]
      rfl)
    refine ⟨fun g' o r => ?_, k2⟩
    rcases k1 g' o r with ⟨a1, a2, a3, a4, a5, a6, a7, a8⟩ | a
    · exact Or.inl ⟨a1, fun h => (a2 h).1, a3, a4, a5, a6, a7, a8⟩
    · exact Or.inr a

/-- C67, whatever the bounds are: after `Ok(_)` the representable solutions of the merged graph are the common ones; if
there is one, `merge` returns `Ok(_)`; `Ok(Unchanged)` only if the graph is unchanged. If it fails, the graph has no instant
left. -/
theorem C67_any_bounds {g h : Graph} (hg : Valid g) (hh : Valid h) (tg : Tidy g) (th : Tidy h) (zg : ZeroDiag g)
    (zh : ZeroDiag h) (wg : Within INF g) (wh : Within INF h) :
    (∀ g' o, g.merge h = .ok (g', o) →
      ((o = .unchanged ∨ o = .propagated) ∧ (o = .unchanged → g' = g) ∧ Valid g' ∧ Tidy g' ∧ Within INF g' ∧
        g'.size = max g.size h.size ∧
        ∀ τ, Representable (max g.size h.size) τ → (Sat τ g' ↔ Sat τ g ∧ Sat τ h)) ∨
      (o = .fatal ∧ g'.size = 0 ∧ ¬ ∃ τ, Representable (max g.size h.size) τ ∧ Sat τ g ∧ Sat τ h)) ∧
    ((∃ τ, Representable (max g.size h.size) τ ∧ Sat τ g ∧ Sat τ h) →
      ∃ g' o, g.merge h = .ok (g', o) ∧ (o = .unchanged ∨ o = .propagated)) := by
  have z : ∀ {x : Graph}, Valid x → ZeroDiag x → ∀ i, i < x.size → 0 ≤ mat x i i := fun v d i hi => by
    rw [(zeroDiag_iff v).1 d i hi]; exact Int.le_refl 0
  obtain ⟨m1, m2⟩ := merge_any hg hh tg th (z hg zg) (z hh zh) wg wh
  refine ⟨fun g' o e => ?_, m2⟩
  rcases m1 g' o e with ⟨a1, a2, a3, a4, a5, a6, -, a8⟩ | a
  · exact Or.inl ⟨a1, a2, a3, a4, a5, a6, a8⟩
  · exact Or.inr a

example : Valid exLimit ∧ Valid exGraph2 ∧ Tidy exLimit ∧ Tidy exGraph2 ∧ ZeroDiag exLimit ∧ Within INF exLimit ∧
    (exLimit.merge ⟨2, [0, -30, 0, 3 - INF]⟩).map Prod.snd = .ok .fatal ∧
    (exLimit.merge ⟨2, [0, INF - 2, 0, 1 - INF]⟩).map Prod.snd = .ok .propagated := by
  have hv : Valid exLimit := by decide
  have z : ∀ i : Fin 3, mat exLimit i i = 0 := by decide
  refine ⟨hv, by decide, tidy_of_len (by decide), tidy_of_len (by decide), (zeroDiag_iff hv).2 (fun i hi => z ⟨i, hi⟩),
    (within_iff hv).2 ?_, by decide, by decide⟩
  show ∀ i, i < 3 → ∀ j, j < 3 → (_ ∨ _)
  decide

/-- C65, whatever the bounds: a batch in which a constraint has a lower bound above the upper bound of a constraint between
the same instants is never accepted. With `k = k'`, that is a batch with an empty constraint, the empty interval included: if
`extend` does not panic, the failure is fatal. -/
theorem C65_contradiction {g : Graph} (hv : Valid g) (hc : Clean g) (hg : Within INF g) {ks : List Constr}
    (hks : ∀ k ∈ ks, max k.src k.dst < 65535 ∧ WithinK INF k) {hint : Option Nat} (h0 : hint ≠ some 0) (h1 : hint ≠ some 1)
    {k k' : Constr} (hk : k ∈ ks) (hk' : k' ∈ ks) (e1 : k.src = k'.src) (e2 : k.dst = k'.dst) (hx : k'.upper < k.lower)
    {g' : Graph} {o : Outcome} (h : g.extend hint ks = .ok (g', o)) : o = .fatal ∧ g'.size = 0 := by
  have fatal : o = .fatal := by
    refine Decidable.byContradiction (fun ho => ?_)
    unfold Graph.extend at h
    rw [if_neg h0, if_neg h1] at h
    obtain ⟨x, e, h⟩ := bind_ok h
    obtain ⟨q1, q2, -, -, q5⟩ := inserts_bounds (g := g) hv (clean_iff.1 hc) (small_of_within hv hg) hks e
    have a := q5 k hk
    have b := q5 k' hk'
    have p := gp_pairs q1 q2 h ho a.1 a.2.1
    rw [← e1, ← e2] at b
    omega
  subst fatal
  exact ⟨rfl, extend_fatal_size h⟩

/-- C65: a batch which contradicts, between two instants, what the graph already says is never accepted either, whatever
the bounds. -/
theorem C65_contradicts_graph {g : Graph} (hv : Valid g) (hc : Clean g) (hg : Within INF g) {ks : List Constr}
    (hks : ∀ k ∈ ks, max k.src k.dst < 65535 ∧ WithinK INF k) {hint : Option Nat} (h0 : hint ≠ some 0) (h1 : hint ≠ some 1)
    {k : Constr} (hk : k ∈ ks) (hs : k.src < g.size) (hd : k.dst < g.size) {w : Iv}
    (hw : g.timespan k.src k.dst = .ok w) (hx : w.upper < k.lower ∨ k.upper < w.lower)
    {g' : Graph} {o : Outcome} (h : g.extend hint ks = .ok (g', o)) : o = .fatal ∧ g'.size = 0 := by
  have fatal : o = .fatal := by
    refine Decidable.byContradiction (fun ho => ?_)
    unfold Graph.extend at h
    rw [if_neg h0, if_neg h1] at h
    obtain ⟨x, e, h⟩ := bind_ok h
    obtain ⟨q1, q2, q3, q4, q5⟩ := inserts_bounds (g := g) hv (clean_iff.1 hc) (small_of_within hv hg) hks e
    have a := q5 k hk
    have p := gp_pairs q1 q2 h ho a.1 a.2.1
    have m1 := q4 k.src k.dst hs hd
    have m2 := q4 k.dst k.src hd hs
    rw [timespan_eq hv hs hd] at hw
    cases hw
    simp only [tvNeg] at hx
    omega
  subst fatal
  exact ⟨rfl, extend_fatal_size h⟩

example : Valid exGraph ∧ Clean exGraph ∧ WithinK INF (Constr.ofConvex 0 1 (.iv ⟨INF, -INF⟩)) ∧
    (Constr.ofConvex 0 1 (.iv ⟨INF, -INF⟩)).upper < (Constr.ofConvex 0 1 (.iv ⟨INF, -INF⟩)).lower ∧
    (exGraph.extend none [Constr.ofConvex 0 1 (.iv ⟨INF, -INF⟩), ⟨1, 2, false, 5, 6⟩]).map Prod.snd = .ok .fatal ∧
    exGraph.timespan 0 2 = .ok ⟨15, 26⟩ ∧ (exGraph.extend none [⟨0, 2, false, 27, INF⟩]).map Prod.snd = .ok .fatal :=
  ⟨exGraph_valid, exGraph_clean, by decide, by decide, by decide, by decide, by decide⟩

/-- C65 is violated by the empty interval (from `+oo` to `-oo`), whatever the two instants and the number of instants, at least
three, of a new graph: a batch with it panics in the propagation (`+oo + -oo`) instead of reporting the inconsistency. -/
theorem C65_empty_panics_violated {n a b : Nat} (hn : 3 ≤ n) (hn2 : n ≤ 65535) (ha : a < n) (hb : b < n) (hab : a ≠ b)
    {hint : Option Nat} (h0 : hint ≠ some 0) (h1 : hint ≠ some 1) :
    (Graph.withSize n >>= fun g => g.extend hint [Constr.ofConvex a b (.iv ⟨INF, -INF⟩)]) = .error .assertFail := by
  obtain ⟨g, e, sz, hv, -, m⟩ := withSize_eq hn2
  rw [e, ok_bind]
  unfold Graph.extend
  rw [if_neg h0, if_neg h1]
  have hs : (Constr.ofConvex a b (.iv ⟨INF, -INF⟩)).src < g.size := by rw [sz]; exact ha
  have hd : (Constr.ofConvex a b (.iv ⟨INF, -INF⟩)).dst < g.size := by rw [sz]; exact hb
  rw [List.foldlM_cons, insert_eq_relax hv hs hd, ok_bind, List.foldlM_nil, show ∀ x : Graph, (pure x : Res Graph) = .ok x from
    fun _ => rfl, ok_bind]
  show Graph.globalPropagation (put (put g a b (max (mat g a b) INF)) b a
    (max (mat (put g a b (max (mat g a b) INF)) b a) (-(-INF)))) = _
  have INF0 : (0 : Int) < INF := by decide
  have x1 := hv.ix_lt (show a < g.size by omega) (show b < g.size by omega)
  have x2 : ix b a < (put g a b (max (mat g a b) INF)).data.length := by
    rw [put_len]; exact hv.ix_lt (by omega) (by omega)
  have mm : ∀ i j, i < n → j < n → mat (put (put g a b (max (mat g a b) INF)) b a
      (max (mat (put g a b (max (mat g a b) INF)) b a) (-(-INF)))) i j =
      if (i = a ∧ j = b) ∨ (i = b ∧ j = a) then INF else if i = j then 0 else -INF := by
    intro i j hi hj
    have m1 := m i j hi hj
    have m2 := m a b ha hb
    have m3 := m b a hb ha
    rw [if_neg hab] at m2
    rw [if_neg (by omega)] at m3
    rw [mat_put _ x2, mat_put _ x1, mat_put _ x1, m1, m2, m3, if_neg (c := b = a ∧ a = b) (by omega)]
    by_cases c1 : i = b ∧ j = a
    · rw [if_pos c1, if_pos (Or.inr c1)]; omega
    · rw [if_neg c1]
      by_cases c2 : i = a ∧ j = b
      · rw [if_pos c2, if_pos (Or.inl c2)]; omega
      · rw [if_neg c2, if_neg (c := _ ∨ _) (by omega)]
  have v := (hv.put a b (max (mat g a b) INF)).put b a (max (mat (put g a b (max (mat g a b) INF)) b a) (-(-INF)))
  have t : ∀ a' b', (a' = a ∧ b' = b) ∨ (a' = b ∧ b' = a) → Torn n a' b' (put (put g a b (max (mat g a b) INF)) b a
    (max (mat (put g a b (max (mat g a b) INF)) b a) (-(-INF)))) := by
    intro a' b' h
    refine ⟨v, sz, ?_, ?_, fun i hi => ?_, fun i j hi hj c1 c2 c3 => ?_⟩
    · rw [mm a' b' (by omega) (by omega), if_pos (by omega)]
    · rw [mm b' a' (by omega) (by omega), if_pos (by omega)]
    · rw [mm i i hi hi, if_neg (by omega), if_pos rfl]
    · rw [mm i j hi hj, if_neg (by omega), if_neg c1]
  by_cases c : a < b
  · exact (t a b (Or.inl ⟨rfl, rfl⟩)).panic hn c hb
  · exact (t b a (Or.inr ⟨rfl, rfl⟩)).panic hn (by omega) ha

theorem merge_pairs {a b : Graph} (va : Valid a) (vb : Valid b) (tb : Tidy b) (wa : Within INF a) (wb : Within INF b)
    (hl : b.size ≤ a.size) {i j : Nat} (hi : i < b.size) (hj : j < b.size) (na : mat a i j + mat a j i ≤ 0)
    (hx : 0 < mat a i j + mat b j i ∨ 0 < mat b i j + mat a j i) {u o : Outcome} {g' : Graph}
    (h : (if (Graph.zipMax a.data b.data).2 then Graph.globalPropagation { a with data := (Graph.zipMax a.data b.data).1 }
      else .ok ({ a with data := (Graph.zipMax a.data b.data).1 }, u)) = .ok (g', o)) : o = .fatal := by
  have sa := small_of_within va wa
  have sb := small_of_within vb wb
  have INF0 : (0 : Int) < INF := by decide
  have rb : ∀ x y, x < a.size → y < a.size → Small INF (mat b x y) := by
    intro x y hx hy
    by_cases c : x < b.size ∧ y < b.size
    · exact sb x c.1 y c.2
    · by_cases d : ix x y < b.data.length
      · have cell : b.data[ix x y]? = some (mat b x y) := by
          unfold mat
          rw [List.getD_eq_getElem?_getD, List.getElem?_eq_getElem d]
          rfl
        unfold Small
        rcases tb _ _ (ix_ge_sq (by omega)) cell with e | ⟨e, -⟩ <;> rw [e] <;> omega
      · rw [mat_oob (by omega)]
        unfold Small
        omega
  have zm : ∀ x y, x < a.size → y < a.size → mat { a with data := (Graph.zipMax a.data b.data).1 } x y =
      max (mat a x y) (mat b x y) := by
    intro x y hx hy
    have := sa x hx y hy
    rw [zip_mat (by unfold Small at this; omega), if_pos (va.ix_lt hx hy)]
  cases c : (Graph.zipMax a.data b.data).2 with
  | false =>
    obtain ⟨-, e⟩ := zipMax_same _ _ c
    have h1 : mat b i j ≤ mat a i j := e _ (va.ix_lt (by omega) (by omega)) (vb.ix_lt hi hj)
    have h2 : mat b j i ≤ mat a j i := e _ (va.ix_lt (by omega) (by omega)) (vb.ix_lt hj hi)
    omega
  | true =>
    rw [c, if_pos rfl] at h
    refine Decidable.byContradiction (fun ho => ?_)
    have v' : Valid { a with data := (Graph.zipMax a.data b.data).1 } :=
      ⟨va.1, by show _ ≤ (Graph.zipMax a.data b.data).1.length; rw [zipMax_len]; exact va.2⟩
    have p := gp_pairs v' (fun x hx y hy => by
      rw [zm x y hx hy]
      have s1 := sa x hx y hy
      have s2 := rb x y hx hy
      unfold Small at *
      omega) h ho (show i < a.size by omega) (show j < a.size by omega)
    rw [zm i j (by omega) (by omega), zm j i (by omega) (by omega)] at p
    omega

/-- C67, whatever the bounds: if the two graphs leave no common delay between two instants, merging them is never
accepted: the failure is fatal, unless the propagation panics. -/
theorem C67_contradiction {g h : Graph} (hg : Valid g) (hh : Valid h) (tg : Tidy g) (th : Tidy h) (wg : Within INF g)
    (wh : Within INF h) {i j : Nat} (hig : i < g.size) (hjg : j < g.size) (hih : i < h.size) (hjh : j < h.size) {w w' : Iv}
    (hw : g.timespan i j = .ok w) (hw' : h.timespan i j = .ok w') (nw : w.lower ≤ w.upper) (nw' : w'.lower ≤ w'.upper)
    (hx : w.upper < w'.lower ∨ w'.upper < w.lower) {g' : Graph} {o : Outcome} (e : g.merge h = .ok (g', o)) :
    o = .fatal ∧ g'.size = 0 := by
  rw [timespan_eq hg hig hjg] at hw
  rw [timespan_eq hh hih hjh] at hw'
  cases hw
  cases hw'
  simp only [tvNeg] at nw nw' hx
  have fatal : o = .fatal := by
    by_cases c : g.size < h.size
    · refine merge_pairs (u := .propagated) hh hg tg wh wg (by omega) hig hjg (by omega) (by omega) (g' := g') ?_
      rw [← e]
      unfold Graph.merge
      rw [if_pos c]
      rfl
    · refine merge_pairs (u := .unchanged) hg hh th wg wh (by omega) hih hjh (by omega) (by omega) (g' := g') ?_
      rw [← e]
      unfold Graph.merge
      rw [if_neg c]
      rfl
  subst fatal
  exact ⟨rfl, merge_fatal_size e⟩

example : Valid exLimit ∧ Tidy exLimit ∧ exLimit.timespan 0 1 = .ok ⟨-INF, 1 - INF⟩ ∧
    Graph.timespan ⟨2, [0, -30, 0, 3 - INF]⟩ 0 1 = .ok ⟨3 - INF, 30⟩ ∧
    (exLimit.merge ⟨2, [0, -30, 0, 3 - INF]⟩).map Prod.snd = .ok .fatal :=
  ⟨by decide, tidy_of_len (by decide), by decide, by decide, by decide⟩

end Chrono
