import Verif.Props.Apart

/-!
# C150: parts of a plan which share one instant
-/

set_option linter.unusedSimpArgs false

namespace Chrono
open Spec

/-- the first assignment on the part, and the second one on the rest, moved so that both agree on the instant `c` -/
def hinge (P : Nat → Bool) (c : Nat) (τ σ : Nat → Int) : Nat → Int := fun i => if P i then τ i else σ i + (τ c - σ c)

theorem holds_hinge {P : Nat → Bool} {c : Nat} {τ σ : Nat → Int} {k : Constr} :
    ((P k.src = true ∧ P k.dst = true) → (Holds (hinge P c τ σ) k ↔ Holds τ k)) ∧
    (((P k.src = true → k.src = c) ∧ (P k.dst = true → k.dst = c)) → (Holds (hinge P c τ σ) k ↔ Holds σ k)) := by
  constructor
  · rintro ⟨h1, h2⟩
    simp only [Holds, hinge, if_pos h1, if_pos h2]
  · rintro ⟨h1, h2⟩
    have e : ∀ i, (P i = true → i = c) → hinge P c τ σ i = σ i + (τ c - σ c) := by
      intro i hi
      unfold hinge
      split
      · rename_i h; rw [hi h]; omega
      · rfl
    simp only [Holds, e _ h1, e _ h2]
    rw [show σ k.dst + (τ c - σ c) - (σ k.src + (τ c - σ c)) = σ k.dst - σ k.src by omega]

/-- `N` has the solutions of the part of the constraints of `M` -/
structure JointOf (P : Nat → Bool) (c : Nat) (n : Nat) (M N : Mat) : Prop where
  closed : Closed n M
  closed' : Closed n N
  sub : ∀ τ, MSat n M τ → MSat n N τ
  glue : ∀ τ σ, MSat n N τ → MSat n M σ → MSat n M (hinge P c τ σ)

theorem answers_joint {P Q : Nat → Bool} {c : Nat} {n : Nat} {W : Int} (only : ∀ i, P i = true → Q i = true → i = c) (hW : 0 ≤ W) (hB : 3 * (n : Int) * W < INF) : ∀ {ks : List Constr} {g g' : Graph},
    Valid g → Valid g' → g.size = n → g'.size = n → JointOf P c n (mat g) (mat g') → Tight W n (mat g) → Tight W n (mat g') →
    (∀ k ∈ ks, Usable n W k ∧ (Constr.within P k = true ∨ Constr.within Q k = true)) →
    ∃ h h' os, answers g ks = .ok (h, os) ∧
      answers g' (ks.filter (Constr.within P)) = .ok (h', answersTo (Constr.within P) ks os) ∧
      Valid h ∧ Valid h' ∧ h.size = n ∧ h'.size = n ∧ JointOf P c n (mat h) (mat h')
  | [], g, g', v, v', s, s', p, _, _, _ => ⟨g, g', [], rfl, rfl, v, v', s, s', p⟩
  | k :: ks, g, g', v, v', s, s', p, t, t', hk => by
    subst s
    obtain ⟨uk, pk⟩ := hk k (by simp)
    obtain ⟨g1, o, e1, s1, c1, t1, -, nf, r1, a1, u1⟩ := propagate_tight v hW p.closed t hB uk
    cases hin : Constr.within P k with
    | true =>
      have ins : P k.src = true ∧ P k.dst = true := by
        unfold Constr.within at hin; simpa using hin
      obtain ⟨g2, o', e2, s2, c2, t2, -, nf', r2, a2, u2⟩ := propagate_tight v' hW (by rw [s']; exact p.closed') (by rw [s']; exact t')
        (by rw [s']; exact hB) (by rw [s']; exact uk)
      rw [s'] at c2 t2 r2 a2 u2
      obtain ⟨σ0, hσ0⟩ := p.closed.sat
      have rr : o = .recovered ↔ o' = .recovered := by
        constructor
        · refine fun h => Classical.byContradiction fun hn => ?_
          obtain ⟨τ, ht⟩ := c2.sat
          obtain ⟨x, y⟩ := (a2 hn τ).1 ht
          exact (r1 h).2 _ (p.glue τ σ0 x hσ0) ((holds_hinge.1 ins).2 y)
        · refine fun h => Classical.byContradiction fun hn => ?_
          obtain ⟨τ, ht⟩ := c1.sat
          obtain ⟨x, y⟩ := (a1 hn τ).1 ht
          exact (r2 h).2 τ (p.sub τ x) y
      have uu : o = .unchanged ↔ o' = .unchanged := by
        rw [u1, u2]
        exact ⟨fun h τ x => (holds_hinge.1 ins).1 (h _ (p.glue τ σ0 x hσ0)), fun h τ x => h τ (p.sub τ x)⟩
      have oo : o' = o := by
        revert rr uu nf nf'
        cases o <;> cases o' <;> simp
      subst oo
      have p1 : JointOf P c g.size (mat g1) (mat g2) := by
        refine ⟨c1, c2, fun τ h => ?_, fun τ σ h h' => ?_⟩
        · by_cases hr : o' = .recovered
          · rw [(r1 hr).1] at h
            rw [(r2 hr).1]
            exact p.sub τ h
          · have := (a1 hr τ).1 h
            exact (a2 hr τ).2 ⟨p.sub τ this.1, this.2⟩
        · by_cases hr : o' = .recovered
          · rw [(r1 hr).1] at h' ⊢
            rw [(r2 hr).1] at h
            exact p.glue τ σ h h'
          · have x := (a2 hr τ).1 h
            have y := (a1 hr σ).1 h'
            exact (a1 hr _).2 ⟨p.glue τ σ x.1 y.1, (holds_hinge.1 ins).2 x.2⟩
      obtain ⟨h, h', os, x1, x2, x3⟩ := answers_joint only hW hB (ks := ks) (s1.valid v) (s2.valid v') s1.size (s2.size.trans s') p1 t1 t2
        (fun k' hk' => hk k' (by simp [hk']))
      refine ⟨h, h', o' :: os, ?_, ?_, x3⟩
      · unfold answers; rw [e1, ok_bind]; simp only; rw [x1, ok_bind]; rfl
      · rw [List.filter_cons_of_pos hin]
        unfold answers; rw [e2, ok_bind]; simp only; rw [x2, ok_bind]
        simp [answersTo, hin]
        rfl
    | false =>
      have out : (P k.src = true → k.src = c) ∧ (P k.dst = true → k.dst = c) := by
        rw [hin] at pk
        have pk : Constr.within Q k = true := by simpa using pk
        unfold Constr.within at pk
        rw [Bool.and_eq_true] at pk
        exact ⟨fun h => only _ h pk.1, fun h => only _ h pk.2⟩
      have p1 : JointOf P c g.size (mat g1) (mat g') := by
        refine ⟨c1, p.closed', fun τ h => ?_, fun τ σ h h' => ?_⟩
        · by_cases hr : o = .recovered
          · rw [(r1 hr).1] at h
            exact p.sub τ h
          · exact p.sub τ ((a1 hr τ).1 h).1
        · by_cases hr : o = .recovered
          · rw [(r1 hr).1] at h' ⊢
            exact p.glue τ σ h h'
          · have y := (a1 hr σ).1 h'
            exact (a1 hr _).2 ⟨p.glue τ σ h y.1, (holds_hinge.2 out).2 y.2⟩
      obtain ⟨h, h', os, x1, x2, x3⟩ := answers_joint only hW hB (ks := ks) (s1.valid v) v' s1.size s' p1 t1 t'
        (fun k' hk' => hk k' (by simp [hk']))
      refine ⟨h, h', o :: os, ?_, ?_, x3⟩
      · unfold answers; rw [e1, ok_bind]; simp only; rw [x1, ok_bind]; rfl
      · rw [List.filter_cons_of_neg (by rw [hin]; decide), x2]
        simp [answersTo, hin]

/-! ## Properties -/

/-- **C150.** Two parts `P` and `Q` of the instants share the instant `c` only, and each constraint is inside one of the parts. Then the
constraints of the part `P` get the same answers, and give the same delays between the instants of `P`, as if those of `Q` had not been
given; and the delay from an instant of `P` to an instant of `Q` is exactly the sum of the delays to `c` and from `c`. -/
theorem C150_parts {P Q : Nat → Bool} {c : Nat} (only : ∀ i, P i = true → Q i = true → i = c) {n : Nat} (hn : n ≤ 65535) (hc : c < n)
    {W : Int} (hW : 0 ≤ W) (hB : 3 * (n : Int) * W < INF) {ks : List Constr}
    (hk : ∀ k ∈ ks, Usable n W k ∧ (Constr.within P k = true ∨ Constr.within Q k = true)) :
    ∃ g g' os, (Graph.withSize n >>= fun g => answers g ks) = .ok (g, os) ∧
      (Graph.withSize n >>= fun g => answers g (ks.filter (Constr.within P))) = .ok (g', answersTo (Constr.within P) ks os) ∧
      g.size = n ∧ g'.size = n ∧
      (∀ i j, i < n → j < n → P i = true → P j = true → g.timespan i j = g'.timespan i j) ∧
      (∀ i j, i < n → j < n → P i = true → Q j = true → ∃ s s1 s2, g.timespan i j = .ok s ∧ g.timespan i c = .ok s1 ∧
        g.timespan c j = .ok s2 ∧ ∀ d, InExt d s ↔ ∃ d1 d2, InExt d1 s1 ∧ InExt d2 s2 ∧ d = d1 + d2) := by
  obtain ⟨g0, e0, n0, v0, -, m0⟩ := withSize_eq hn
  rw [e0]
  simp only [ok_bind]
  obtain ⟨g, g', os, a1, a2, v, v', s, s', p⟩ := answers_joint only hW hB v0 v0 n0 n0
    (P := P) (c := c) ⟨unconstrained_closed m0, unconstrained_closed m0, fun τ h => h, fun τ σ _ _ => unconstrained_sat m0 _⟩
    (unconstrained_tight m0) (unconstrained_tight m0) hk
  refine ⟨g, g', os, a1, a2, s, s', fun i j hi hj hPi hPj => ?_, fun i j hi hj hPi hQj => ?_⟩
  · have same : ∀ {i j : Nat}, i < n → j < n → P i = true → P j = true → mat g i j = mat g' i j := by
      intro i j hi hj hPi hPj
      obtain ⟨σ0, hσ0⟩ := p.closed.sat
      have gi : ∀ τ, hinge P c τ σ0 i = τ i := fun τ => by simp only [hinge, if_pos hPi]
      have gj : ∀ τ, hinge P c τ σ0 j = τ j := fun τ => by simp only [hinge, if_pos hPj]
      by_cases cc : mat g i j = -INF
      · rw [cc]
        refine Classical.byContradiction fun cc' => ?_
        obtain ⟨τ, h1, h2⟩ := p.closed.attain_below hi hj cc (mat g' i j)
        have := p.sub τ h1 i hi j hj
        omega
      · obtain ⟨τ, h1, h2⟩ := p.closed.attain_lower hi hj cc
        have x := p.sub τ h1 i hi j hj
        by_cases cc' : mat g' i j = -INF
        · obtain ⟨τ', h1', h2'⟩ := p.closed'.attain_below hi hj cc' (mat g i j)
          have := p.glue τ' σ0 h1' hσ0 i hi j hj
          rw [gi, gj] at this
          omega
        · obtain ⟨τ', h1', h2'⟩ := p.closed'.attain_lower hi hj cc'
          have := p.glue τ' σ0 h1' hσ0 i hi j hj
          rw [gi, gj] at this
          omega
    rw [timespan_eq v (by omega) (by omega), timespan_eq v' (by omega) (by omega), same hi hj hPi hPj, same hj hi hPj hPi]
  · have hm : Minimal g := (minimal_iff v).2 (by rw [s]; exact p.closed)
    have ms : ∀ τ, Sat τ g ↔ MSat n (mat g) τ := fun τ => by rw [← s]; exact sat_iff v τ
    obtain ⟨⟨τ0, t0⟩, hr⟩ := hm
    obtain ⟨s0, e0, -⟩ := t0 i j (by omega) (by omega)
    obtain ⟨s1, e1, -⟩ := t0 i c (by omega) (by omega)
    obtain ⟨s2, e2, -⟩ := t0 c j (by omega) (by omega)
    refine ⟨s0, s1, s2, e0, e1, e2, fun d => ⟨fun h => ?_, fun ⟨d1, d2, h1, h2, h3⟩ => ?_⟩⟩
    · obtain ⟨τ, t, e⟩ := hr i j (by omega) (by omega) s0 e0 d h
      obtain ⟨x1, f1, y1⟩ := t i c (by omega) (by omega)
      obtain ⟨x2, f2, y2⟩ := t c j (by omega) (by omega)
      rw [e1] at f1; cases f1
      rw [e2] at f2; cases f2
      exact ⟨_, _, y1, y2, by omega⟩
    · obtain ⟨τ, t, e⟩ := hr i c (by omega) (by omega) s1 e1 d1 h1
      obtain ⟨σ, u, f⟩ := hr c j (by omega) (by omega) s2 e2 d2 h2
      have w := (ms _).2 (p.glue τ σ (p.sub τ ((ms τ).1 t)) ((ms σ).1 u))
      obtain ⟨x, fx, y⟩ := w i j (by omega) (by omega)
      rw [e0] at fx; cases fx
      have ei : hinge P c τ σ i = τ i := by simp only [hinge, if_pos hPi]
      have ej : hinge P c τ σ j = σ j + (τ c - σ c) := by
        unfold hinge
        split
        · rename_i h; rw [only j h hQj]; omega
        · rfl
      rw [ei, ej, show σ j + (τ c - σ c) - τ i = d by omega] at y
      exact y

/-! ## Examples -/

/-- instants 0 and 1 make a part, 1, 2 and 3 another one; the third constraint is refused -/
example : ∃ g g' os, (Graph.withSize 4 >>= fun g => answers g [⟨0, 1, false, 5, 9⟩, ⟨1, 2, false, 4, 6⟩, ⟨2, 1, false, 0, 1⟩, ⟨2, 3, false, 1, 1⟩]) = .ok (g, os) ∧
    (Graph.withSize 4 >>= fun g => answers g [⟨1, 2, false, 4, 6⟩, ⟨2, 1, false, 0, 1⟩, ⟨2, 3, false, 1, 1⟩]) =
      .ok (g', [.propagated, .recovered, .propagated]) ∧ os = [.propagated, .propagated, .recovered, .propagated] ∧
    g.timespan 1 3 = .ok ⟨5, 7⟩ ∧ g'.timespan 1 3 = .ok ⟨5, 7⟩ ∧ g.timespan 0 3 = .ok ⟨10, 16⟩ ∧
    (∀ k ∈ [(⟨0, 1, false, 5, 9⟩ : Constr), ⟨1, 2, false, 4, 6⟩, ⟨2, 1, false, 0, 1⟩, ⟨2, 3, false, 1, 1⟩], Usable 4 9 k ∧
      (Constr.within (fun i => decide (1 ≤ i)) k = true ∨ Constr.within (fun i => decide (i ≤ 1)) k = true)) ∧
    ∀ i, decide (1 ≤ i) = true → decide (i ≤ 1) = true → i = 1 := by
  refine ⟨⟨4, [0, -9, 0, 5, -15, -6, 0, 4, 9, -16, -7, -1, 0, 1, 5, 10]⟩, ⟨4, [0, -INF, 0, -INF, -INF, -6, 0, 4, -INF, -INF, -7, -1, 0, 1, 5, -INF]⟩,
    [.propagated, .propagated, .recovered, .propagated],
    by decide +kernel, by decide +kernel, rfl, by decide, by decide, by decide, ?_, ?_⟩
  · simp only [List.mem_cons, List.not_mem_nil, or_false]
    rintro k (rfl | rfl | rfl | rfl) <;> decide
  · intro i h1 h2
    simp only [decide_eq_true_eq] at h1 h2
    omega

end Chrono
