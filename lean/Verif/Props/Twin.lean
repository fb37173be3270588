import Verif.Lemmas.Steady
import Verif.Props.SchedConvex

/-!
# C131: a schedule is a graph with an origin
-/

namespace Chrono
open Spec

theorem feasible_congr {s : Sched} {σ τ : Nat → Int} (h : ∀ j, j < s.graph.size → σ j = τ j) (hf : Feasible σ s) : Feasible τ s :=
  ⟨fun i j hi hj => by
      obtain ⟨sp, e, k⟩ := hf.1 i j hi hj
      exact ⟨sp, e, by rw [← h i hi, ← h j hj]; exact k⟩,
    fun i hi => by rw [← h i hi]; exact hf.2 i hi⟩

/-- the graph `x` says about the delays from instant `n` what the schedule says about the dates -/
structure Twin (N : Nat) (W : Int) (n : Nat) (s : Sched) (x : Graph) : Prop where
  conv : ∃ lo hi, ConvSched (W + N * W) s lo hi
  size : x.size = n + 1
  inv : ∃ Q, SInv N W x Q ∧ ∀ τ, Q τ ↔ Feasible (fun j => τ j - τ n) s

theorem Twin.slots {N : Nat} {W : Int} {n : Nat} {s : Sched} {x : Graph} (h : Twin N W n s x) (hv : Valid s.graph) (hm : Minimal s.graph)
    (hn : s.graph.size = n) (hW : 0 ≤ W) (hN : 0 < N) (hB : 3 * (N : Int) * (N * W) < INF) {j : Nat} (hj : j < n) :
    ∃ sp, s.scheduling j = some [sp] ∧ x.timespan n j = .ok sp := by
  obtain ⟨lo, hi, hc⟩ := h.conv
  obtain ⟨Q, hx, hq⟩ := h.inv
  have sz := h.size
  have hj' : j < s.graph.size := by omega
  refine ⟨⟨lo j, hi j⟩, hc.get j hj', ?_⟩
  have a := (timespan_eq hx.valid (i := n) (j := j) (by omega) (by omega))
  rw [a]
  obtain ⟨-, b2, -, b4⟩ := size_bound (N := N) (m := 1) (by omega) hW hB hN
  have mw : WF ⟨mat x n j, -mat x j n⟩ :=
    spanned_of_sat ((minimal_iff hx.valid).2 hx.closed).1 (B := N * W) (by omega) (within_of_small hx.valid (hx.small hW hN hB)) n j (by omega)
      (by omega) _ a
  have e : [(⟨lo j, hi j⟩ : Iv)] = [⟨mat x n j, -mat x j n⟩] := by
    refine canon_extSet (canon_one (hc.arc.wf j hj')) (canon_one mw) (fun t => ?_)
    rw [extSet_one, extSet_one, ← hc.slot hj']
    constructor
    · intro f
      obtain ⟨τ, f1, f2⟩ := hc.attain hv hm hj' f
      have q := (hx.sat (fun k => if k = n then 0 else τ k)).2 ((hq _).2 (feasible_congr (fun k hk => by
        show τ k = (if k = n then 0 else τ k) - (if n = n then 0 else τ n)
        rw [if_neg (by omega), if_pos rfl]
        omega) f1))
      rw [← sat_iff hx.valid] at q
      obtain ⟨sp, e, k⟩ := q n j (by omega) (by omega)
      rw [a] at e
      cases e
      simp only [if_true] at k
      rw [if_neg (by omega), f2] at k
      simpa using k
    · intro f
      obtain ⟨τ, t1, t2⟩ := hx.closed.attain (i := n) (j := j) (by omega) (by omega) (d := t) f.1 (by
        have := f.2
        simp only at this
        omega) (fun e => by omega)
      have := ((hq _).1 ((hx.sat τ).1 t1)).2 j hj'
      simp only [t2] at this
      exact this
  have e := (List.cons.inj e).1
  rw [e]

theorem Twin.step (dbg : Bool) {N : Nat} {W : Int} (hW : 0 ≤ W) (hN : 0 < N) (hB : 3 * (N : Int) * (N * W) < INF) {n : Nat} {s : Sched} {x : Graph}
    (h : Twin N W n s x) (hv : Valid s.graph) (hm : Minimal s.graph) (hg : Within (N * W) s.graph) (hn : s.graph.size = n) {i : Nat} {w : Convex}
    (hu : (PlanCall.retain i w).Ok n W) :
    ∃ s' x' o, s.retain dbg i (.conv w) = .ok (s', o) ∧ x.propagate (.ofConvex n i w) = .ok (x', o) ∧ s'.graph = s.graph ∧ Twin N W n s' x' := by
  obtain ⟨lo, hi, hc⟩ := h.conv
  obtain ⟨Q, hx, hq⟩ := h.inv
  have sz := h.size
  obtain ⟨b1, b2, -, b4⟩ := size_bound (N := N) (m := 1) (by omega) hW hB hN
  obtain ⟨s', o, e, st⟩ := retain_plan dbg hv hm hg (by omega) hW (by omega) hc (i := i) (w := w) (by rw [hn]; exact hu)
  obtain ⟨u1, u2, u3, u4⟩ := hu
  rcases extConvex_cases u2 with ⟨-, -, -, c⟩ | ⟨c1, c2, c3, c4⟩
  · obtain ⟨t, ht⟩ := u3
    exact absurd ht (c t)
  have c4 := c4 W u4
  obtain ⟨x', o', e', nf, sz', r, a, u⟩ := sinv_propagate hW hN hB hx (k := .ofConvex n i w) ⟨by show n < x.size; omega, by show i < x.size; omega,
    fun _ => ⟨c2, c4 _ (List.mem_singleton.2 rfl)⟩⟩
  have allow : ∀ τ, Holds τ (.ofConvex n i w) ↔ InExtConvex (τ i - τ n) w := fun τ => by
    rw [c3]
    exact ⟨fun k => k.2, fun k => ⟨c1, k⟩⟩
  have lift : ∀ τ, Feasible τ s → ∃ σ, Q σ ∧ (∀ j, j < n → σ j = τ j) ∧ σ n = 0 := fun τ f =>
    ⟨fun k => if k = n then 0 else τ k, (hq _).2 (feasible_congr (fun k hk => by
        show τ k = (if k = n then 0 else τ k) - (if n = n then 0 else τ n)
        rw [if_neg (by omega), if_pos rfl]
        omega) f), fun j hj => if_neg (by omega), if_pos rfl⟩
  have ho : o' = o := by
    have r1 : o = .recovered ↔ o' = .recovered := by
      rcases st.result with ⟨q1, -, q3⟩ | ⟨q1, -, ⟨τ, f1, f2⟩, -⟩
      · refine ⟨fun _ => ?_, fun _ => q1⟩
        by_cases c : o' = .recovered
        · exact c
        · obtain ⟨τ, t⟩ := (a c).closed.sat
          have t := ((a c).sat τ).1 t
          exact absurd ⟨_, (hq τ).1 t.1, (allow τ).1 t.2⟩ q3
      · constructor
        · intro c
          rw [c] at q1
          simp at q1
        · intro c
          obtain ⟨σ, g1, g2, g3⟩ := lift τ f1
          refine absurd ((allow σ).2 ?_) ((r c).2 σ g1)
          rw [g2 i u1, g3]
          simpa using f2
    have r2 : o = .unchanged ↔ o' = .unchanged := by
      have k := C75_unchanged dbg hc.canon (i := i) (by omega) (w := .conv w) u2
      have k' : o = .unchanged ↔ ∀ t, Slot s i t → InExtConvex t w := by
        refine Iff.trans ?_ k
        rw [e]
        constructor
        · rintro rfl; exact ⟨s', rfl⟩
        · rintro ⟨_, q⟩; cases q; rfl
      rw [k', u]
      constructor
      · intro q τ t
        exact (allow τ).2 (q _ (((hq τ).1 t).2 i (by omega)))
      · intro q t f
        obtain ⟨τ, f1, f2⟩ := hc.attain hv hm (by omega) f
        obtain ⟨σ, g1, g2, g3⟩ := lift τ f1
        have := (allow σ).1 (q σ g1)
        rw [g2 i u1, g3, f2] at this
        simpa using this
    have nf' : o ≠ .fatal := by
      rcases st.result with ⟨q1, -⟩ | ⟨q1 | q1, -⟩ <;> rw [q1] <;> simp
    revert nf nf' r1 r2
    cases o <;> cases o' <;> simp
  subst ho
  refine ⟨s', x', o', e, e', st.graph, st.conv, by omega, ?_⟩
  by_cases c : o' = .recovered
  · rcases st.result with ⟨-, q2, -⟩ | ⟨q1, -⟩
    · rw [(r c).1, q2]
      exact ⟨Q, hx, hq⟩
    · rw [c] at q1
      simp at q1
  · refine ⟨_, a c, fun τ => ?_⟩
    rcases st.result with ⟨q1, -⟩ | ⟨-, -, -, q⟩
    · exact absurd q1 c
    · rw [q, hq, allow]

/-- C131: give intervals (dates, ranges) which are not empty to a scheduler on a graph, and to the same graph with one more instant, as constraints
on the delays from this instant, which stands for the origin of dates. The two give the same answers, without a panic, and at any time the dates
left for an instant are the time span announced from the origin to it. -/
theorem C131_origin_partial (dbg : Bool) {N : Nat} (hN' : N ≤ 65535) {W : Int} (hW : 0 ≤ W) (hB : 3 * (N : Int) * (N * W) < INF) {g x : Graph}
    {P : (Nat → Int) → Prop} (h : Steady N W g P) (hn : g.size < N) (hx : g.resize (g.size + 1) = .ok x) {l : List (Nat × Convex)}
    (hl : ∀ p ∈ l, (PlanCall.retain p.1 p.2).Ok g.size W) :
    ∃ s x' r, twinRun dbg g.size (Sched.new g) x l = .ok (s, x', r) ∧ (∀ p ∈ r, p.1 = p.2) ∧
      ∀ j, j < g.size → ∃ sp, s.scheduling j = some [sp] ∧ x'.timespan g.size j = .ok sp := by
  have hN : 0 < N := by omega
  have i1 := steady_inv hN' hN hW hB h
  have i2 := sinv_grow hN' i1 (by omega) (by omega) hx
  have hm := (minimal_iff i1.valid).2 i1.closed
  have hg := within_of_small i1.valid (i1.small hW hN hB)
  obtain ⟨y, y1, y2, -⟩ := grow (tidy_clean i1.tidy) (n := g.size + 1) (by omega)
  obtain rfl := Except.ok.inj (hx.symm.trans y1)
  have start : Twin N W g.size (Sched.new g) x := ⟨⟨_, _, new_conv g _⟩, y2, P, i2, fun τ => by
    rw [new_feasible, sat_iff i1.valid, ← i1.sat]
    unfold MSat
    have d : ∀ i j, (τ j - τ g.size) - (τ i - τ g.size) = τ j - τ i := fun i j => by omega
    simp only [d]⟩
  have key : ∀ (l : List (Nat × Convex)) (s : Sched) (x : Graph), (∀ p ∈ l, (PlanCall.retain p.1 p.2).Ok g.size W) → s.graph = g →
      Twin N W g.size s x → ∃ s' x' r, twinRun dbg g.size s x l = .ok (s', x', r) ∧ (∀ p ∈ r, p.1 = p.2) ∧ s'.graph = g ∧ Twin N W g.size s' x' := by
    intro l
    induction l with
    | nil => exact fun s x _ hs t => ⟨s, x, [], rfl, by simp, hs, t⟩
    | cons p l ih =>
      obtain ⟨i, w⟩ := p
      intro s x hl hs t
      subst hs
      obtain ⟨s1, x1, o, e1, e2, e3, t1⟩ := t.step dbg hW hN hB i1.valid hm hg rfl (hl (i, w) (by simp))
      obtain ⟨s2, x2, r, f1, f2, f3, f4⟩ := ih s1 x1 (fun p hp => hl p (by simp [hp])) e3 t1
      refine ⟨s2, x2, (o, o) :: r, ?_, ?_, f3, f4⟩
      · simp only [twinRun, e1, e2, ok_bind, f1]
        rfl
      · intro p hp
        rcases List.mem_cons.1 hp with rfl | hp
        · rfl
        · exact f2 p hp
  obtain ⟨s, x', r, k1, k2, k3, k4⟩ := key l (Sched.new g) x hl rfl start
  exact ⟨s, x', r, k1, k2, fun j hj => k4.slots (by rw [k3]; exact i1.valid) (by rw [k3]; exact hm) (by rw [k3]) hW hN hB hj⟩

/-- C131 is violated by empty intervals and ranges: the graph refuses them, the scheduler accepts them for all the instants about which nothing has
been requested yet. -/
theorem C131_empty_violated (dbg : Bool) {g : Graph} (hv : Valid g) (x : Graph) {i : Nat} (hi : i < g.size) {w : Convex} (hp : Proper w)
    (he : ∀ t, ¬ InExtConvex t w) : ∃ s, twinRun dbg g.size (Sched.new g) x [(i, w)] = .ok (s, x, [(.propagated, .recovered)]) := by
  obtain ⟨s', h1, -⟩ := C75_violated dbg (s := Sched.new g) hv (by simp [Sched.new]) hi (by simp [Sched.scheduling, Sched.new, hi]) hp he
  have e : w.isEmpty = true := by
    rcases extConvex_cases hp with c | ⟨-, c2, c3, -⟩
    · exact c.1
    · obtain ⟨t, -, ht⟩ := c2.exists_date
      exact absurd ((c3 t).2 ⟨Or.inr ht.1, Or.inr ht.2⟩) (he t)
  have h2 : x.propagate (.ofConvex g.size i w) = .ok (x, .recovered) := by
    unfold Graph.propagate
    rw [show (Constr.ofConvex g.size i w).isEmpty = true from e]
    rfl
  exact ⟨s', by simp only [twinRun, h1, h2, ok_bind]; rfl⟩

example : ∃ (g x : Graph) (P : (Nat → Int) → Prop) (l : List (Nat × Convex)), Steady 4 20 g P ∧ g.size < 4 ∧ g.resize (g.size + 1) = .ok x ∧
    (∀ p ∈ l, (PlanCall.retain p.1 p.2).Ok g.size 20) ∧
    ∃ s x', twinRun true g.size (Sched.new g) x l = .ok (s, x', [(.propagated, .propagated), (.recovered, .recovered), (.unchanged, .unchanged)]) ∧
      s.schedule = [[⟨0, 20⟩], [⟨2, 25⟩]] := by
  have a0 : Steady 4 20 ⟨2, [0, -INF, 0, -INF]⟩ _ := .new (n := 2) (by decide) (by decide +kernel)
  have a1 : Steady 4 20 ⟨2, [0, -5, 0, 2]⟩ _ := a0.accepted (k := ⟨0, 1, false, 2, 5⟩) (o := .propagated)
    (by unfold Usable WithinK; decide) (by decide +kernel) (Or.inr rfl)
  refine ⟨_, ⟨3, [0, -5, 0, 2, -INF, -INF, 0, -INF, -INF]⟩, _, [(0, .iv ⟨0, 20⟩), (1, .range (-9) 2), (1, .rangeFrom 1)], a1, by decide,
    by decide +kernel, ?_, ⟨⟨2, [0, -5, 0, 2]⟩, [[⟨0, 20⟩], [⟨2, 25⟩]]⟩, ⟨3, [0, -5, 0, 2, 0, 2, 0, -25, -20]⟩, by decide +kernel, rfl⟩
  intro p hp
  simp only [List.mem_cons, List.not_mem_nil, or_false] at hp
  rcases hp with rfl | rfl | rfl
  · exact ⟨by decide, by decide, ⟨0, by unfold InExtConvex; decide⟩, by unfold WithinConvex; decide⟩
  · exact ⟨by decide, by decide, ⟨0, by unfold InExtConvex; decide⟩, by unfold WithinConvex; decide⟩
  · exact ⟨by decide, by decide, ⟨1, by unfold InExtConvex; decide⟩, by unfold WithinConvex; decide⟩

end Chrono
