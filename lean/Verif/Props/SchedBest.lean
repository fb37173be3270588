import Verif.Props.SchedHistory
import Verif.Props.SchedGreedy

/-!
# C130: the earliest and the latest plans
-/

namespace Chrono
open Spec

theorem earliest_ending_eq {s : Sched} {v : Int} (h : s.earliestEnding = .ok v) :
    (∃ w ∈ s.schedule, TSet.lowerBound w = v) ∧ ∀ w ∈ s.schedule, TSet.lowerBound w ≤ v := by
  unfold Sched.earliestEnding at h
  generalize s.schedule = l at h ⊢
  cases l with
  | nil => cases h
  | cons x xs =>
    simp only [List.map_cons, Except.ok.injEq] at h
    obtain ⟨h1, h2, h3⟩ := foldl_max (xs.map TSet.lowerBound) (TSet.lowerBound x)
    rw [h] at h1 h2 h3
    constructor
    · rcases h1 with h1 | h1
      · exact ⟨x, by simp, h1.symm⟩
      · obtain ⟨w, hw, e⟩ := List.mem_map.1 h1
        exact ⟨w, by simp [hw], e⟩
    · intro w hw
      rcases List.mem_cons.1 hw with rfl | hw
      · exact h2
      · exact h3 _ (List.mem_map.2 ⟨w, hw, rfl⟩)

theorem latest_beginning_eq {s : Sched} {v : Int} (h : s.latestBeginning = .ok v) :
    (∃ w ∈ s.schedule, TSet.upperBound w = v) ∧ ∀ w ∈ s.schedule, v ≤ TSet.upperBound w := by
  unfold Sched.latestBeginning at h
  generalize s.schedule = l at h ⊢
  cases l with
  | nil => cases h
  | cons x xs =>
    simp only [List.map_cons, Except.ok.injEq] at h
    obtain ⟨h1, h2, h3⟩ := foldl_min (xs.map TSet.upperBound) (TSet.upperBound x)
    rw [h] at h1 h2 h3
    constructor
    · rcases h1 with h1 | h1
      · exact ⟨x, by simp, h1.symm⟩
      · obtain ⟨w, hw, e⟩ := List.mem_map.1 h1
        exact ⟨w, by simp [hw], e⟩
    · intro w hw
      rcases List.mem_cons.1 hw with rfl | hw
      · exact h2
      · exact h3 _ (List.mem_map.2 ⟨w, hw, rfl⟩)

/-! ## All windows: bounds -/

/-- C130, for windows of all types: no plan which satisfies the graph and the accepted requests ends before `earliest_ending`, none begins after
`latest_beginning`. -/
theorem C130_bounds {dbg : Bool} {g : Graph} (hv : Valid g) (hs : Spanned g) {s : Sched} {P : (Nat → Int) → Prop}
    (h : Planned dbg g s P) {τ : Nat → Int} (hτ : FiniteDates g.size τ) (h1 : Sat τ g) (h2 : P τ) :
    (∀ v, s.earliestEnding = .ok v → ∃ i, i < g.size ∧ v ≤ τ i) ∧ (∀ v, s.latestBeginning = .ok v → ∃ i, i < g.size ∧ τ i ≤ v) := by
  obtain ⟨rfl, hl, hf⟩ := planned_inv hv hs h
  have f := ((hf τ hτ).2 ⟨h1, h2⟩).2
  constructor
  · intro v e
    obtain ⟨⟨w, hw, e⟩, -⟩ := earliest_ending_eq e
    obtain ⟨i, hi⟩ := List.mem_iff_getElem?.1 hw
    have hi' : i < s.graph.size := by rw [← hl.1]; exact (List.getElem?_eq_some_iff.1 hi).1
    obtain ⟨x, hx, a, b⟩ := (slot_get hi _).1 (f i hi')
    have c := (loose_bounds (hl.2 w hw) x hx).1
    have d := (hτ i hi').1
    exact ⟨i, hi', by omega⟩
  · intro v e
    obtain ⟨⟨w, hw, e⟩, -⟩ := latest_beginning_eq e
    obtain ⟨i, hi⟩ := List.mem_iff_getElem?.1 hw
    have hi' : i < s.graph.size := by rw [← hl.1]; exact (List.getElem?_eq_some_iff.1 hi).1
    obtain ⟨x, hx, a, b⟩ := (slot_get hi _).1 (f i hi')
    have c := (loose_bounds (hl.2 w hw) x hx).2
    have d := (hτ i hi').2
    exact ⟨i, hi', by omega⟩

/-! ## Convex windows: the best plans exist -/

/-- C130: after a history of requests without sets, there is a plan which ends by `d` exactly when `earliest_ending` is not after `d`; and
`set_deadline(d)` is refused exactly when it is. -/
theorem C130_ending_partial (dbg : Bool) {g : Graph} (hv : Valid g) (hm : Minimal g) {B W : Int} (hB : 0 ≤ B) (hW : 0 ≤ W)
    (hg : Within B g) (hBW : W + 2 * B < INF) {calls : List PlanCall} (hok : ∀ c ∈ calls, c.Ok g.size W)
    {s : Sched} {acc : List PlanCall} (h : planAll dbg (Sched.new g) calls = .ok (s, acc)) {v : Int} (hv' : s.earliestEnding = .ok v) :
    (∀ d, -INF < d → (v ≤ d ↔ ∃ τ, Sat τ g ∧ (∀ c ∈ acc, c.Allows g.size τ) ∧ ∀ j, j < g.size → τ j ≤ d)) ∧
    (∀ d, -W ≤ d → d ≤ W → ∃ s' o, s.setDeadline dbg d = .ok (s', o) ∧ (o = .recovered ↔ d < v)) := by
  obtain ⟨s1, acc1, k1, k2, ⟨lo, hi, hc⟩, -, k3⟩ := plan_history dbg hv hm hg hB hW hBW calls (Sched.new g) rfl ⟨_, _, new_conv g _⟩ hok
  rw [h] at k1
  cases k1
  subst k2
  obtain ⟨⟨w, hw, e⟩, hall⟩ := earliest_ending_eq hv'
  have key : ∀ d, -INF < d → (v ≤ d ↔ ∃ τ, Sat τ s.graph ∧ (∀ c ∈ acc, c.Allows s.graph.size τ) ∧ ∀ j, j < s.graph.size → τ j ≤ d) := by
    intro d hd
    constructor
    · intro hvd
      obtain ⟨τ, f, l⟩ := common_deadline hc hv hm (d := d) (fun j hj => by
        have w := hc.arc.wf j hj
        have b := hall _ (List.mem_of_getElem? (hc.get j hj))
        have b : lo j ≤ v := b
        have w1 := w.le
        have w2 := w.lo
        have w3 := w.hi
        simp only at w1 w2 w3
        by_cases c : lo j = -INF
        · exact ⟨min d (hi j), (hc.slot hj _).2 ⟨Or.inl c, Or.inr (Int.min_le_right ..)⟩, by omega⟩
        · exact ⟨lo j, (hc.slot hj _).2 ⟨Or.inr (Int.le_refl _), Or.inr w1⟩, by omega⟩)
      have := (k3 τ).1 f
      exact ⟨τ, f.1, this.2, l⟩
    · rintro ⟨τ, a1, a2, a3⟩
      have f := (k3 τ).2 ⟨(new_feasible _ _).2 a1, a2⟩
      obtain ⟨i, hi'⟩ := List.mem_iff_getElem?.1 hw
      have hl : i < s.graph.size := by rw [← hc.len]; exact (List.getElem?_eq_some_iff.1 hi').1
      have q := (hc.slot hl _).1 (f.2 i hl)
      have e : lo i = v := by
        rw [hc.get i hl] at hi'
        cases hi'
        exact e
      have := q.1
      have := a3 i hl
      simp only at *
      omega
  refine ⟨key, fun d d1 d2 => ?_⟩
  obtain ⟨s', o, q1, -, -, q4⟩ := C78_next_partial dbg hv hm hB hW hg hBW hok h (c := .deadline d) (Or.inr ⟨d1, d2⟩)
  refine ⟨s', o, q1, ?_⟩
  have hd : -INF < d ∧ d ≠ INF := by ticks
  have := key d hd.1
  rw [q4, ← Int.not_le, this]
  simp only [PlanCall.Allows, hd.2, false_or]

/-- C130: after a history of requests without sets, there is a plan which begins at `d` or after exactly when `latest_beginning` is not before
`d`; and `set_startline(d)` is refused exactly when it is. -/
theorem C130_beginning_partial (dbg : Bool) {g : Graph} (hv : Valid g) (hm : Minimal g) {B W : Int} (hB : 0 ≤ B) (hW : 0 ≤ W)
    (hg : Within B g) (hBW : W + 2 * B < INF) {calls : List PlanCall} (hok : ∀ c ∈ calls, c.Ok g.size W)
    {s : Sched} {acc : List PlanCall} (h : planAll dbg (Sched.new g) calls = .ok (s, acc)) {v : Int} (hv' : s.latestBeginning = .ok v) :
    (∀ d, d < INF → (d ≤ v ↔ ∃ τ, Sat τ g ∧ (∀ c ∈ acc, c.Allows g.size τ) ∧ ∀ j, j < g.size → d ≤ τ j)) ∧
    (∀ d, -W ≤ d → d ≤ W → ∃ s' o, s.setStartline dbg d = .ok (s', o) ∧ (o = .recovered ↔ v < d)) := by
  obtain ⟨s1, acc1, k1, k2, ⟨lo, hi, hc⟩, -, k3⟩ := plan_history dbg hv hm hg hB hW hBW calls (Sched.new g) rfl ⟨_, _, new_conv g _⟩ hok
  rw [h] at k1
  cases k1
  subst k2
  obtain ⟨⟨w, hw, e⟩, hall⟩ := latest_beginning_eq hv'
  have key : ∀ d, d < INF → (d ≤ v ↔ ∃ τ, Sat τ s.graph ∧ (∀ c ∈ acc, c.Allows s.graph.size τ) ∧ ∀ j, j < s.graph.size → d ≤ τ j) := by
    intro d hd
    constructor
    · intro hvd
      obtain ⟨τ, f, l⟩ := common_startline hc hv hm (d := d) (fun j hj => by
        have w := hc.arc.wf j hj
        have b := hall _ (List.mem_of_getElem? (hc.get j hj))
        have b : v ≤ hi j := b
        have w1 := w.le
        have w2 := w.lo
        have w3 := w.hi
        simp only at w1 w2 w3
        by_cases c : hi j = INF
        · exact ⟨max d (lo j), (hc.slot hj _).2 ⟨Or.inr (Int.le_max_right ..), Or.inl c⟩, by omega⟩
        · exact ⟨hi j, (hc.slot hj _).2 ⟨Or.inr w1, Or.inr (Int.le_refl _)⟩, by omega⟩)
      have := (k3 τ).1 f
      exact ⟨τ, f.1, this.2, l⟩
    · rintro ⟨τ, a1, a2, a3⟩
      have f := (k3 τ).2 ⟨(new_feasible _ _).2 a1, a2⟩
      obtain ⟨i, hi'⟩ := List.mem_iff_getElem?.1 hw
      have hl : i < s.graph.size := by rw [← hc.len]; exact (List.getElem?_eq_some_iff.1 hi').1
      have q := (hc.slot hl _).1 (f.2 i hl)
      have e : hi i = v := by
        rw [hc.get i hl] at hi'
        cases hi'
        exact e
      have := q.2
      have := a3 i hl
      simp only at *
      omega
  refine ⟨key, fun d d1 d2 => ?_⟩
  obtain ⟨s', o, q1, -, -, q4⟩ := C78_next_partial dbg hv hm hB hW hg hBW hok h (c := .startline d) (Or.inr ⟨d1, d2⟩)
  refine ⟨s', o, q1, ?_⟩
  have hd : d < INF ∧ d ≠ -INF := by ticks
  have := key d hd.1
  rw [q4, ← Int.not_le, this]
  simp only [PlanCall.Allows, hd.2, false_or]

/-- C130: after a history of requests without sets, if each instant has a first possible date then these dates together are a plan; in the same
way the last possible dates of all the instants are a plan. -/
theorem C130_extremes_partial (dbg : Bool) {g : Graph} (hv : Valid g) (hm : Minimal g) {B W : Int} (hB : 0 ≤ B) (hW : 0 ≤ W)
    (hg : Within B g) (hBW : W + 2 * B < INF) {calls : List PlanCall} (hok : ∀ c ∈ calls, c.Ok g.size W)
    {s : Sched} {acc : List PlanCall} (h : planAll dbg (Sched.new g) calls = .ok (s, acc)) {τ : Nat → Int}
    (hτ : (∀ j, j < g.size → Slot s j (τ j) ∧ ∀ t, Slot s j t → τ j ≤ t) ∨ (∀ j, j < g.size → Slot s j (τ j) ∧ ∀ t, Slot s j t → t ≤ τ j)) :
    Sat τ g ∧ ∀ c ∈ acc, c.Allows g.size τ := by
  obtain ⟨s1, acc1, k1, k2, ⟨lo, hi, hc⟩, -, k3⟩ := plan_history dbg hv hm hg hB hW hBW calls (Sched.new g) rfl ⟨_, _, new_conv g _⟩ hok
  rw [h] at k1
  cases k1
  subst k2
  have sl : ∀ j, j < s.graph.size → Slot s j (τ j) := fun j hj => by
    rcases hτ with q | q <;> exact (q j hj).1
  have sat : Sat τ s.graph := by
    refine (sat_iff hv τ).2 (fun i hi' j hj => ?_)
    by_cases c : mat s.graph i j = -INF
    · exact Or.inl c
    right
    rcases hτ with q | q
    · obtain ⟨σ, f, fe⟩ := hc.attain hv hm hj (sl j hj)
      have := ((sat_iff hv σ).1 f.1) i hi' j hj
      have := (q i hi').2 _ (f.2 i hi')
      omega
    · obtain ⟨σ, f, fe⟩ := hc.attain hv hm hi' (sl i hi')
      have := ((sat_iff hv σ).1 f.1) i hi' j hj
      have := (q j hj).2 _ (f.2 j hj)
      omega
  exact ⟨sat, ((k3 τ).1 ⟨sat, sl⟩).2⟩

/-! ## Graphs -/

/-- C130 for graphs: seen from any instant of a minimal graph, the shortest delays to all the instants, if they are finite, are a solution, and
so are the longest ones. -/
theorem C130_graph {g : Graph} (hv : Valid g) (hm : Minimal g) {i : Nat} (hi : i < g.size) {τ : Nat → Int}
    (hτ : (∀ j, j < g.size → ∃ s, g.timespan i j = .ok s ∧ s.lower ≠ -INF ∧ τ j = s.lower) ∨
      (∀ j, j < g.size → ∃ s, g.timespan i j = .ok s ∧ s.upper ≠ INF ∧ τ j = s.upper)) : Sat τ g := by
  have hc := (minimal_iff hv).1 hm
  refine (sat_iff hv τ).2 (fun a ha b hb => ?_)
  by_cases c : mat g a b = -INF
  · exact Or.inl c
  right
  rcases hτ with q | q
  · obtain ⟨s1, e1, n1, t1⟩ := q a ha
    obtain ⟨s2, e2, n2, t2⟩ := q b hb
    rw [timespan_eq hv hi ha] at e1
    rw [timespan_eq hv hi hb] at e2
    cases e1
    cases e2
    have := (hc.tri i hi a ha b hb n1 c).2
    simp only at *
    omega
  · obtain ⟨s1, e1, n1, t1⟩ := q a ha
    obtain ⟨s2, e2, n2, t2⟩ := q b hb
    rw [timespan_eq hv hi ha] at e1
    rw [timespan_eq hv hi hb] at e2
    cases e1
    cases e2
    simp only at *
    have m1 : mat g b i ≠ -INF := by ticks
    have := (hc.tri a ha b hb i hi c m1).2
    omega

/-! ## The exception -/

/-- `0 ≤ t₁ - t₀ ≤ 5`, `0 ≤ t₂ - t₀ ≤ 5`, `-5 ≤ t₂ - t₁ ≤ 5` -/
def bestGraph : Graph := ⟨3, [0, -5, 0, 0, -5, -5, 0, -5, 0]⟩

/-- C130 is violated by sets: these requests can be satisfied together and all are accepted, and `earliest_ending` is 10, but all the plans end at
14 or after: the first possible dates (10, 5 and 10) are not a plan. -/
theorem C130_set_violated : ∃ (calls : List Call) (s : Sched), Minimal bestGraph ∧
    (∃ τ, Sat τ bestGraph ∧ ∀ q ∈ calls, q.Allows (τ q.instant)) ∧
    callAll false (Sched.new bestGraph) calls = .ok (s, calls) ∧ s.earliestEnding = .ok 10 ∧
    ∀ τ, Sat τ bestGraph → (∀ q ∈ calls, q.Allows (τ q.instant)) → 14 ≤ τ 1 := by
  have hv : Valid bestGraph := by decide
  refine ⟨[.retain 0 (.set [⟨0, 0⟩, ⟨10, 10⟩]), .retain 1 (.set [⟨5, 5⟩, ⟨14, 14⟩]), .retain 2 (.conv (.iv ⟨10, 15⟩))],
    ⟨bestGraph, [[⟨10, 10⟩], [⟨5, 5⟩, ⟨14, 14⟩], [⟨10, 15⟩]]⟩, ?_, ⟨fun i => if i = 1 then 14 else 10, ?_, ?_⟩, by decide +kernel, by decide, ?_⟩
  · rw [minimal_iff hv]
    have d : ∀ i : Fin 3, mat bestGraph i i = 0 := by decide
    have t : ∀ i k j : Fin 3, mat bestGraph i k ≠ -INF → mat bestGraph k j ≠ -INF →
        mat bestGraph i j ≠ -INF ∧ mat bestGraph i k + mat bestGraph k j ≤ mat bestGraph i j := by decide
    exact ⟨fun i hi => d ⟨i, hi⟩, fun i hi k hk j hj => t ⟨i, hi⟩ ⟨k, hk⟩ ⟨j, hj⟩⟩
  · rw [sat_iff hv]
    show ∀ i, i < 3 → ∀ j, j < 3 → _
    decide
  · intro q hq
    simp only [List.mem_cons, List.not_mem_nil, or_false] at hq
    rcases hq with rfl | rfl | rfl <;> (simp only [Call.Allows, InExtWindow, InExtConvex, Call.instant]; decide)
  · intro τ hτ h
    have a := h _ (List.mem_cons_self ..)
    have b := h _ (List.mem_cons_of_mem _ (List.mem_cons_self ..))
    have c := h _ (List.mem_cons_of_mem _ (List.mem_cons_of_mem _ (List.mem_cons_self ..)))
    rw [sat_iff hv] at hτ
    have m1 : mat bestGraph 0 1 = 0 := by decide
    have m2 : mat bestGraph 2 0 = -5 := by decide
    have e1 := hτ 0 (by decide) 1 (by decide)
    have e2 := hτ 2 (by decide) 0 (by decide)
    rw [m1] at e1
    rw [m2] at e2
    simp only [Call.Allows, InExtWindow, InExtConvex, Call.instant, InExtSet, InExt, List.mem_cons, List.not_mem_nil, or_false] at a b c
    rcases a with ⟨x, rfl | rfl, a⟩ <;> rcases b with ⟨y, rfl | rfl, b⟩ <;> simp only at a b c <;> ticks

/-! ## Examples -/

example : Valid exGraph ∧ Minimal exGraph ∧ planAll true (Sched.new exGraph) [.retain 0 (.iv ⟨0, 100⟩), .deadline 50] =
      .ok (⟨exGraph, [[⟨0, 35⟩], [⟨10, 45⟩], [⟨15, 50⟩]]⟩, [.retain 0 (.iv ⟨0, 100⟩), .deadline 50]) ∧
    (⟨exGraph, [[⟨0, 35⟩], [⟨10, 45⟩], [⟨15, 50⟩]]⟩ : Sched).earliestEnding = .ok 15 ∧
    (⟨exGraph, [[⟨0, 35⟩], [⟨10, 45⟩], [⟨15, 50⟩]]⟩ : Sched).latestBeginning = .ok 35 :=
  ⟨exGraph_valid, exGraph_minimal, by decide +kernel, by decide, by decide⟩

/-- seen from instant 0 of `exGraph` the shortest delays are 0, 10 and 15 -/
example : ∀ j, j < exGraph.size → ∃ s, exGraph.timespan 0 j = .ok s ∧ s.lower ≠ -INF ∧ [0, 10, 15][j]?.getD 0 = s.lower := by
  intro j hj
  have hj : j < 3 := hj
  match j, hj with
  | 0, _ => exact ⟨⟨0, 0⟩, by decide, by decide, by decide⟩
  | 1, _ => exact ⟨⟨10, 20⟩, by decide, by decide, by decide⟩
  | 2, _ => exact ⟨⟨15, 26⟩, by decide, by decide, by decide⟩

/-- a history with sets, and one of its plans -/
example : ∃ (s : Sched) (P : (Nat → Int) → Prop), Planned false bestGraph s P ∧ s.earliestEnding = .ok 10 ∧
    FiniteDates bestGraph.size (fun i => if i = 1 then 14 else 10) ∧ P (fun i => if i = 1 then 14 else 10) := by
  have a0 := Planned.new (dbg := false) (g := bestGraph)
  have a1 := a0.accepted (r := .retain 0 (.set [⟨0, 0⟩, ⟨10, 10⟩])) (o := .propagated)
    (s' := ⟨bestGraph, [[⟨0, 0⟩, ⟨10, 10⟩], [⟨0, 5⟩, ⟨10, 15⟩], [⟨0, 5⟩, ⟨10, 15⟩]]⟩) (by unfold Req.Proper; decide)
    (by unfold Req.run; decide +kernel) (Or.inr rfl)
  have a2 := a1.accepted (r := .retain 1 (.set [⟨5, 5⟩, ⟨14, 14⟩])) (o := .propagated)
    (s' := ⟨bestGraph, [[⟨0, 0⟩, ⟨10, 10⟩], [⟨5, 5⟩, ⟨14, 14⟩], [⟨0, 5⟩, ⟨10, 15⟩]]⟩) (by unfold Req.Proper; decide)
    (by unfold Req.run; decide +kernel) (Or.inr rfl)
  have a3 := a2.accepted (r := .retain 2 (.conv (.iv ⟨10, 15⟩))) (o := .propagated)
    (s' := ⟨bestGraph, [[⟨10, 10⟩], [⟨5, 5⟩, ⟨14, 14⟩], [⟨10, 15⟩]]⟩) (by unfold Req.Proper; decide)
    (by unfold Req.run; decide +kernel) (Or.inr rfl)
  refine ⟨_, _, a3, by decide, ?_, ?_⟩
  · show ∀ i, i < 3 → _
    decide
  · simp only [Req.Allows, InExtWindow, InExtConvex]
    decide

end Chrono
