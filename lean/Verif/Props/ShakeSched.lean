import Verif.Props.Shake
import Verif.Props.ExplainSched

/-!
# Small changes of the requests and of the graph have small effects on a schedule (C149)
-/

namespace Chrono
open Spec

/-- the dates left for an instant are those of the plans, and there is one -/
theorem plan_slots (dbg : Bool) {g : Graph} (hv : Valid g) (hm : Minimal g) {B W : Int} (hB : 0 ≤ B) (hW : 0 ≤ W)
    (hg : Within B g) (hBW : W + 2 * B < INF) {calls : List PlanCall} (hok : ∀ c ∈ calls, c.Ok g.size W)
    {s : Sched} {acc : List PlanCall} (h : planAll dbg (Sched.new g) calls = .ok (s, acc)) {i : Nat} :
    (i < g.size → ∃ t, Slot s i t) ∧
    ∀ t, Slot s i t → i < g.size ∧ ∃ τ, Sat τ g ∧ (∀ c ∈ acc, c.Allows g.size τ) ∧ τ i = t := by
  have ext := @C78_extends_partial dbg g hv hm B W hB hW hg hBW calls hok s acc h i
  obtain ⟨s1, acc1, h1, h2, ⟨lo, hi, h3⟩, sub, h4⟩ := plan_history dbg hv hm hg hB hW hBW calls (Sched.new g) rfl ⟨_, _, new_conv g _⟩ hok
  rw [h] at h1
  cases h1
  subst h2
  have fi : ∀ τ, Feasible τ s ↔ Sat τ s.graph ∧ ∀ c ∈ acc, c.Allows s.graph.size τ := fun τ => by rw [h4, new_feasible]
  refine ⟨fun hi' => ?_, fun t hs => ?_⟩
  · have w := h3.arc.wf i hi'
    refine ⟨max (lo i) (min 0 (hi i)), (h3.slot hi' _).2 ?_⟩
    have := w.le; have := w.lo; have := w.hi; simp only [InExt] at *
    ticks
  · obtain ⟨τ, f, e⟩ := ext hs
    have hi : i < s.graph.size := by
      obtain ⟨w, hw, -⟩ := hs
      have hw : s.schedule[i]? = some w := hw
      rw [List.getElem?_eq_some_iff] at hw
      rw [← h3.len]; exact hw.1
    exact ⟨hi, τ, ((fi τ).1 f).1, ((fi τ).1 f).2, e⟩

theorem least_of_bounded {P : Int → Prop} {b : Int} (hb : ∀ t, P t → b ≤ t) (he : ∃ t, P t) : ∃ t, P t ∧ ∀ t', P t' → t ≤ t' := by
  obtain ⟨t, ht⟩ := he
  have : ∀ (n : Nat) (t : Int), P t → t - b < n → ∃ t, P t ∧ ∀ t', P t' → t ≤ t' := by
    intro n
    induction n with
    | zero => exact fun t ht hn => absurd (hb t ht) (by omega)
    | succ n ih =>
      intro t ht hn
      by_cases c : ∃ t', P t' ∧ t' < t
      · obtain ⟨t', h1, h2⟩ := c
        exact ih t' h1 (by omega)
      · exact ⟨t, ht, fun t' h' => Int.not_lt.1 fun q => c ⟨t', h', q⟩⟩
  exact this (t - b).toNat.succ t ht (by omega)

theorem greatest_of_bounded {P : Int → Prop} {b : Int} (hb : ∀ t, P t → t ≤ b) (he : ∃ t, P t) : ∃ t, P t ∧ ∀ t', P t' → t' ≤ t := by
  obtain ⟨t, ht⟩ := he
  obtain ⟨u, h1, h2⟩ := least_of_bounded (P := fun x => P (-x)) (b := -b) (fun t h => by have := hb _ h; omega)
    ⟨-t, show P (- -t) by rw [Int.neg_neg]; exact ht⟩
  exact ⟨-u, h1, fun t' h' => by have := h2 (-t') (show P (- -t') by rw [Int.neg_neg]; exact h'); omega⟩

/-- the delays announced by two graphs with the same instants differ by at most `D` ticks -/
def NearGraphs (D : Int) (g g' : Graph) : Prop :=
  g'.size = g.size ∧ ∀ i j s s', i < g.size → j < g.size → g.timespan i j = .ok s → g'.timespan i j = .ok s' → NearSpan D s s'

theorem near_pushes {g g' : Graph} {D d : Int} (ha : NearGraphs D g g') {c c' : PlanCall} (hn : NearCalls g.size d c c') {i : Nat}
    (hi : i < g.size) {t : Int} (h : Pushes g c i t) {τ : Nat → Int} (h1 : Sat τ g') (h2 : c'.Allows g'.size τ) : t - (d + D) ≤ τ i := by
  obtain ⟨j, x, s, hj, hx, e, n, rfl⟩ := h
  rw [ha.1] at h2
  obtain ⟨σ, a, b⟩ := hn.2 τ h2
  have := hx σ a
  have := b j
  obtain ⟨s', e', p, -⟩ := h1 j i (by rw [ha.1]; exact hj) (by rw [ha.1]; exact hi)
  have := (ha.2 j i s s' hj hi e e').1
  unfold NearBound at this
  omega

theorem near_pulls {g g' : Graph} {D d : Int} (ha : NearGraphs D g g') {c c' : PlanCall} (hn : NearCalls g.size d c c') {i : Nat}
    (hi : i < g.size) {t : Int} (h : Pulls g c i t) {τ : Nat → Int} (h1 : Sat τ g') (h2 : c'.Allows g'.size τ) : τ i ≤ t + (d + D) := by
  obtain ⟨j, x, s, hj, hx, e, n, rfl⟩ := h
  rw [ha.1] at h2
  obtain ⟨σ, a, b⟩ := hn.2 τ h2
  have := hx σ a
  have := b j
  obtain ⟨s', e', -, p⟩ := h1 j i (by rw [ha.1]; exact hj) (by rw [ha.1]; exact hi)
  have := (ha.2 j i s s' hj hi e e').2
  unfold NearBound at this
  omega

theorem NearGraphs.swap {D : Int} {g g' : Graph} (h : NearGraphs D g g') : NearGraphs D g' g := by
  refine ⟨h.1.symm, fun i j s s' hi hj e e' => ?_⟩
  rw [h.1] at hi hj
  have := h.2 i j s' s hi hj e' e
  simp only [NearSpan, NearBound] at *
  omega

theorem near_swap {n : Nat} {d : Int} {c c' : PlanCall} (h : NearCalls n d c c') : NearCalls n d c' c := by
  refine ⟨fun τ a => ?_, fun τ a => ?_⟩
  · obtain ⟨σ, b, e⟩ := h.2 τ a
    exact ⟨σ, b, fun j => ⟨(e j).2, (e j).1⟩⟩
  · obtain ⟨σ, b, e⟩ := h.1 τ a
    exact ⟨σ, b, fun j => ⟨(e j).2, (e j).1⟩⟩

/-! ## Properties -/

/-- **C149.** Two plans made of requests which are at most `d` ticks apart, over graphs whose delays are at most `D` ticks apart: an instant
has an earliest date in the second plan as soon as it has one in the first plan, and these dates are at most `d + D` ticks apart. However
many requests are moved, their moves do not add up. -/
theorem C149_earliest (dbg : Bool) {g g' : Graph} (hv : Valid g) (hm : Minimal g) (hv' : Valid g') (hm' : Minimal g') {B W : Int}
    (hB : 0 ≤ B) (hW : 0 ≤ W) (hg : Within B g) (hg' : Within B g') (hBW : W + 2 * B < INF) {calls calls' : List PlanCall}
    (hok : ∀ c ∈ calls, c.Ok g.size W) (hok' : ∀ c ∈ calls', c.Ok g'.size W) {s s' : Sched} {acc acc' : List PlanCall}
    (h : planAll dbg (Sched.new g) calls = .ok (s, acc)) (h' : planAll dbg (Sched.new g') calls' = .ok (s', acc')) {d D : Int}
    (size : g'.size = g.size)
    (delays : ∀ i j u u', i < g.size → j < g.size → g.timespan i j = .ok u → g'.timespan i j = .ok u' → NearSpan D u u')
    (there : ∀ c ∈ acc, ∃ c' ∈ acc', NearCalls g.size d c c') (back : ∀ c' ∈ acc', ∃ c ∈ acc, NearCalls g.size d c c')
    {i : Nat} {t : Int} (ht : Earliest s i t) : ∃ t', Earliest s' i t' ∧ t - t' ≤ d + D ∧ t' - t ≤ d + D := by
  have al : NearGraphs D g g' := ⟨size, delays⟩
  have p := @plan_slots dbg g hv hm B W hB hW hg hBW calls hok s acc h i
  have p' := @plan_slots dbg g' hv' hm' B W hB hW hg' hBW calls' hok' s' acc' h' i
  obtain ⟨hi, τ, f1, f2, f3⟩ := p.2 t ht.1
  obtain ⟨c, hc, pc⟩ := C148_earliest dbg hv hm hB hW hg hBW hok h ht.1 ht.2
  obtain ⟨c', hc', nc⟩ := there c hc
  have low : ∀ t', Slot s' i t' → t - (d + D) ≤ t' := by
    intro t' hs
    obtain ⟨-, σ, e1, e2, e3⟩ := p'.2 t' hs
    rw [← e3]
    exact near_pushes al nc hi pc e1 (e2 c' hc')
  obtain ⟨t', a, b⟩ := least_of_bounded low (p'.1 (by rw [size]; exact hi))
  refine ⟨t', ⟨a, b⟩, by have := low t' a; omega, ?_⟩
  obtain ⟨c2, hc2, pc2⟩ := C148_earliest dbg hv' hm' hB hW hg' hBW hok' h' a b
  obtain ⟨c3, hc3, nc3⟩ := back c2 hc2
  have := near_pushes al.swap (by rw [size]; exact near_swap nc3) (by rw [size]; exact hi) pc2 f1 (f2 c3 hc3)
  omega

/-- **C149.** The same for the latest dates. -/
theorem C149_latest (dbg : Bool) {g g' : Graph} (hv : Valid g) (hm : Minimal g) (hv' : Valid g') (hm' : Minimal g') {B W : Int}
    (hB : 0 ≤ B) (hW : 0 ≤ W) (hg : Within B g) (hg' : Within B g') (hBW : W + 2 * B < INF) {calls calls' : List PlanCall}
    (hok : ∀ c ∈ calls, c.Ok g.size W) (hok' : ∀ c ∈ calls', c.Ok g'.size W) {s s' : Sched} {acc acc' : List PlanCall}
    (h : planAll dbg (Sched.new g) calls = .ok (s, acc)) (h' : planAll dbg (Sched.new g') calls' = .ok (s', acc')) {d D : Int}
    (size : g'.size = g.size)
    (delays : ∀ i j u u', i < g.size → j < g.size → g.timespan i j = .ok u → g'.timespan i j = .ok u' → NearSpan D u u')
    (there : ∀ c ∈ acc, ∃ c' ∈ acc', NearCalls g.size d c c') (back : ∀ c' ∈ acc', ∃ c ∈ acc, NearCalls g.size d c c')
    {i : Nat} {t : Int} (ht : Latest s i t) : ∃ t', Latest s' i t' ∧ t - t' ≤ d + D ∧ t' - t ≤ d + D := by
  have al : NearGraphs D g g' := ⟨size, delays⟩
  have p := @plan_slots dbg g hv hm B W hB hW hg hBW calls hok s acc h i
  have p' := @plan_slots dbg g' hv' hm' B W hB hW hg' hBW calls' hok' s' acc' h' i
  obtain ⟨hi, τ, f1, f2, f3⟩ := p.2 t ht.1
  obtain ⟨c, hc, pc⟩ := C148_latest dbg hv hm hB hW hg hBW hok h ht.1 ht.2
  obtain ⟨c', hc', nc⟩ := there c hc
  have high : ∀ t', Slot s' i t' → t' ≤ t + (d + D) := by
    intro t' hs
    obtain ⟨-, σ, e1, e2, e3⟩ := p'.2 t' hs
    rw [← e3]
    exact near_pulls al nc hi pc e1 (e2 c' hc')
  obtain ⟨t', a, b⟩ := greatest_of_bounded high (p'.1 (by rw [size]; exact hi))
  refine ⟨t', ⟨a, b⟩, ?_, by have := high t' a; omega⟩
  obtain ⟨c2, hc2, pc2⟩ := C148_latest dbg hv' hm' hB hW hg' hBW hok' h' a b
  obtain ⟨c3, hc3, nc3⟩ := back c2 hc2
  have := near_pulls al.swap (by rw [size]; exact near_swap nc3) (by rw [size]; exact hi) pc2 f1 (f2 c3 hc3)
  omega

/-! ## Examples -/

theorem near_startlines {n : Nat} {d a b : Int} (h1 : a ≠ -INF) (h2 : b ≠ -INF) (h3 : a - b ≤ d) (h4 : b - a ≤ d) :
    NearCalls n d (.startline a) (.startline b) := by
  refine ⟨fun τ h => ⟨fun j => τ j + (b - a), fun j hj => ?_, fun j => ?_⟩, fun τ h => ⟨fun j => τ j + (a - b), fun j hj => ?_, fun j => ?_⟩⟩
  · have := h j hj; simp only; omega
  · simp only; omega
  · have := h j hj; simp only; omega
  · simp only; omega

theorem near_retains {n i : Nat} {d a b a' b' : Int} (h1 : a ≤ b) (h1' : a' ≤ b') (ha : a ≠ -INF) (ha' : a' ≠ -INF) (hb : b ≠ INF)
    (hb' : b' ≠ INF) (h3 : a - a' ≤ d ∧ a' - a ≤ d) (h4 : b - b' ≤ d ∧ b' - b ≤ d) :
    NearCalls n d (.retain i (.iv ⟨a, b⟩)) (.retain i (.iv ⟨a', b'⟩)) := by
  refine ⟨fun τ h => ⟨fun j => if j = i then max a' (min (τ j) b') else τ j, ?_, fun j => ?_⟩,
    fun τ h => ⟨fun j => if j = i then max a (min (τ j) b) else τ j, ?_, fun j => ?_⟩⟩
  · simp only [PlanCall.Allows, InExtConvex, InExt, if_true] at *; omega
  · simp only [PlanCall.Allows, InExtConvex, InExt] at *; split
    · rename_i e; subst e; omega
    · omega
  · simp only [PlanCall.Allows, InExtConvex, InExt, if_true] at *; omega
  · simp only [PlanCall.Allows, InExtConvex, InExt] at *; split
    · rename_i e; subst e; omega
    · omega

/-- Two requests are moved by three ticks each: the earliest date of the last instant moves by three ticks only. -/
example : ∃ s s', planAll true (Sched.new exGraph) [.startline 0, .retain 1 (.iv ⟨12, 40⟩)] =
      .ok (s, [.startline 0, .retain 1 (.iv ⟨12, 40⟩)]) ∧
    planAll true (Sched.new exGraph) [.startline 3, .retain 1 (.iv ⟨15, 37⟩)] =
      .ok (s', [.startline 3, .retain 1 (.iv ⟨15, 37⟩)]) ∧ Earliest s 2 17 ∧ Earliest s' 2 20 ∧
    ∀ i t, Earliest s i t → ∃ t', Earliest s' i t' ∧ t - t' ≤ 3 + 0 ∧ t' - t ≤ 3 + 0 := by
  have a : planAll true (Sched.new exGraph) [.startline 0, .retain 1 (.iv ⟨12, 40⟩)] =
      .ok (⟨exGraph, [[⟨0, 30⟩], [⟨12, 40⟩], [⟨17, 46⟩]]⟩, [.startline 0, .retain 1 (.iv ⟨12, 40⟩)]) := by decide +kernel
  have b : planAll true (Sched.new exGraph) [.startline 3, .retain 1 (.iv ⟨15, 37⟩)] =
      .ok (⟨exGraph, [[⟨3, 27⟩], [⟨15, 37⟩], [⟨20, 43⟩]]⟩, [.startline 3, .retain 1 (.iv ⟨15, 37⟩)]) := by decide +kernel
  have n1 : NearCalls 3 3 (.startline 0) (.startline 3) := near_startlines (by decide) (by decide) (by decide) (by decide)
  have n2 : NearCalls 3 3 (.retain 1 (.iv ⟨12, 40⟩)) (.retain 1 (.iv ⟨15, 37⟩)) :=
    near_retains (by decide) (by decide) (by decide) (by decide) (by decide) (by decide) (by decide) (by decide)
  refine ⟨_, _, a, b, ⟨⟨_, rfl, by decide⟩, ?_⟩, ⟨⟨_, rfl, by decide⟩, ?_⟩, fun i t ht => ?_⟩
  · rintro t' ⟨w, e, h⟩
    cases e
    simp only [InExtSet, List.mem_singleton, exists_eq_left, InExt] at h
    have := h.1
    ticks
  · rintro t' ⟨w, e, h⟩
    cases e
    simp only [InExtSet, List.mem_singleton, exists_eq_left, InExt] at h
    have := h.1
    ticks
  · refine C149_earliest true exGraph_valid exGraph_minimal exGraph_valid exGraph_minimal (W := 40) (by decide) (by decide)
      exGraph_within exGraph_within (by decide) ?_ ?_ a b rfl ?_ ?_ ?_ ht
    · simp only [List.mem_cons, List.not_mem_nil, or_false]
      rintro c (rfl | rfl)
      · exact Or.inr (by decide)
      · exact ⟨by decide, by decide, ⟨12, by decide⟩, by decide⟩
    · simp only [List.mem_cons, List.not_mem_nil, or_false]
      rintro c (rfl | rfl)
      · exact Or.inr (by decide)
      · exact ⟨by decide, by decide, ⟨15, by decide⟩, by decide⟩
    · intro i j u u' _ _ e e'
      rw [e] at e'; cases e'
      unfold NearSpan NearBound; omega
    · simp only [List.mem_cons, List.not_mem_nil, or_false]
      rintro c (rfl | rfl)
      · exact ⟨_, Or.inl rfl, n1⟩
      · exact ⟨_, Or.inr rfl, n2⟩
    · simp only [List.mem_cons, List.not_mem_nil, or_false]
      rintro c (rfl | rfl)
      · exact ⟨_, Or.inl rfl, n1⟩
      · exact ⟨_, Or.inr rfl, n2⟩

end Chrono
