import Verif.Spec.Route
import Verif.Props.GraphGreedy
import Verif.Props.SchedBest

/-!
# C135: announced delays add up
-/

namespace Chrono
open Spec

/-- a sum of two intervals covers all the intervals whose bounds are within the sums of the bounds, even if the sums saturate -/
theorem sum_cover (dbg : Bool) {a b c : Iv} (ha : WF a) (hb : WF b) (hc : WF c)
    (h1 : a.lower ≠ -INF → b.lower ≠ -INF → a.lower + b.lower ≤ c.lower)
    (h2 : a.upper ≠ INF → b.upper ≠ INF → c.upper ≤ a.upper + b.upper) :
    ∃ r, a.addSpan dbg b = .ok r ∧ WF r ∧ r.lower ≤ c.lower ∧ c.upper ≤ r.upper := by
  obtain ⟨l1, u1⟩ := a
  obtain ⟨l2, u2⟩ := b
  obtain ⟨l3, u3⟩ := c
  obtain ⟨a1, a2, a3, a4, a5⟩ := ha
  obtain ⟨b1, b2, b3, b4, b5⟩ := hb
  obtain ⟨c1, c2, c3, c4, c5⟩ := hc
  simp only at *
  have e1 : ∃ l, tvAdd l1 l2 = .ok l ∧ -INF ≤ l ∧ l ≤ l3 := by
    rw [tvAdd_ok (by unfold Legal; ticks) (by unfold Legal; ticks) (by ticks) (by ticks)]
    refine ⟨_, rfl, ?_⟩
    rw [if_neg (by omega)]
    split
    · omega
    · have := h1 (by omega) (by omega)
      unfold Spec.round
      repeat' split
      all_goals omega
  have e2 : ∃ u, tvAdd u1 u2 = .ok u ∧ u ≤ INF ∧ u3 ≤ u := by
    rw [tvAdd_ok (by unfold Legal; ticks) (by unfold Legal; ticks) (by ticks) (by ticks)]
    refine ⟨_, rfl, ?_⟩
    split
    · omega
    · rw [if_neg (by omega)]
      have := h2 (by omega) (by omega)
      unfold Spec.round
      repeat' split
      all_goals ticks
  obtain ⟨l, e1, l1', l2'⟩ := e1
  obtain ⟨u, e2, u1', u2'⟩ := e2
  have hw : WF ⟨l, u⟩ := ⟨by simp only; omega, by simp only; omega, by simp only; omega, by simp only; omega, by simp only; omega⟩
  refine ⟨⟨l, u⟩, ?_, hw, l2', u2'⟩
  simp only [Iv.addSpan, e1, e2]
  show Iv.debugNonEmpty dbg (Iv.new _ _) = _
  rw [Iv.new_wf hw]
  simp [Iv.debugNonEmpty, hw.not_isEmpty]

theorem minimal_span_wf {g : Graph} (hv : Valid g) (hm : Minimal g) (hg : Within (INF - 1) g) {i j : Nat} (hi : i < g.size) (hj : j < g.size) :
    WF ⟨mat g i j, -mat g j i⟩ := by
  have q := (minimal_iff hv).1 hm
  have s1 := small_of_within hv hg i hi j hj
  have s2 := small_of_within hv hg j hj i hi
  have := q.anti hi hj
  unfold Small at s1 s2
  constructor <;> simp only <;> ticks

/-- C135 for graphs: the sum of the delays announced along any route covers the delay announced between its ends; it can be computed without
panic, whatever the bounds are and even if sums saturate. Missing: graphs which are not minimal, after a single constraint to a new instant. -/
theorem C135_route_partial (dbg : Bool) {g : Graph} (hv : Valid g) (hm : Minimal g) (hg : Within (INF - 1) g) {i : Nat} {l : List Nat}
    (hl : ∀ j ∈ i :: l, j < g.size) :
    ∃ r s, routeSpan dbg g (Iv.singleton 0) i l = .ok r ∧ g.timespan i (routeEnd i l) = .ok s ∧ Convex.contains (.iv r) (.iv s) = true := by
  have q := (minimal_iff hv).1 hm
  have hi := hl i (by simp)
  have key : ∀ (l : List Nat) (j : Nat) (acc : Iv), (∀ x ∈ j :: l, x < g.size) → WF acc → acc.lower ≤ mat g i j → -mat g j i ≤ acc.upper →
      ∃ r, routeSpan dbg g acc j l = .ok r ∧ r.lower ≤ mat g i (routeEnd j l) ∧ -mat g (routeEnd j l) i ≤ r.upper := by
    intro l
    induction l with
    | nil => intro j acc _ _ h1 h2; exact ⟨acc, rfl, h1, h2⟩
    | cons k l ih =>
      intro j acc hl w h1 h2
      have hj := hl j (by simp)
      have hk := hl k (by simp)
      have t1 := q.tri i hi j hj k hk
      have t2 := q.tri k hk j hj i hi
      have w1 := minimal_span_wf hv hm hg hi hj
      have w2 := minimal_span_wf hv hm hg hj hk
      have w3 := minimal_span_wf hv hm hg hi hk
      have wl := w.lo
      have wu := w.hi
      obtain ⟨r, e, hr, h3, h4⟩ := sum_cover dbg w w2 w3
        (by simp only; intro c1 c2; have := t1 (by omega) c2; omega)
        (by simp only; intro c1 c2; have := t2 (by omega) (by omega); omega)
      obtain ⟨r', e', h5, h6⟩ := ih k r (fun x hx => hl x (by simp at hx ⊢; exact Or.inr hx)) hr h3 h4
      have en : routeEnd j (k :: l) = routeEnd k l := by simp [routeEnd]
      rw [en]
      refine ⟨r', ?_, h5, h6⟩
      show (do let s ← g.timespan j k; let r ← acc.addSpan dbg s; routeSpan dbg g r k l) = _
      rw [timespan_eq hv hj hk]
      show (do let r ← acc.addSpan dbg _; routeSpan dbg g r k l) = _
      rw [e]
      exact e'
  have d := q.diag i hi
  obtain ⟨r, e, h1, h2⟩ := key l i (Iv.singleton 0) hl (by constructor <;> decide) (by rw [d]; decide) (by rw [d]; decide)
  have hend : routeEnd i l < g.size := hl _ (List.getLast_mem _)
  refine ⟨r, _, e, timespan_eq hv hi hend, ?_⟩
  simp only [Convex.contains, Convex.containsBounds, Bool.and_eq_true, decide_eq_true_eq]
  exact ⟨h1, h2⟩

/-- C135 for graphs: a delay minus its first part covers the second part. -/
theorem C135_rest_partial (dbg : Bool) {g : Graph} (hv : Valid g) (hm : Minimal g) (hg : Within (INF - 1) g) {i j k : Nat}
    (hi : i < g.size) (hj : j < g.size) (hk : k < g.size) {a b c : Iv} (ea : g.timespan i j = .ok a) (eb : g.timespan j k = .ok b)
    (ec : g.timespan i k = .ok c) :
    ∃ r, c.subSpan dbg a = .ok r ∧ Convex.contains (.iv r) (.iv b) = true := by
  rw [timespan_eq hv hi hj] at ea
  rw [timespan_eq hv hj hk] at eb
  rw [timespan_eq hv hi hk] at ec
  cases ea; cases eb; cases ec
  have q := (minimal_iff hv).1 hm
  have t1 := q.tri j hj i hi k hk
  have t2 := q.tri k hk i hi j hj
  obtain ⟨r, e, -, h3, h4⟩ := sum_cover dbg (minimal_span_wf hv hm hg hi hk) (minimal_span_wf hv hm hg hi hj).neg (minimal_span_wf hv hm hg hj hk)
    (by simp only [Iv.neg, tvNeg]; intro c1 c2; have := t1 (by omega) c1; omega)
    (by simp only [Iv.neg, tvNeg]; intro c1 c2; have := t2 (by omega) (by omega); omega)
  refine ⟨r, by rw [subSpan_eq]; exact e, ?_⟩
  simp only [Convex.contains, Convex.containsBounds, Bool.and_eq_true, decide_eq_true_eq]
  exact ⟨h3, h4⟩

/-- C135 for schedulers: after a history of requests without sets, the dates of an instant plus the delay to another one cover the dates of the
latter. -/
theorem C135_sched_partial (dbg : Bool) {g : Graph} (hv : Valid g) (hm : Minimal g) {B W : Int} (hB : 0 ≤ B) (hW : 0 ≤ W)
    (hg : Within B g) (hBW : W + 2 * B < INF) {calls : List PlanCall} (hok : ∀ c ∈ calls, c.Ok g.size W)
    {s : Sched} {acc : List PlanCall} (h : planAll dbg (Sched.new g) calls = .ok (s, acc)) {i j : Nat} (hi : i < g.size) (hj : j < g.size) :
    ∃ si sj sp r, s.scheduling i = some si ∧ s.scheduling j = some sj ∧ g.timespan i j = .ok sp ∧ TSet.addSpan dbg si sp = .ok r ∧
      TSet.containsSet r sj = true := by
  obtain ⟨s1, acc1, k1, k2, ⟨lo, hi', hc⟩, -, k3⟩ := plan_history dbg hv hm hg hB hW hBW calls (Sched.new g) rfl ⟨_, _, new_conv g _⟩ hok
  rw [h] at k1
  cases k1
  subst k2
  have q := minimal_span_wf hv hm (fun a b ha hb t e => by have := hg a b ha hb t e; omega) hi hj
  have sm := hc.small i hi _ (List.mem_singleton.2 rfl)
  have sg := hg i j hi hj _ (timespan_eq hv hi hj)
  simp only at sm sg
  obtain ⟨r, e, cr, hr⟩ := C41_add_span dbg [⟨lo i, hi' i⟩] _ (canon_one (hc.arc.wf i hi)) q (fun x hx => by
    rw [List.mem_singleton] at hx
    subst hx
    constructor <;> simp only [Date] <;> omega)
  refine ⟨_, _, _, r, hc.get i hi, hc.get j hj, timespan_eq hv hi hj, e, ?_⟩
  have := (contains_ext (w := .set r) cr (canon_one (hc.arc.wf j hj))).2 (fun t ht => by
    obtain ⟨τ, f1, f2⟩ := hc.attain hv hm hj ((hc.slot hj t).2 (extSet_one.1 ht))
    obtain ⟨sp, e1, e2⟩ := f1.1 i j hi hj
    rw [timespan_eq hv hi hj] at e1
    cases e1
    exact (hr t).2 ⟨τ i, τ j - τ i, extSet_one.2 ((hc.slot hi _).1 (f1.2 i hi)), e2, by omega⟩)
  exact this

/-- C135 for schedulers: after a history of requests without sets, any date of an instant plus the delay to another one overlaps the dates of the
latter. -/
theorem C135_date_partial (dbg : Bool) {g : Graph} (hv : Valid g) (hm : Minimal g) {B W : Int} (hB : 0 ≤ B) (hW : 0 ≤ W)
    (hg : Within B g) (hBW : W + 2 * B < INF) {calls : List PlanCall} (hok : ∀ c ∈ calls, c.Ok g.size W)
    {s : Sched} {acc : List PlanCall} (h : planAll dbg (Sched.new g) calls = .ok (s, acc)) {i j : Nat} (hi : i < g.size) (hj : j < g.size)
    {t : Int} (ht : Slot s i t) (ht' : -W - B ≤ t ∧ t ≤ W + B) :
    ∃ sj sp w, s.scheduling j = some sj ∧ g.timespan i j = .ok sp ∧ Iv.tsAddSpan dbg t sp = .ok w ∧ TSet.overlaps sj (.iv w) = true := by
  obtain ⟨s1, acc1, k1, k2, ⟨lo, hi', hc⟩, -, k3⟩ := plan_history dbg hv hm hg hB hW hBW calls (Sched.new g) rfl ⟨_, _, new_conv g _⟩ hok
  rw [h] at k1
  cases k1
  subst k2
  have q := minimal_span_wf hv hm (fun a b ha hb t e => by have := hg a b ha hb t e; omega) hi hj
  have sg := hg i j hi hj _ (timespan_eq hv hi hj)
  simp only at sg
  obtain ⟨w, e, hw, hwt, -⟩ := C22_add_span dbg ⟨t, t⟩ _ ⟨Int.le_refl _, by simp only; omega, by simp only; omega, by simp only; omega, by simp only; omega⟩ q
    (by simp only [Date]; omega) (by simp only [Date]; omega)
  refine ⟨_, _, w, hc.get j hj, timespan_eq hv hi hj, e, ?_⟩
  obtain ⟨τ, f1, f2⟩ := hc.attain hv hm hi ht
  obtain ⟨sp, e1, e2⟩ := f1.1 i j hi hj
  rw [timespan_eq hv hi hj] at e1
  cases e1
  have a1 := (hc.slot hj _).1 (f1.2 j hj)
  have a2 : InExt (τ j) w := (hwt _).2 ⟨t, τ j - τ i, ⟨Or.inr (Int.le_refl _), Or.inr (Int.le_refl _)⟩, e2, by omega⟩
  have := (overlaps_ext (w := .conv (.iv w)) (Or.inl hw) (canon_one (hc.arc.wf j hj)) (fun v hv => by
    cases hv
    exact Or.inl ⟨τ j, a2⟩)).2 ⟨τ j, extSet_one.2 a1, a2⟩
  exact this

/-- C135 is violated when a constraint links an old instant to a new one, as soon as something is known on the old instant: the sum of the
delays on the way does not cover what is announced. -/
theorem C135_growth_violated (dbg : Bool) {g : Graph} (hv : Valid g) (hc : Clean g) (hmin : Minimal g) {B : Int} (hg : Within B g)
    (hB : 2 * B < INF) {k : Constr} (hk : k.isEmpty = false) (hw : WF ⟨k.lower, k.upper⟩) (hkB : WithinK B k) (hs : k.src < g.size)
    (hd : g.size ≤ k.dst) (hm : k.dst < 65535) {b : Nat} (hb : b < g.size) (hne : b ≠ k.src) {s : Iv} (he : g.timespan b k.src = .ok s)
    (h1 : k.lower ≠ -INF) (h2 : s.lower ≠ -INF) :
    ∃ g' r t, g.propagate k = .ok (g', .propagated) ∧ routeSpan dbg g' (Iv.singleton 0) b [k.src, k.dst] = .ok r ∧
      g'.timespan b k.dst = .ok t ∧ Convex.contains (.iv r) (.iv t) = false := by
  obtain ⟨x, p1, t1, -, -⟩ := C64_deduction_violated hv hc hmin hk hw hs hd hm hb hne he h1 h2
  obtain ⟨x', p2, sz, v1, -, h5⟩ := propagate_grow (clean_iff.1 hc) hk (by omega) (by omega) (by omega)
  rw [p1] at p2
  cases p2
  have sg := hg b k.src hb hs s he
  rw [timespan_eq hv hb hs] at he
  cases he
  have e1 : x.timespan b k.src = .ok ⟨mat g b k.src, -mat g k.src b⟩ := by
    rw [timespan_eq v1 (by omega) (by omega), h5 b k.src (by omega) (by omega), h5 k.src b (by omega) (by omega),
      if_neg (by omega), if_neg (by omega), if_pos ⟨hb, hs⟩, if_neg (by omega), if_neg (by omega), if_pos ⟨hs, hb⟩]
  have e2 : x.timespan k.src k.dst = .ok ⟨k.lower, k.upper⟩ := by
    rw [timespan_eq v1 (by omega) (by omega), h5 k.src k.dst (by omega) (by omega), h5 k.dst k.src (by omega) (by omega),
      if_pos ⟨rfl, rfl⟩, if_neg (by omega), if_pos ⟨rfl, rfl⟩]
    simp
  have w1 := minimal_span_wf hv hmin (fun a b ha hb t e => by have := hg a b ha hb t e; omega) hb hs
  unfold WithinK at hkB
  simp only at sg h2
  have z : Iv.singleton 0 = ⟨0, 0⟩ := by decide
  rw [z]
  obtain ⟨r1, a1, a2, a3, a4⟩ := addSpan_spec dbg (i := ⟨0, 0⟩) (s := ⟨mat g b k.src, -mat g k.src b⟩) (by constructor <;> decide) w1
    (by simp only [Date]; omega) (by simp only [Date]; omega)
  have e : r1 = ⟨mat g b k.src, -mat g k.src b⟩ := by
    obtain ⟨l, u⟩ := r1
    have n1 : ¬ (0 : Int) = -INF := by decide
    have n2 : ¬ (0 : Int) = INF := by decide
    simp only at a3 a4
    rw [Int.zero_add] at a3 a4
    rw [Iv.mk.injEq]
    constructor
    · rw [a3]; split <;> omega
    · rw [a4]; split <;> omega
  subst e
  obtain ⟨r2, b1, b2, b3, b4⟩ := addSpan_spec dbg (s := ⟨k.lower, k.upper⟩) w1 hw
    (by simp only [Date]; omega) (by simp only [Date]; omega)
  refine ⟨x, r2, _, p1, ?_, t1, ?_⟩
  · show (do let s ← x.timespan b k.src; let r ← Iv.addSpan dbg ⟨0, 0⟩ s; routeSpan dbg x r k.src [k.dst]) = _
    rw [e1]
    show (do let r ← Iv.addSpan dbg ⟨0, 0⟩ _; routeSpan dbg x r k.src [k.dst]) = _
    rw [a1]
    show (do let s ← x.timespan k.src k.dst; let r ← Iv.addSpan dbg _ s; routeSpan dbg x r k.dst []) = _
    rw [e2]
    show (do let r ← Iv.addSpan dbg _ _; routeSpan dbg x r k.dst []) = _
    rw [b1]
    rfl
  · have n : ¬ (mat g b k.src = -INF ∨ k.lower = -INF) := fun q => q.elim h2 h1
    have b3 : r2.lower = mat g b k.src + k.lower := b3.trans (if_neg n)
    rw [← Bool.not_eq_true]
    simp only [Convex.contains, Convex.containsBounds, Bool.and_eq_true, decide_eq_true_eq]
    rintro ⟨q, -⟩
    have key : ∀ a b c B I : Int, 2 * B < I → -B ≤ a → -B ≤ b → c = a + b → c ≤ -I → False := by intros; omega
    exact key _ _ _ _ _ hB (sg.1.resolve_left h2).1 (hkB.1.resolve_left h1).1 b3 q

/-- `0 ≤ t₁ - t₀ ≤ 10`, `0 ≤ t₂ - t₁ ≤ 10`, `0 ≤ t₂ - t₀ ≤ 12` -/
def routeGraph : Graph := ⟨3, [0, -10, 0, 0, -12, -10, 0, 0, 0]⟩

theorem routeGraph_minimal : Minimal routeGraph := by
  rw [minimal_iff (by decide)]
  have d : ∀ i : Fin 3, mat routeGraph i i = 0 := by decide
  have t : ∀ i k j : Fin 3, mat routeGraph i k ≠ -INF → mat routeGraph k j ≠ -INF →
      mat routeGraph i j ≠ -INF ∧ mat routeGraph i k + mat routeGraph k j ≤ mat routeGraph i j := by decide
  exact ⟨fun i hi => d ⟨i, hi⟩, fun i hi k hk j hj => t ⟨i, hi⟩ ⟨k, hk⟩ ⟨j, hj⟩⟩

/-- C135 is violated by sets: instant 0 is at 0 or 15, then instant 1 is at 10; the only date left to instant 0 is 0, so that instant 2 is at 12
at the latest, but 15 to 20 are still announced for it. -/
theorem C135_set_violated (dbg : Bool) : ∃ (s : Sched) (s0 s2 r : TSet), Minimal routeGraph ∧
    callAll dbg (Sched.new routeGraph) [.retain 0 (.set [⟨0, 0⟩, ⟨15, 15⟩]), .retain 1 (.conv (.point 10))] =
      .ok (s, [.retain 0 (.set [⟨0, 0⟩, ⟨15, 15⟩]), .retain 1 (.conv (.point 10))]) ∧
    s.scheduling 0 = some s0 ∧ s.scheduling 2 = some s2 ∧ routeGraph.timespan 0 2 = .ok ⟨0, 12⟩ ∧ TSet.addSpan dbg s0 ⟨0, 12⟩ = .ok r ∧
    TSet.containsSet r s2 = false := by
  refine ⟨⟨routeGraph, [[⟨0, 0⟩], [⟨10, 10⟩], [⟨10, 12⟩, ⟨15, 20⟩]]⟩, [⟨0, 0⟩], [⟨10, 12⟩, ⟨15, 20⟩], [⟨0, 12⟩], routeGraph_minimal, ?_,
    rfl, rfl, by decide, ?_, by decide +kernel⟩
  · cases dbg <;> decide +kernel
  · cases dbg <;> decide +kernel

/-! ## Examples -/

example : Valid routeGraph ∧ Minimal routeGraph ∧ Within (INF - 1) routeGraph ∧ (∀ j ∈ [0, 1, 2, 0, 2], j < routeGraph.size) ∧
    routeSpan true routeGraph (Iv.singleton 0) 0 [1, 2] = .ok ⟨0, 20⟩ ∧ routeGraph.timespan 0 (routeEnd 0 [1, 2]) = .ok ⟨0, 12⟩ := by
  refine ⟨by decide, routeGraph_minimal, ?_, by decide, by decide, by decide⟩
  refine (within_iff (by decide)).2 ?_
  show ∀ i, i < 3 → ∀ j, j < 3 → _
  unfold Small
  decide

/-- delays so long that their sum saturates -/
example : routeSpan true ⟨3, [0, -INF, 0, -INF + 5, -INF, -INF, 0, -INF + 9, -INF + 14]⟩ (Iv.singleton 0) 0 [1, 2] = .ok ⟨-INF, INF⟩ := by
  decide

example : Valid exGraph ∧ Minimal exGraph ∧ planAll true (Sched.new exGraph) [.retain 0 (.iv ⟨0, 100⟩), .deadline 50] =
      .ok (⟨exGraph, [[⟨0, 35⟩], [⟨10, 45⟩], [⟨15, 50⟩]]⟩, [.retain 0 (.iv ⟨0, 100⟩), .deadline 50]) ∧
    exGraph.timespan 0 2 = .ok ⟨15, 26⟩ ∧ TSet.addSpan true [⟨0, 35⟩] ⟨15, 26⟩ = .ok [⟨15, 61⟩] := by
  refine ⟨exGraph_valid, exGraph_minimal, by decide +kernel, by decide, by decide +kernel⟩

example : Valid exGraph ∧ Clean exGraph ∧ Minimal exGraph ∧ exGraph.timespan 0 1 = .ok ⟨10, 20⟩ ∧ WithinK 100 ⟨1, 3, false, 5, 6⟩ :=
  ⟨exGraph_valid, exGraph_clean, exGraph_minimal, by decide, by decide⟩

end Chrono
