import Verif.Props.SchedAnswers
import Verif.Props.ConflictRemove

/-!
# C158 and C160 after any history of requests

`retain(i, a & b)` and `remove(i, a & b)` for two intervals without a common date, on the schedules which a history of requests leaves. Some of them contain intervals
`[c, c - 1]`, without a date.
-/

set_option linter.unusedSimpArgs false

namespace Chrono
open Spec

/-- a slot with or without a date meets both intervals iff it covers what is between them -/
theorem covers_loose_iff {a b x : Iv} (ha : WF a) (hb : WF b) (h : a.upper < b.lower) (hx : LooseIv x) :
    ((∃ t, Date t ∧ InIv t x ∧ InIv t a) ∧ ∃ t, Date t ∧ InIv t x ∧ InIv t b) ↔ b.lower ≤ x.upper ∧ x.lower ≤ a.upper := by
  obtain ⟨x1, x2, x3, x4, x5⟩ := id hx
  by_cases c : x.lower ≤ x.upper
  · exact covers_iff ha hb h ⟨c, x2, x3, x4, x5⟩
  · simp only [InIv]
    constructor
    · rintro ⟨⟨t, -, h1, h2⟩, -⟩
      omega
    · intro d
      omega

theorem conflict_loose {a b : Iv} (ha : WF a) (hb : WF b) (h : a.upper < b.lower) {si : TSet} (hc : Loose si) (hn : ∃ t, InExtSet t si) :
    Window.containsSet (.conv (.iv (Iv.inter a (.iv b)))) si = false ∧
    (Window.overlapsSet (.conv (.iv (Iv.inter a (.iv b)))) si = true ↔
      ∃ x ∈ si, (∃ t, Date t ∧ InIv t x ∧ InIv t a) ∧ ∃ t, Date t ∧ InIv t x ∧ InIv t b) ∧
    Window.restrict (.conv (.iv (Iv.inter a (.iv b)))) si = .ok [] := by
  obtain ⟨e, d1, d2, -⟩ := before_inter ha hb h
  rw [e]
  refine ⟨?_, ?_, ?_⟩
  · obtain ⟨t, x, hx, ht⟩ := hn
    have lx := hc.wf x hx
    obtain ⟨l1, l2⟩ := loose_bounds hc x hx
    simp only [Window.containsSet, Convex.containsSet, Convex.containsBounds, Bool.and_eq_false_iff, decide_eq_false_iff_not]
    show ¬ (b.lower ≤ TSet.lowerBound si) ∨ ¬ (TSet.upperBound si ≤ a.upper)
    have := lx.lo; have := lx.hi; have := lx.lo_lt; have := lx.lt_hi
    simp only [InExt] at ht
    simp only [Date] at d1 d2
    omega
  · simp only [Window.overlapsSet, Convex.overlapsSet]
    rw [overlaps_loose_iff hc]
    constructor
    · rintro ⟨x, hx, c⟩
      exact ⟨x, hx, (covers_loose_iff ha hb h (hc.wf x hx)).2 c⟩
    · rintro ⟨x, hx, c⟩
      exact ⟨x, hx, (covers_loose_iff ha hb h (hc.wf x hx)).1 c⟩
  · simp only [Window.restrict, interAssign_wrong hc h]

/-- **C158**, partial, after any history of requests: for an instant which still has a date, `retain(i, a & b)` is refused and the schedule is left
as it was iff no slot of the instant has dates of both intervals. Missing: the other slots, see `C158_reached_violated`. -/
theorem C158_reached_partial (dbg : Bool) {dbg' : Bool} {g : Graph} (hv : Valid g) (hg : Spanned g) {s : Sched} {P : (Nat → Int) → Prop}
    (hp : Planned dbg' g s P) {i : Nat} {si : TSet} (hi : s.scheduling i = some si) (hn : ∃ t, Slot s i t)
    {a b : Iv} (ha : WF a) (hb : WF b) (h : a.upper < b.lower) :
    s.retain dbg i (.conv (.iv (Iv.inter a (.iv b)))) = .ok (s, .recovered) ↔
      ¬ ∃ x ∈ si, (∃ t, Date t ∧ InIv t x ∧ InIv t a) ∧ ∃ t, Date t ∧ InIv t x ∧ InIv t b := by
  obtain ⟨-, hl, -⟩ := planned_inv hv hg hp
  obtain ⟨t, ht⟩ := hn
  obtain ⟨c1, c2, c3⟩ := conflict_loose ha hb h (hl.2 si (List.mem_of_getElem? hi)) ⟨t, (slot_get hi t).1 ht⟩
  rw [retain_test dbg hi, c1, ← c2]
  cases Window.overlapsSet (.conv (.iv (Iv.inter a (.iv b)))) si with
  | false => simp
  | true =>
    simp only [Bool.false_eq_true, if_false, Bool.not_true, c3, ok_bind, not_true_eq_false, iff_false]
    intro e
    obtain ⟨x, -, e⟩ := bind_inv e
    cases e

/-- **C158** is violated after every history of requests, on every slot which has dates of both intervals: the request is accepted,
`Ok(Propagated)`, and the instant and all those whose delay from it is bounded have no date left. -/
theorem C158_reached_violated (dbg : Bool) {dbg' : Bool} {g : Graph} (hv : Valid g) (hg : Spanned g) {s : Sched} {P : (Nat → Int) → Prop}
    (hp : Planned dbg' g s P) {i : Nat} (hl : i < g.size) {si : TSet} (hi : s.scheduling i = some si)
    {a b : Iv} (ha : WF a) (hb : WF b) (h : a.upper < b.lower)
    (hx : ∃ x ∈ si, (∃ t, Date t ∧ InIv t x ∧ InIv t a) ∧ ∃ t, Date t ∧ InIv t x ∧ InIv t b) :
    ∃ s', s.retain dbg i (.conv (.iv (Iv.inter a (.iv b)))) = .ok (s', .propagated) ∧ s'.graph = g ∧
      ∀ j, (j = i ∨ j < g.size ∧ ∃ sp, g.timespan i j = .ok sp ∧ sp ≠ ⟨-INF, INF⟩) →
        s'.scheduling j = some [] ∧ ¬ ∃ t, Slot s' j t := by
  obtain ⟨rfl, hcs, -⟩ := planned_inv hv hg hp
  have some_date : ∃ t, InExtSet t si := by
    obtain ⟨x, hx, ⟨t, d, ht, -⟩, -⟩ := hx
    refine ⟨t, x, hx, ?_⟩
    simp only [InIv] at ht
    simp only [InExt]
    omega
  obtain ⟨c1, c2, c3⟩ := conflict_loose ha hb h (hcs.2 si (List.mem_of_getElem? hi)) some_date
  obtain ⟨ks, k1, -, k2, k3⟩ := C72_from_partial hv hl
  have hle : i < s.schedule.length := by rw [hcs.1]; exact hl
  obtain ⟨sch', e1, e2, e3, e4⟩ := propagate_empty dbg ks (s.schedule.set i []) (i := i) (List.getElem?_set_self hle)
    (by intro k hk; rw [List.length_set, hcs.1]; exact (k2 k hk).2.1)
  refine ⟨⟨s.graph, sch'⟩, ?_, rfl, fun j hj => ?_⟩
  · rw [retain_test dbg hi, c1, c2.2 hx, c3]
    simp only [Bool.false_eq_true, if_false, Bool.not_true, ok_bind, Sched.propagateScheduling, k1, e1]
    rfl
  · have e : sch'[j]? = some [] := by
      by_cases c : j = i
      · rw [c]; exact e3 i (List.getElem?_set_self hle)
      · obtain ⟨hj, sp, e, hs⟩ := hj.resolve_left c
        obtain ⟨k, hk, rfl⟩ := k3 j hj c sp e hs
        exact e4 k hk
    refine ⟨e, ?_⟩
    rintro ⟨t, ht⟩
    obtain ⟨x, hx, -⟩ := (slot_get (s := ⟨s.graph, sch'⟩) e t).1 ht
    simp at hx

theorem kept_loose {l u : Int} (hl : Date l) (h : u < l) {s : List Iv} (hs : Loose s) :
    (TSet.containsSet [⟨-INF, l - 1⟩, ⟨u + 1, INF⟩] s = true ↔ ¬ ∃ x ∈ s, x.lower < l ∧ l ≤ x.upper) ∧
    ((∃ x ∈ s, x.lower < l ∧ l ≤ x.upper) → TSet.overlapsSet [⟨-INF, l - 1⟩, ⟨u + 1, INF⟩] s = true) := by
  constructor
  · simp only [TSet.containsSet, List.all_eq_true]
    have one : ∀ x ∈ s, TSet.contains [⟨-INF, l - 1⟩, ⟨u + 1, INF⟩] (.iv x) = true ↔ ¬ (x.lower < l ∧ l ≤ x.upper) := by
      intro x hx
      obtain ⟨x1, x2, x3, x4, x5⟩ := hs.wf x hx
      simp only [TSet.contains, List.find?_cons, show (Convex.iv x).lower = x.lower from rfl]
      by_cases c : l - 1 ≥ x.lower
      · simp only [c, decide_true, Convex.contains, Convex.containsBounds, Bool.and_eq_true, decide_eq_true_eq]
        show -INF ≤ x.lower ∧ x.upper ≤ l - 1 ↔ _
        omega
      · have c' : INF ≥ x.lower := by omega
        simp only [c, c', decide_true, decide_false, Convex.contains, Convex.containsBounds, Bool.and_eq_true, decide_eq_true_eq]
        show u + 1 ≤ x.lower ∧ x.upper ≤ INF ↔ _
        omega
    constructor
    · rintro a ⟨x, hx, c⟩
      exact (one x hx).1 (a x hx) c
    · intro a x hx
      exact (one x hx).2 (fun c => a ⟨x, hx, c⟩)
  · rintro ⟨x, hx, d1, d2⟩
    simp only [TSet.overlapsSet, List.any_eq_true]
    refine ⟨x, hx, ?_⟩
    simp only [TSet.overlaps, List.find?_cons, show (Convex.iv x).lower = x.lower from rfl, show l - 1 ≥ x.lower by omega,
      decide_true, decide_eq_true_eq]
    show -INF ≤ x.upper
    have := hl.1
    omega

/-- **C160**, partial, after any history of requests: `remove(i, a & b)`, when `a` is before `b`, is never refused; it is answered `Ok(Unchanged)`
iff no slot of the instant goes on across the beginning of `b`, and the schedule is then left as it was. Missing: the other slots, see
`C160_reached_violated`. -/
theorem C160_reached_partial (dbg : Bool) {dbg' : Bool} {g : Graph} (hv : Valid g) (hg : Spanned g) {s : Sched} {P : (Nat → Int) → Prop}
    (hp : Planned dbg' g s P) {i : Nat} {si : TSet} (hi : s.scheduling i = some si) {a b : Iv} (ha : WF a) (hb : WF b)
    (h : a.upper < b.lower) :
    ((∃ s', s.remove dbg i (.iv (Iv.inter a (.iv b))) = .ok (s', .unchanged)) ↔ ¬ ∃ x ∈ si, x.lower < b.lower ∧ b.lower ≤ x.upper) ∧
    ((¬ ∃ x ∈ si, x.lower < b.lower ∧ b.lower ≤ x.upper) → s.remove dbg i (.iv (Iv.inter a (.iv b))) = .ok (s, .unchanged)) ∧
    ∀ s', s.remove dbg i (.iv (Iv.inter a (.iv b))) ≠ .ok (s', .recovered) := by
  obtain ⟨-, hl, -⟩ := planned_inv hv hg hp
  obtain ⟨e, d1, d2, -⟩ := before_inter ha hb h
  obtain ⟨k1, k2⟩ := kept_loose d1 h (hl.2 si (List.mem_of_getElem? hi))
  rw [e]
  have t : s.remove dbg i (.iv ⟨b.lower, a.upper⟩) = s.retain dbg i (.set [⟨-INF, b.lower - 1⟩, ⟨a.upper + 1, INF⟩]) := by
    rw [Sched.remove, Negatable.not, compl_wrong d1 d2 h]
  rw [t, retain_test dbg hi]
  simp only [Window.containsSet, Window.overlapsSet]
  by_cases c : ∃ x ∈ si, x.lower < b.lower ∧ b.lower ≤ x.upper
  · have n : TSet.containsSet [⟨-INF, b.lower - 1⟩, ⟨a.upper + 1, INF⟩] si = false := by
      rw [← Bool.not_eq_true, k1]; exact fun f => f c
    simp only [n, k2 c, Bool.false_eq_true, if_false, Bool.not_true, c, not_true_eq_false, iff_false, false_imp_iff, true_and]
    refine ⟨?_, ?_⟩
    · rintro ⟨s', f⟩
      obtain ⟨r, -, f⟩ := bind_inv f
      obtain ⟨r, -, f⟩ := bind_inv f
      cases f
    · intro s' f
      obtain ⟨r, -, f⟩ := bind_inv f
      obtain ⟨r, -, f⟩ := bind_inv f
      cases f
  · have y : TSet.containsSet [⟨-INF, b.lower - 1⟩, ⟨a.upper + 1, INF⟩] si = true := k1.2 c
    simp [c, y]

/-- **C160** is violated after every history of requests, by every slot which goes on across the beginning of `b`, if the slots of the instant show
no interval without a date: no assignment of dates is lost, no date is gained, and the answer is `Ok(Propagated)` (a debug build may also panic
on the slots of other instants). -/
theorem C160_reached_violated (dbg : Bool) {dbg' : Bool} {g : Graph} (hv : Valid g) (hg : Spanned g) {s : Sched} {P : (Nat → Int) → Prop}
    (hp : Planned dbg' g s P) {i : Nat} (hi : i < g.size) {si : TSet} (ei : s.scheduling i = some si) (hc : Canon si) {a b : Iv} (ha : WF a)
    (hb : WF b) (h : a.upper < b.lower) (hx : ∃ x ∈ si, x.lower < b.lower ∧ b.lower ≤ x.upper) :
    (∃ s', s.remove dbg i (.iv (Iv.inter a (.iv b))) = .ok (s', .propagated) ∧ s'.graph = g ∧ (∀ j t, Slot s' j t → Slot s j t) ∧
      ∀ τ, FiniteDates g.size τ → (Feasible τ s' ↔ Sat τ g ∧ P τ)) ∨
    (dbg = true ∧ s.remove dbg i (.iv (Iv.inter a (.iv b))) = .error .debugAssert) := by
  obtain ⟨rfl, hl, feas⟩ := planned_inv hv hg hp
  have ei : s.schedule[i]? = some si := ei
  have hle : i < s.schedule.length := by rw [hl.1]; exact hi
  obtain ⟨e, d1, d2, -⟩ := before_inter ha hb h
  obtain ⟨k1, k2⟩ := kept_loose d1 h hc.loose
  have n : TSet.containsSet [⟨-INF, b.lower - 1⟩, ⟨a.upper + 1, INF⟩] si = false := by
    rw [← Bool.not_eq_true, k1]; exact fun f => f hx
  have same : s.schedule.set i si = s.schedule := by
    apply List.ext_getElem?
    intro j
    rw [List.getElem?_set]
    split
    · subst_vars; rw [ei]
    · rfl
  have run : s.remove dbg i (.iv (Iv.inter a (.iv b))) = (do
      let s' ← Sched.propagateScheduling dbg s i
      return (s', .propagated)) := by
    rw [e, Sched.remove, Negatable.not, compl_wrong d1 d2 h, retain_test dbg ei]
    simp only [Window.containsSet, Window.overlapsSet, Window.restrict, n, k2 hx, Bool.false_eq_true, if_false, Bool.not_true,
      inter_overlapping d1 d2 h hc hx, ok_bind, same]
  obtain ⟨ks, g1, -, g3, -⟩ := C72_from_partial hv hi
  have hks : ∀ k ∈ ks, s.graph.timespan i k.dst = .ok k.span ∧ k.dst < s.graph.size :=
    fun k hk => ⟨(g3 k hk).2.2.2.1, (g3 k hk).2.1⟩
  rw [run]
  unfold Sched.propagateScheduling
  simp only [g1, ok_bind]
  rcases propagateLoop_any dbg (i := i) ks s.schedule hle
    (fun k hk => by
      obtain ⟨ht, hd⟩ := hks k hk
      exact ⟨by rw [hl.1]; exact hd, hg i k.dst hi hd _ ht⟩) hl.2
    with ⟨sch', e1, n1, l1, b1, t1⟩ | ⟨h0, e1⟩
  · left
    have sub : ∀ j t, Slot ⟨s.graph, sch'⟩ j t → Slot s j t := by
      rintro j t ⟨v, hv, ht⟩
      obtain ⟨u, hu, hu'⟩ := b1 j v hv
      exact ⟨u, hu, hu' t ht⟩
    refine ⟨⟨s.graph, sch'⟩, by simp only [e1, ok_bind]; rfl, rfl, sub, fun τ hf => ?_⟩
    rw [← feas τ hf]
    constructor
    · rintro ⟨h1, h2⟩
      exact ⟨h1, fun j hj => sub j _ (h2 j hj)⟩
    · rintro ⟨h1, h2⟩
      refine ⟨h1, fun j hj => ?_⟩
      have hj' : j < sch'.length := by rw [n1, hl.1]; exact hj
      refine ⟨sch'[j], List.getElem?_eq_getElem hj', ?_⟩
      refine t1 τ (fun k hk => ?_) (fun c v hv => ?_) j _ (List.getElem?_eq_getElem hj')
      · obtain ⟨ht, hd⟩ := hks k hk
        obtain ⟨sp, e, h⟩ := h1 i k.dst hi hd
        rw [ht] at e
        cases e
        exact ⟨hf _ hd, h⟩
      · have : c < s.schedule.length := (List.getElem?_eq_some_iff.1 hv).1
        exact (slot_get hv _).1 (h2 c (by rw [← hl.1]; exact this))
  · right
    refine ⟨h0, ?_⟩
    simp only [e1]; rfl

/-- the slots `[0,4]` and `[10,9]`: refused for two intervals on both sides of the slots, accepted inside `[0,4]` -/
example : ∃ s P, Planned false exGraph s P ∧ Valid exGraph ∧ Spanned exGraph ∧ s.scheduling 1 = some [⟨0, 4⟩, ⟨10, 9⟩] ∧
    (∃ t, Slot s 1 t) ∧ s.retain true 1 (.conv (.iv (Iv.inter ⟨3, 9⟩ (.iv ⟨10, 12⟩)))) = .ok (s, .recovered) ∧
    (∃ t, Date t ∧ InIv t ⟨0, 4⟩ ∧ InIv t ⟨-5, 1⟩) ∧ (∃ t, Date t ∧ InIv t ⟨0, 4⟩ ∧ InIv t ⟨3, 9⟩) ∧
    ∃ s', s.retain true 1 (.conv (.iv (Iv.inter ⟨-5, 1⟩ (.iv ⟨3, 9⟩)))) = .ok (s', .propagated) ∧ s'.scheduling 1 = some [] ∧
      s.remove true 1 (.iv (Iv.inter ⟨7, 9⟩ (.iv ⟨10, 12⟩))) = .ok (s, .unchanged) ∧
      s.scheduling 0 = some [⟨-20, -1⟩] ∧ Canon [⟨-20, -1⟩] ∧
      s.remove true 0 (.iv (Iv.inter ⟨-30, -12⟩ (.iv ⟨-10, 5⟩))) = .ok (s, .propagated) := by
  have a0 := Planned.new (dbg := false) (g := exGraph)
  have a1 := a0.accepted (r := .retain 1 (.conv (.iv ⟨0, 9⟩))) (o := .propagated)
    (s' := ⟨exGraph, [[⟨-20, -1⟩], [⟨0, 9⟩], [⟨5, 15⟩]]⟩)
    (by unfold Req.Proper; decide) (by unfold Req.run; decide +kernel) (Or.inr rfl)
  have a2 := a1.accepted (r := .remove 1 (.iv ⟨5, 9⟩)) (o := .propagated)
    (s' := ⟨exGraph, [[⟨-20, -1⟩], [⟨0, 4⟩, ⟨10, 9⟩], [⟨5, 10⟩, ⟨15, 15⟩]]⟩)
    (by unfold Req.Proper; decide) (by unfold Req.run; decide +kernel) (Or.inr rfl)
  exact ⟨_, _, a2, exGraph_valid, exGraph_spanned, rfl, ⟨3, _, rfl, ⟨0, 4⟩, by simp, by decide⟩, by decide +kernel,
    ⟨1, by decide, by decide, by decide⟩, ⟨3, by decide, by decide, by decide⟩, ⟨exGraph, [[], [], []]⟩, by decide +kernel, rfl, by decide +kernel, rfl, by decide, by decide +kernel⟩

end Chrono
