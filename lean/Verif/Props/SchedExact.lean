import Verif.Lemmas.SchedExact
import Verif.Props.Scheduler

/-!
# C76, C77 decided outright for the windows which are sets
-/

set_option linter.unusedSimpArgs false

namespace Chrono
open Spec

/-- what the intervals of `a & b` reach through a span -/
theorem parts_reach {a b p : List Iv} (ha : Canon a) (hb : Canon b) (h : TSet.inter a b = .ok p) {sp : Iv} (hsp : WF sp)
    (hf : ∀ x ∈ p, FitsSum x sp) (t : Int) :
    (∃ x ∈ p, InExt t (sumIv x sp)) ↔ (∃ d, InExtSet d p ∧ InExt (t - d) sp) ∨
      ∃ c, SideBySide c a b ∧ InExt (t - c) sp ∧ InExt (t - (c - 1)) sp := by
  obtain ⟨h1, h2⟩ := inter_parts ha hb h
  constructor
  · rintro ⟨x, hx, ht⟩
    rcases h1 x hx with hw | ⟨c, hc, c1, c2, rfl⟩
    · obtain ⟨d, e, hd, he, rfl⟩ := ((addSpan_sum true hw hsp (hf x hx)).2.2 t).1 ht
      exact Or.inl ⟨d, ⟨x, hx, hd⟩, by rwa [show d + e - d = e by omega]⟩
    · exact Or.inr ⟨c, hc, ((sum_junk c1 c2 hsp (hf _ hx)).1 t).1 ht⟩
  · rintro (⟨d, ⟨x, hx, hd⟩, he⟩ | ⟨c, hc, hin⟩)
    · refine ⟨x, hx, ?_⟩
      have := sumIv_in hd he
      rwa [show d + (t - d) = t by omega] at this
    · obtain ⟨hm, c1, c2⟩ := h2 c hc
      exact ⟨_, hm, ((sum_junk c1 c2 hsp (hf _ hm)).1 t).2 hin⟩

/-- when a sum of one of these intervals is empty -/
theorem parts_bad {a b p : List Iv} (ha : Canon a) (hb : Canon b) (h : TSet.inter a b = .ok p) {sp : Iv} (hsp : WF sp)
    (hf : ∀ x ∈ p, FitsSum x sp) :
    (∃ x ∈ p, ¬ WF (sumIv x sp)) ↔ (∃ c, SideBySide c a b) ∧ sp.lower = sp.upper := by
  obtain ⟨h1, h2⟩ := inter_parts ha hb h
  constructor
  · rintro ⟨x, hx, ht⟩
    rcases h1 x hx with hw | ⟨c, hc, c1, c2, rfl⟩
    · exact absurd (addSpan_sum true hw hsp (hf x hx)).2.1 ht
    · refine ⟨⟨c, hc⟩, Classical.byContradiction fun hn => ht ?_⟩
      exact (sum_junk c1 c2 hsp (hf _ hx)).2.2 hn
  · rintro ⟨⟨c, hc⟩, he⟩
    obtain ⟨hm, c1, c2⟩ := h2 c hc
    exact ⟨_, hm, fun hw => (sum_junk c1 c2 hsp (hf _ hm)).2.1 hw he⟩

theorem wf_nonempty {i : Iv} {t : Int} (h : LooseIv i) (ht : InExt t i) : WF i := by
  obtain ⟨l1, l2, l3, l4, l5⟩ := h
  refine ⟨?_, l2, l3, l4, l5⟩
  simp only [InExt] at ht
  ticks

/-- an accepted set, in both builds -/
theorem retain_set {s : Sched} (hv : Valid s.graph) (hz : ZeroDiag s.graph) (hs : Spanned s.graph)
    (hc : CanonSched s) {B W : Int} (hg : Within B s.graph) (hw : WithinSched W s) (hW : W + B < INF)
    {i : Nat} (hi : i < s.graph.size) {r : TSet} (hr : Canon r) (hwr : WithinSet W r) {si : TSet}
    (hsi : s.schedule[i]? = some si) (c1 : Window.containsSet (.set r) si = false)
    (c2 : Window.overlapsSet (.set r) si = true) :
    ∃ s' si', s.retain false i (.set r) = .ok (s', .propagated) ∧ s'.schedule[i]? = some si' ∧
      (∀ t, InExtSet t si' ↔ InExtSet t si ∧ InExtSet t r) ∧ ((i = 0 ∧ Canon si') ∨ (i ≠ 0 ∧ TSet.inter si r = .ok si')) ∧
      (∀ j, j < s.graph.size → j ≠ i → ∃ w w' sp, s.schedule[j]? = some w ∧ s'.schedule[j]? = some w' ∧
        s.graph.timespan i j = .ok sp ∧
        ∀ t, InExtSet t w' ↔ InExtSet t w ∧ ((∃ a, InExtSet a si' ∧ InExt (t - a) sp) ∨
          (i ≠ 0 ∧ ∃ c, SideBySide c si r ∧ InExt (t - c) sp ∧ InExt (t - (c - 1)) sp))) ∧
      (((∃ c, SideBySide c si r) ∧ (i = 0 ∨ ∃ j, j < s.graph.size ∧ j ≠ i ∧ ∃ d, s.graph.timespan i j = .ok ⟨d, d⟩)) →
        s.retain true i (.set r) = .error .debugAssert) ∧
      (¬ ((∃ c, SideBySide c si r) ∧ (i = 0 ∨ ∃ j, j < s.graph.size ∧ j ≠ i ∧ ∃ d, s.graph.timespan i j = .ok ⟨d, d⟩)) →
        s.retain true i (.set r) = .ok (s', .propagated)) := by
  obtain ⟨si0, e0, ci, hmem⟩ := sched_get hc hi
  rw [hsi] at e0; cases e0
  have hl : i < s.schedule.length := by rw [hc.1]; exact hi
  obtain ⟨p, h1, h2, h3, h4⟩ := restrict_loose (w := .set r) hr ci.loose (hw si hmem) hwr
  have h1' : TSet.inter si r = .ok p := h1
  obtain ⟨q, hq⟩ : ∃ q, InExtSet q p := by
    obtain ⟨t, ht1, ht2⟩ := (overlaps_ext (w := .set r) hr ci (fun v e => by cases e)).1 c2
    exact ⟨t, (h4 t).2 ⟨ht1, ht2⟩⟩
  obtain ⟨k0, ks, f1, f2, f3⟩ := C72_first_violated.1 s.graph hv i hi
  obtain ⟨ks', g1, g2, g3, g4⟩ := C72_from_partial hv hi
  rw [f1] at g1
  cases g1
  have run : ∀ dbg, s.retain dbg i (.set r) = (do
      let sch ← (k0 :: ks).foldlM (Sched.propagateOne dbg i) (s.schedule.set i p)
      return (⟨s.graph, sch⟩, .propagated)) := by
    intro dbg
    rw [retain_test dbg hsi, c1, c2]
    simp only [Bool.false_eq_true, if_false, Bool.not_true, h1, ok_bind, Sched.propagateScheduling, f1]
    cases (k0 :: ks).foldlM (Sched.propagateOne dbg i) (s.schedule.set i p) <;> rfl
  have get : ∀ j, j < s.graph.size → ∃ w, s.schedule[j]? = some w ∧ Canon w := by
    intro j hj
    obtain ⟨w, e, c, -⟩ := sched_get hc hj
    exact ⟨w, e, c⟩
  have spans : ∀ k ∈ k0 :: ks, k.dst < s.graph.size ∧ s.graph.timespan i k.dst = .ok k.span ∧ WF k.span ∧
      ∀ x : Iv, ((x.lower = -INF ∨ (-W ≤ x.lower ∧ x.lower ≤ W)) ∧ (x.upper = INF ∨ (-W ≤ x.upper ∧ x.upper ≤ W))) →
        FitsSum x k.span := by
    intro k hk
    obtain ⟨-, hd, -, ht, -⟩ := g3 k hk
    exact ⟨hd, ht, hs i k.dst hi hd _ ht, fun x hx => fits_of_within hW hx (hg i k.dst hi hd _ ht)⟩
  have free : ∀ j, j < s.graph.size → j ≠ i → (∀ k ∈ k0 :: ks, k.dst ≠ j) → s.graph.timespan i j = .ok ⟨-INF, INF⟩ := by
    intro j hj hji hno
    rw [timespan_eq hv hi hj]
    refine Classical.byContradiction fun hn => ?_
    obtain ⟨k, hk, e⟩ := g4 j hj hji _ (timespan_eq hv hi hj) (fun e => hn (by rw [e]))
    exact hno k hk e
  by_cases i0 : i = 0
  · -- the first step cleans the slots of instant 0
    have hsp0 : k0.span = ⟨0, 0⟩ := by
      have ht := (spans k0 (by simp)).2.1
      rw [f3, ← i0, hz i hi] at ht
      injection ht with ht
      exact ht.symm
    have ei : (s.schedule.set i p)[i]? = some p := List.getElem?_set_self hl
    obtain ⟨T, t1, t2, t3⟩ := propagateOne_self (k := k0) (f3.trans i0.symm) hsp0 ei h2
    have hTW : WithinSet W T := within_inter t2 (hw si hmem) hwr (fun t => by rw [t3]; exact h4 t)
    have e1 : (s.schedule.set i p).set i T = s.schedule.set i T := by rw [List.set_set]
    have eiT : (s.schedule.set i T)[i]? = some T := List.getElem?_set_self hl
    rw [List.pairwise_cons] at g2
    have hk : ∀ k ∈ ks, (∃ w, (s.schedule.set i T)[k.dst]? = some w ∧ Loose w) ∧ WF k.span ∧
        (∀ x ∈ T, FitsSum x k.span) ∧ k.dst ≠ i := by
      intro k hk
      obtain ⟨a1, a2, a3, a4⟩ := spans k (by simp [hk])
      have := g2.1 k hk
      obtain ⟨w, e, c⟩ := get k.dst a1
      exact ⟨⟨w, by rw [List.getElem?_set_ne (by omega), e], c.loose⟩, a3, fun x hx => a4 x (hTW x hx), by omega⟩
    obtain ⟨sch', m1, m2, m3, m4, m5, -⟩ := propagateLoop_pieces t2.loose ks (s.schedule.set i T) eiT g2.2 hk
    have m0 := m5 (fun k hk' x hx => (addSpan_sum true (t2.wf x hx) (hk k hk').2.1 ((hk k hk').2.2.1 x hx)).2.1)
    have pi : sch'[i]? = some T := by rw [m3 i (fun k hk' => (hk k hk').2.2.2), eiT]
    obtain ⟨d1, d2⟩ := propagateOne_dbg (k := k0) (i := i) (sch := s.schedule.set i p) (sj := p)
      (by rw [f3, ← i0]; exact ei) ei h2 (by rw [hsp0]; decide) (fun x hx => (spans k0 (by simp)).2.2.2 x (h3 x hx))
    have bad := parts_bad ci hr h1' (sp := k0.span) (by rw [hsp0]; decide) (fun x hx => (spans k0 (by simp)).2.2.2 x (h3 x hx))
    refine ⟨⟨s.graph, sch'⟩, T, ?_, pi, fun t => (t3 t).trans (h4 t), Or.inl ⟨i0, t2⟩, fun j hj hji => ?_, fun hcond => ?_, fun hcond => ?_⟩
    · rw [run, List.foldlM_cons, t1, ok_bind, e1, m1]; rfl
    · obtain ⟨w, ew, cw⟩ := get j hj
      by_cases c : ∃ k ∈ ks, k.dst = j
      · obtain ⟨k, hk', rfl⟩ := c
        obtain ⟨v, v', q1, q2, q3⟩ := m4 k hk'
        rw [List.getElem?_set_ne (fun e => hji e.symm), ew] at q1
        cases q1
        refine ⟨w, v', k.span, ew, q2, (spans k (by simp [hk'])).2.1, fun t => ?_⟩
        rw [q3]
        refine and_congr_right fun _ => ?_
        constructor
        · rintro ⟨x, hx, ht⟩
          obtain ⟨d, e, hd, he, rfl⟩ := ((addSpan_sum true (t2.wf x hx) (hk k hk').2.1 ((hk k hk').2.2.1 x hx)).2.2 t).1 ht
          exact Or.inl ⟨d, ⟨x, hx, hd⟩, by rwa [show d + e - d = e by omega]⟩
        · rintro (⟨d, ⟨x, hx, hd⟩, he⟩ | ⟨h, -⟩)
          · refine ⟨x, hx, ?_⟩
            have := sumIv_in hd he
            rwa [show d + (t - d) = t by omega] at this
          · exact absurd i0 h
      · have hno : ∀ k ∈ ks, k.dst ≠ j := fun k hk e => c ⟨k, hk, e⟩
        refine ⟨w, w, _, ew, ?_, free j hj hji (fun k hk' => ?_), fun t => ?_⟩
        · show sch'[j]? = _
          rw [m3 j hno, List.getElem?_set_ne (fun e => hji e.symm), ew]
        · rcases List.mem_cons.1 hk' with rfl | hk'
          · omega
          · exact hno k hk'
        · exact ⟨fun h => ⟨h, Or.inl ⟨q, (t3 q).2 hq, Or.inl rfl, Or.inl rfl⟩⟩, fun h => h.1⟩
    · rw [run, List.foldlM_cons, d2 (bad.2 ⟨hcond.1, by rw [hsp0]⟩)]; rfl
    · have : ∀ x ∈ p, WF (sumIv x k0.span) := fun x hx => Classical.byContradiction fun hn =>
        hcond ⟨(bad.1 ⟨x, hx, hn⟩).1, Or.inl i0⟩
      rw [run, List.foldlM_cons, d1 this, t1, ok_bind, e1, m0]; rfl
  · have ei : (s.schedule.set i p)[i]? = some p := List.getElem?_set_self hl
    have hdi : ∀ k ∈ k0 :: ks, k.dst ≠ i := by
      intro k hk e
      exact ((g3 k hk).2.2.2.2 (by omega)).1 e
    have hk : ∀ k ∈ k0 :: ks, (∃ w, (s.schedule.set i p)[k.dst]? = some w ∧ Loose w) ∧ WF k.span ∧
        (∀ x ∈ p, FitsSum x k.span) ∧ k.dst ≠ i := by
      intro k hk
      obtain ⟨a1, a2, a3, a4⟩ := spans k hk
      obtain ⟨w, e, c⟩ := get k.dst a1
      have := hdi k hk
      exact ⟨⟨w, by rw [List.getElem?_set_ne (fun e => this e.symm), e], c.loose⟩, a3, fun x hx => a4 x (h3 x hx), this⟩
    obtain ⟨sch', m1, m2, m3, m4, m5, m6⟩ := propagateLoop_pieces h2 (k0 :: ks) (s.schedule.set i p) ei g2 hk
    have pi : sch'[i]? = some p := by rw [m3 i hdi, ei]
    refine ⟨⟨s.graph, sch'⟩, p, ?_, pi, h4, Or.inr ⟨i0, h1'⟩, fun j hj hji => ?_, fun hcond => ?_, fun hcond => ?_⟩
    · rw [run, m1]; rfl
    · obtain ⟨w, ew, cw⟩ := get j hj
      by_cases c : ∃ k ∈ k0 :: ks, k.dst = j
      · obtain ⟨k, hk', rfl⟩ := c
        obtain ⟨v, v', q1, q2, q3⟩ := m4 k hk'
        rw [List.getElem?_set_ne (fun e => hji e.symm), ew] at q1
        cases q1
        refine ⟨w, v', k.span, ew, q2, (spans k hk').2.1, fun t => ?_⟩
        rw [q3, parts_reach ci hr h1' (hk k hk').2.1 (hk k hk').2.2.1]
        refine and_congr_right fun _ => or_congr_right ?_
        exact ⟨fun h => ⟨i0, h⟩, fun h => h.2⟩
      · have hno : ∀ k ∈ k0 :: ks, k.dst ≠ j := fun k hk e => c ⟨k, hk, e⟩
        refine ⟨w, w, _, ew, ?_, free j hj hji hno, fun t => ?_⟩
        · show sch'[j]? = _
          rw [m3 j hno, List.getElem?_set_ne (fun e => hji e.symm), ew]
        · exact ⟨fun h => ⟨h, Or.inl ⟨q, hq, Or.inl rfl, Or.inl rfl⟩⟩, fun h => h.1⟩
    · rw [run]
      obtain ⟨hb, h | ⟨j, hj, hji, d, hd⟩⟩ := hcond
      · exact absurd h i0
      · have hkj : ∃ k ∈ k0 :: ks, k.dst = j := g4 j hj hji _ hd (fun e => by
          have e1 := congrArg Iv.lower e
          have e2 := congrArg Iv.upper e
          simp only at e1 e2
          ticks)
        obtain ⟨k, hk', rfl⟩ := hkj
        have hsp : k.span = ⟨d, d⟩ := by
          have := (spans k hk').2.1
          rw [hd] at this
          injection this with this
          exact this.symm
        have := (parts_bad ci hr h1' (hk k hk').2.1 (hk k hk').2.2.1).2 ⟨hb, by rw [hsp]⟩
        rw [m6 ⟨k, hk', this⟩]; rfl
    · rw [run, m5 (fun k hk' x hx => Classical.byContradiction fun hn => ?_)]; rfl
      obtain ⟨hb, he⟩ := (parts_bad ci hr h1' (hk k hk').2.1 (hk k hk').2.2.1).1 ⟨x, hx, hn⟩
      refine hcond ⟨hb, Or.inr ⟨k.dst, (spans k hk').1, hdi k hk', k.span.lower, ?_⟩⟩
      rw [(spans k hk').2.1]
      congr 1
      cases hsp : k.span
      rw [hsp] at he
      simp only at he ⊢
      rw [he]

theorem border_get {s : Sched} {i : Nat} {w r : TSet} (h : s.schedule[i]? = some w) (c : Int) :
    Border s i r c ↔ SideBySide c w r := by
  unfold Border Sched.scheduling
  rw [h]
  exact ⟨fun ⟨_, e, h⟩ => by cases e; exact h, fun h => ⟨w, rfl, h⟩⟩

/-- C77 decided outright for the windows which are sets, in a release build. The dates of `i` are exactly the previous ones which
are in the set. Those of another instant `j` are exactly the previous ones which are at an allowed delay from one of the dates
of `i`, and also, unless `i` is instant 0, those at an allowed delay from both of the points `c - 1` and `c` where an interval of
the previous slots of `i` and an interval of the set are side by side, even though none of these points may be left. -/
theorem C77_retain_exact {s : Sched} (hv : Valid s.graph) (hz : ZeroDiag s.graph) (hs : Spanned s.graph)
    (hc : CanonSched s) {B W : Int} (hg : Within B s.graph) (hw : WithinSched W s) (hW : W + B < INF)
    {i : Nat} (hi : i < s.graph.size) {r : TSet} (hr : Canon r) (hwr : WithinSet W r)
    {s' : Sched} (h : s.retain false i (.set r) = .ok (s', .propagated)) :
    (∀ t, Slot s' i t ↔ Slot s i t ∧ InExtSet t r) ∧
    ∀ j, j < s.graph.size → j ≠ i → ∃ sp, s.graph.timespan i j = .ok sp ∧
      ∀ t, Slot s' j t ↔ Slot s j t ∧ ((∃ a, Slot s' i a ∧ InExt (t - a) sp) ∨
        (i ≠ 0 ∧ ∃ c, Border s i r c ∧ InExt (t - c) sp ∧ InExt (t - (c - 1)) sp)) := by
  obtain ⟨si, e, -, -⟩ := sched_get hc hi
  have c1 : Window.containsSet (.set r) si = false := by
    rw [← Bool.not_eq_true]
    intro c
    rw [retain_test _ e, if_pos c] at h; cases h
  have c2 : Window.overlapsSet (.set r) si = true := by
    rw [← Bool.not_eq_false]
    intro c
    rw [retain_test _ e, c1, c] at h; cases h
  obtain ⟨s1, si', a1, a2, a3, -, a4, -⟩ := retain_set hv hz hs hc hg hw hW hi hr hwr e c1 c2
  rw [h] at a1
  cases a1
  refine ⟨fun t => by rw [slot_get a2, slot_get e, a3], fun j hj hji => ?_⟩
  obtain ⟨w, w', sp, b1, b2, b3, b4⟩ := a4 j hj hji
  refine ⟨sp, b3, fun t => ?_⟩
  rw [slot_get b2, slot_get b1, b4]
  simp only [slot_get a2, border_get e]

/-- C76 decided outright for the windows which are sets, in a debug build: the call does what it does in a release build, except
that it stops with a failed debug assertion iff it would be accepted, an interval of the slots and an interval of the
set are side by side, and `i` is instant 0 or is at a fixed delay from another instant. -/
theorem C76_debug_exact {s : Sched} (hv : Valid s.graph) (hz : ZeroDiag s.graph) (hs : Spanned s.graph)
    (hc : CanonSched s) {B W : Int} (hg : Within B s.graph) (hw : WithinSched W s) (hW : W + B < INF)
    {i : Nat} (hi : i < s.graph.size) {r : TSet} (hr : Canon r) (hwr : WithinSet W r) :
    ∃ s' o, s.retain false i (.set r) = .ok (s', o) ∧
      (s.retain true i (.set r) = .error .debugAssert ↔ o = .propagated ∧ (∃ c, Border s i r c) ∧
        (i = 0 ∨ ∃ j, j < s.graph.size ∧ j ≠ i ∧ ∃ d, s.graph.timespan i j = .ok ⟨d, d⟩)) ∧
      (s.retain true i (.set r) ≠ .error .debugAssert → s.retain true i (.set r) = .ok (s', o)) := by
  obtain ⟨si, e, -, -⟩ := sched_get hc hi
  cases c1 : Window.containsSet (.set r) si with
  | true =>
    have : ∀ dbg, s.retain dbg i (.set r) = .ok (s, .unchanged) := fun dbg => by rw [retain_test _ e, if_pos c1]
    exact ⟨s, _, this false, by rw [this]; exact ⟨fun h => (nomatch h), fun h => (nomatch h.1)⟩, fun _ => this true⟩
  | false =>
    cases c2 : Window.overlapsSet (.set r) si with
    | false =>
      have : ∀ dbg, s.retain dbg i (.set r) = .ok (s, .recovered) := fun dbg => by rw [retain_test _ e, c1, c2]; rfl
      exact ⟨s, _, this false, by rw [this]; exact ⟨fun h => (nomatch h), fun h => (nomatch h.1)⟩, fun _ => this true⟩
    | true =>
      obtain ⟨s1, si', a1, -, -, -, -, a5, a6⟩ := retain_set hv hz hs hc hg hw hW hi hr hwr e c1 c2
      refine ⟨s1, _, a1, ?_, fun hn => ?_⟩
      · simp only [border_get e, true_and]
        constructor
        · intro h
          refine Classical.byContradiction fun hn => ?_
          rw [a6 hn] at h; cases h
        · exact a5
      · refine a6 (fun hcond => hn (a5 hcond))

/-! ## `remove` -/

theorem edge_lower {A : List Iv} (hA : Canon A) {c : Int} :
    (∃ z ∈ A, z.lower = c) ↔ InSet c A ∧ ¬ InSet (c - 1) A := by
  constructor
  · rintro ⟨z, hz, rfl⟩
    refine ⟨⟨z, hz, Int.le_refl _, (hA.wf z hz).le⟩, ?_⟩
    rintro ⟨y, hy, h1, h2⟩
    have := (hA.wf z hz).le
    rcases canon_sep hA hz hy with e | e | e
    · subst e; omega
    · omega
    · omega
  · rintro ⟨⟨z, hz, h1, h2⟩, hn⟩
    refine ⟨z, hz, Classical.byContradiction fun hne => hn ⟨z, hz, by omega, by omega⟩⟩

theorem edge_upper {A : List Iv} (hA : Canon A) {c : Int} :
    (∃ z ∈ A, z.upper + 1 = c) ↔ InSet (c - 1) A ∧ ¬ InSet c A := by
  constructor
  · rintro ⟨z, hz, rfl⟩
    have hle := (hA.wf z hz).le
    refine ⟨⟨z, hz, by omega, by omega⟩, ?_⟩
    rintro ⟨y, hy, h1, h2⟩
    rcases canon_sep hA hz hy with e | e | e
    · subst e; omega
    · omega
    · omega
  · rintro ⟨⟨z, hz, h1, h2⟩, hn⟩
    refine ⟨z, hz, Classical.byContradiction fun hne => hn ⟨z, hz, by omega, by omega⟩⟩

theorem partsOf_spec {w : Negatable} (hw : ProperNeg w) {W : Int} (hW : WithinNeg W w) :
    Canon (partsOf w) ∧ WithinSet W (partsOf w) ∧ ∀ t, InExtSet t (partsOf w) ↔ InExtNeg t w := by
  cases w with
  | set s => exact ⟨hw, hW, fun _ => Iff.rfl⟩
  | point p =>
    have hd : Date p := hw
    refine ⟨canon_one (wf_point hd), fun i hi => ?_, fun t => ?_⟩
    · rw [List.mem_singleton.1 hi]; exact ⟨Or.inr hW, Or.inr hW⟩
    · show InExtSet t [⟨p, p⟩] ↔ t = p
      rw [extSet_one]
      simp only [InExt]
      have := hd.1
      have := hd.2
      omega
  | iv i =>
    show Canon (if i = ⟨INF, -INF⟩ then [] else [i]) ∧ WithinSet W (if i = ⟨INF, -INF⟩ then [] else [i]) ∧
      ∀ t, InExtSet t (if i = ⟨INF, -INF⟩ then [] else [i]) ↔ InExt t i
    by_cases e : i = ⟨INF, -INF⟩
    · rw [if_pos e]
      refine ⟨Canon_nil, fun i hi => by simp at hi, fun t => ⟨fun ⟨_, h, _⟩ => by simp at h, fun h => ?_⟩⟩
      rw [e] at h
      simp only [InExt] at h
      ticks
    · rw [if_neg e]
      have hwf : WF i := hw.resolve_right e
      exact ⟨canon_one hwf, hW.resolve_left e, fun t => extSet_one⟩

/-- the slots and the complement of what is removed are side by side where the slots and what is removed are flush -/
theorem border_flush {s : Sched} (hc : CanonSched s) {i : Nat} (hi : i < s.graph.size) {w : Negatable} (hpw : ProperNeg w)
    {W : Int} (hww : WithinNeg W w) (hW : W + 1 < INF) (c : Int) : Border s i w.not c ↔ Flush s i w c := by
  obtain ⟨v, e, cv, -⟩ := sched_get hc hi
  obtain ⟨k1, k2, k3⟩ := neg_spec hpw hww hW
  obtain ⟨p1, p2, p3⟩ := partsOf_spec hpw hww
  have pts : ∀ t, Date t → (InSet t w.not ↔ ¬ InSet t (partsOf w)) := by
    intro t ht
    rw [← inExtSet_date k1.wf ht, ← inExtSet_date p1.wf ht, k3, p3]
  have lhs : Border s i w.not c ↔ (∃ x ∈ v, x.upper + 1 = c) ∧ (∃ z ∈ w.not, z.lower = c) ∨
      (∃ x ∈ v, x.lower = c) ∧ ∃ z ∈ w.not, z.upper + 1 = c := by
    rw [border_get e]
    constructor
    · rintro ⟨x, hx, z, hz, ⟨h1, h2⟩ | ⟨h1, h2⟩⟩
      · exact Or.inl ⟨⟨x, hx, h1⟩, ⟨z, hz, h2⟩⟩
      · exact Or.inr ⟨⟨x, hx, h2⟩, ⟨z, hz, h1⟩⟩
    · rintro (⟨⟨x, hx, h1⟩, ⟨z, hz, h2⟩⟩ | ⟨⟨x, hx, h1⟩, ⟨z, hz, h2⟩⟩)
      · exact ⟨x, hx, z, hz, Or.inl ⟨h1, h2⟩⟩
      · exact ⟨x, hx, z, hz, Or.inr ⟨h2, h1⟩⟩
  have rhs : Flush s i w c ↔ Date c ∧ ((∃ x ∈ v, x.upper + 1 = c) ∧ (∃ y ∈ partsOf w, y.upper + 1 = c) ∨
      (∃ x ∈ v, x.lower = c) ∧ ∃ y ∈ partsOf w, y.lower = c) := by
    unfold Flush Sched.scheduling
    rw [e]
    refine and_congr_right fun _ => ?_
    constructor
    · rintro ⟨_, e, x, hx, z, hz, ⟨h1, h2⟩ | ⟨h1, h2⟩⟩ <;> cases e
      · exact Or.inl ⟨⟨x, hx, h1⟩, ⟨z, hz, h2⟩⟩
      · exact Or.inr ⟨⟨x, hx, h1⟩, ⟨z, hz, h2⟩⟩
    · rintro (⟨⟨x, hx, h1⟩, ⟨z, hz, h2⟩⟩ | ⟨⟨x, hx, h1⟩, ⟨z, hz, h2⟩⟩)
      · exact ⟨v, rfl, x, hx, z, hz, Or.inl ⟨h1, h2⟩⟩
      · exact ⟨v, rfl, x, hx, z, hz, Or.inr ⟨h1, h2⟩⟩
  rw [lhs, rhs]
  by_cases hd : Date c ∧ Date (c - 1)
  · rw [edge_lower k1, edge_upper k1, edge_lower p1, edge_upper p1, pts c hd.1, pts (c - 1) hd.2]
    simp only [hd.1, true_and, Classical.not_not]
    grind
  · have hno : NoExtreme (partsOf w) := noExtreme_of_within hW p2
    constructor
    · rintro (⟨⟨x, hx, h1⟩, ⟨z, hz, h2⟩⟩ | ⟨⟨x, hx, h1⟩, ⟨z, hz, h2⟩⟩)
      · exfalso
        have := (cv.wf x hx).lt_hi
        have := (k1.wf z hz).lo_lt
        exact hd ⟨by ticks, by ticks⟩
      · exfalso
        have := (cv.wf x hx).lo_lt
        have := (k1.wf z hz).lt_hi
        exact hd ⟨by ticks, by ticks⟩
    · rintro ⟨hc', (⟨⟨x, hx, h1⟩, ⟨z, hz, h2⟩⟩ | ⟨⟨x, hx, h1⟩, ⟨z, hz, h2⟩⟩)⟩
      · exfalso
        have := (p1.wf z hz).lt_hi
        exact hd ⟨hc', by ticks⟩
      · exfalso
        have := (hno z hz).1
        exact hd ⟨hc', by ticks⟩

/-- C77 decided outright for `remove`, in a release build. The dates of `i` are exactly the previous ones which are not removed. Those
of another instant `j` are exactly the previous ones which are at an allowed delay from one of the dates of `i`, and also,
unless `i` is instant 0, those at an allowed delay from both of the points `c - 1` and `c` where an interval of the previous
slots of `i` and an interval of what is removed end or start together. -/
theorem C77_remove_exact {s : Sched} (hv : Valid s.graph) (hz : ZeroDiag s.graph) (hs : Spanned s.graph)
    (hc : CanonSched s) {B W : Int} (hg : Within B s.graph) (hw : WithinSched W s) (hW : W + B < INF) (hB : 0 ≤ B)
    {i : Nat} (hi : i < s.graph.size) {w : Negatable} (hpw : ProperNeg w) (hww : WithinNeg (W - 1) w)
    {s' : Sched} (h : s.remove false i w = .ok (s', .propagated)) :
    (∀ t, Slot s' i t ↔ Slot s i t ∧ ¬ InExtNeg t w) ∧
    ∀ j, j < s.graph.size → j ≠ i → ∃ sp, s.graph.timespan i j = .ok sp ∧
      ∀ t, Slot s' j t ↔ Slot s j t ∧ ((∃ a, Slot s' i a ∧ InExt (t - a) sp) ∨
        (i ≠ 0 ∧ ∃ c, Flush s i w c ∧ InExt (t - c) sp ∧ InExt (t - (c - 1)) sp)) := by
  obtain ⟨k1, k2, k3⟩ := neg_spec hpw hww (by omega)
  obtain ⟨h1, h2⟩ := C77_retain_exact hv hz hs hc hg hw hW hi k1 (within_mono (by omega) k2) h
  refine ⟨fun t => (h1 t).trans (and_congr_right fun _ => k3 t), fun j hj hji => ?_⟩
  obtain ⟨sp, e, h3⟩ := h2 j hj hji
  refine ⟨sp, e, fun t => ?_⟩
  rw [h3]
  simp only [border_flush hc hi hpw hww (by omega)]

/-- C76 decided outright for `remove`, in a debug build: the call does what it does in a release build, except that it stops
with a failed debug assertion iff it would be accepted, an interval of the slots and an interval of what is removed end or start
together, and `i` is instant 0 or is at a fixed delay from another instant. -/
theorem C76_remove_debug_exact {s : Sched} (hv : Valid s.graph) (hz : ZeroDiag s.graph) (hs : Spanned s.graph)
    (hc : CanonSched s) {B W : Int} (hg : Within B s.graph) (hw : WithinSched W s) (hW : W + B < INF) (hB : 0 ≤ B)
    {i : Nat} (hi : i < s.graph.size) {w : Negatable} (hpw : ProperNeg w) (hww : WithinNeg (W - 1) w) :
    ∃ s' o, s.remove false i w = .ok (s', o) ∧
      (s.remove true i w = .error .debugAssert ↔ o = .propagated ∧ (∃ c, Flush s i w c) ∧
        (i = 0 ∨ ∃ j, j < s.graph.size ∧ j ≠ i ∧ ∃ d, s.graph.timespan i j = .ok ⟨d, d⟩)) ∧
      (s.remove true i w ≠ .error .debugAssert → s.remove true i w = .ok (s', o)) := by
  obtain ⟨k1, k2, k3⟩ := neg_spec hpw hww (by omega)
  have := C76_debug_exact hv hz hs hc hg hw hW hi k1 (within_mono (by omega) k2)
  simp only [border_flush hc hi hpw hww (by omega)] at this
  exact this

example : Valid exGraph ∧ ZeroDiag exGraph ∧ Spanned exGraph ∧ Within 26 exGraph ∧ CanonSched exSched ∧ WithinSched 100 exSched ∧
    100 + 26 < INF ∧ ProperNeg (.iv ⟨20, 29⟩) ∧ WithinNeg (100 - 1) (.iv ⟨20, 29⟩) ∧ Flush exSched 1 (.iv ⟨20, 29⟩) 30 ∧
    exGraph.timespan 1 0 = .ok ⟨-20, -10⟩ ∧
    exSched.remove false 1 (.iv ⟨20, 29⟩) = .ok (⟨exGraph, [[⟨0, 9⟩], [⟨10, 19⟩, ⟨30, 29⟩], [⟨15, 25⟩, ⟨35, 35⟩]]⟩, .propagated) ∧
    exSched.remove true 1 (.iv ⟨20, 29⟩) = exSched.remove false 1 (.iv ⟨20, 29⟩) ∧
    Flush exSched 0 (.iv ⟨5, 9⟩) 10 ∧ exSched.remove true 0 (.iv ⟨5, 9⟩) = .error .debugAssert := by
  refine ⟨exGraph_valid, exGraph_zeroDiag, exGraph_spanned, exGraph_within, by decide, by decide, by decide, by decide,
    by decide, ⟨by decide, [⟨10, 29⟩], rfl, ⟨10, 29⟩, by decide, ⟨20, 29⟩, by decide, by decide⟩, by decide, by decide +kernel,
    by decide +kernel, ⟨by decide, [⟨0, 9⟩], rfl, ⟨0, 9⟩, by decide, ⟨5, 9⟩, by decide, by decide⟩, by decide +kernel⟩

example : Canon [⟨-5, 14⟩, ⟨30, 40⟩] ∧ WithinSet 100 [⟨-5, 14⟩, ⟨30, 40⟩] ∧ Border exSched 1 [⟨-5, 14⟩, ⟨30, 40⟩] 30 ∧
    exSched.retain false 1 (.set [⟨-5, 14⟩, ⟨30, 40⟩]) =
      .ok (⟨exGraph, [[⟨0, 4⟩, ⟨10, 9⟩], [⟨10, 14⟩, ⟨30, 29⟩], [⟨15, 20⟩, ⟨35, 35⟩]]⟩, .propagated) := by
  refine ⟨by decide, by decide, ⟨[⟨10, 29⟩], rfl, ⟨10, 29⟩, by decide, ⟨30, 40⟩, by decide, by decide⟩, by decide +kernel⟩

end Chrono
