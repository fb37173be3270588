import Verif.Lemmas.SchedAny
import Verif.Lemmas.MirrorSched
import Verif.Props.SetLaws
import Verif.Props.SchedHistory

/-!
# What requests leave lies inside what was there, interval by interval (empty intervals included)
-/

set_option linter.unusedSimpArgs false

namespace Chrono
open Spec

/-- each interval of `a` is inside one of `b` -/
def Inside (a b : List Iv) : Prop := ∀ y ∈ a, ∃ x ∈ b, x.lower ≤ y.lower ∧ y.upper ≤ x.upper

theorem Inside.refl (a : List Iv) : Inside a a := fun y hy => ⟨y, hy, Int.le_refl _, Int.le_refl _⟩

theorem Inside.trans {a b c : List Iv} (h : Inside a b) (h' : Inside b c) : Inside a c := by
  intro y hy
  obtain ⟨x, hx, h1, h2⟩ := h y hy
  obtain ⟨z, hz, h3, h4⟩ := h' x hx
  exact ⟨z, hz, by omega, by omega⟩

def InsideSch (a b : List TSet) : Prop := ∀ (j : Nat) v, a[j]? = some v → ∃ w, b[j]? = some w ∧ Inside v w

theorem InsideSch.refl (a : List TSet) : InsideSch a a := fun _ v h => ⟨v, h, Inside.refl v⟩

theorem InsideSch.trans {a b c : List TSet} (h : InsideSch a b) (h' : InsideSch b c) : InsideSch a c := by
  intro j v hv
  obtain ⟨w, hw, h1⟩ := h j v hv
  obtain ⟨u, hu, h2⟩ := h' j w hw
  exact ⟨u, hu, h1.trans h2⟩

theorem InsideSch.set {a : List TSet} {i : Nat} {v w : TSet} (hw : a[i]? = some w) (h : Inside v w) : InsideSch (a.set i v) a := by
  intro j u hu
  have hl : i < a.length := (List.getElem?_eq_some_iff.1 hw).1
  by_cases c : i = j
  · subst c
    rw [List.getElem?_set_self hl] at hu
    cases hu
    exact ⟨w, hw, h⟩
  · rw [List.getElem?_set_ne c] at hu
    exact ⟨u, hu, Inside.refl u⟩

theorem inter_inside {a b r : List Iv} (ha : Loose a) (hb : Loose b) (h : TSet.inter a b = .ok r) : Inside r a := by
  obtain ⟨r', e, -, h3⟩ := inter_mem ha hb
  rw [h] at e
  cases e
  intro y hy
  obtain ⟨x, hx, z, hz, -, -, rfl⟩ := (h3 y).1 hy
  exact ⟨x, hx, by simp only [InterIter.meet]; omega, by simp only [InterIter.meet]; omega⟩

/-- the intervals left by a convex window -/
theorem interAssign_cut {s : List Iv} (hs : Loose s) (w : Convex) : ∀ y ∈ TSet.interAssignConvex s w,
    w.lower ≤ y.lower ∧ y.upper ≤ w.upper ∧ ∃ x ∈ s, x.lower ≤ y.lower ∧ y.upper ≤ x.upper := by
  intro y hy
  unfold TSet.interAssignConvex at hy
  rw [after_cut (thin_loose hs), before_cut (thin_high (thin_loose hs) _)] at hy
  obtain ⟨z, hz, rfl⟩ := List.mem_map.1 hy
  obtain ⟨hz, h1⟩ := List.mem_filter.1 hz
  obtain ⟨x, hx, rfl⟩ := List.mem_map.1 hz
  obtain ⟨hx, h2⟩ := List.mem_filter.1 hx
  simp only [decide_eq_true_eq] at *
  exact ⟨by omega, by omega, x, hx, by omega, by omega⟩

theorem inside_lower {v w : List Iv} (hw : Loose w) (h : Inside v w) : TSet.lowerBound w ≤ TSet.lowerBound v := by
  cases v with
  | nil =>
    show _ ≤ INF
    cases w with
    | nil => exact Int.le_refl _
    | cons x xs => show x.lower ≤ _; have := (hw.wf x (by simp)).lo_lt; omega
  | cons y ys =>
    obtain ⟨x, hx, h1, -⟩ := h y (by simp)
    have := (loose_bounds hw x hx).1
    show _ ≤ y.lower
    omega

theorem inside_upper {v w : List Iv} (hw : Loose w) (h : Inside v w) : TSet.upperBound v ≤ TSet.upperBound w := by
  rcases List.eq_nil_or_concat v with rfl | ⟨ys, y, rfl⟩
  · show -INF ≤ _
    rcases List.eq_nil_or_concat w with rfl | ⟨xs, x, rfl⟩
    · exact Int.le_refl _
    · have := (hw.wf x (by simp)).lt_hi
      simp only [TSet.upperBound, List.concat_eq_append, List.getLast?_concat]
      omega
  · obtain ⟨x, hx, -, h2⟩ := h y (by simp)
    have := (loose_bounds hw x hx).2
    simp only [TSet.upperBound, List.concat_eq_append, List.getLast?_concat] at *
    omega

/-- the bounds of a set whose intervals are all within those of the window -/
theorem contains_of_parts {w : Convex} {r : List Iv} (hl : w.lower ≤ INF) (hu : -INF ≤ w.upper)
    (h : ∀ y ∈ r, w.lower ≤ y.lower ∧ y.upper ≤ w.upper) : w.containsSet r = true := by
  unfold Convex.containsSet Convex.containsBounds
  simp only [Bool.and_eq_true, decide_eq_true_eq]
  constructor
  · cases r with
    | nil => exact hl
    | cons y ys => exact (h y (by simp)).1
  · rcases List.eq_nil_or_concat r with rfl | ⟨ys, y, rfl⟩
    · exact hu
    · have := (h y (by simp)).2
      simp only [TSet.upperBound, List.concat_eq_append, List.getLast?_concat]
      exact this

theorem contains_inside {w : Convex} {a b : List Iv} (hb : Loose b) (h : Inside a b) (hc : w.containsSet b = true) : w.containsSet a = true := by
  unfold Convex.containsSet Convex.containsBounds at *
  have := inside_lower hb h
  have := inside_upper hb h
  simp only [Bool.and_eq_true, decide_eq_true_eq] at *
  omega

theorem proper_bounds {w : Convex} (h : Proper w) : w.lower ≤ INF ∧ -INF ≤ w.upper := by
  cases w with
  | iv i =>
    rcases h with h | h
    · have := h.lo_lt
      have := h.lt_hi
      simp only [Convex.lower, Convex.upper]
      omega
    · subst h; decide
  | _ =>
    simp only [Proper, Date] at h
    simp only [Convex.lower, Convex.upper, justBefore]
    repeat' split
    all_goals ticks

theorem loop_inside (dbg : Bool) {i : Nat} : ∀ (ks : List Constr) {sch sch' : List TSet}, i < sch.length →
    (∀ k ∈ ks, k.dst < sch.length ∧ WF k.span) → (∀ w ∈ sch, Loose w) →
    ks.foldlM (Sched.propagateOne dbg i) sch = .ok sch' → InsideSch sch' sch
  | [], sch, sch', _, _, _, h => by cases h; exact InsideSch.refl _
  | k :: ks, sch, sch', hi, hk, hl, h => by
    obtain ⟨k1, k2⟩ := hk k (by simp)
    rw [List.foldlM_cons] at h
    rcases propagateOne_any dbg hi k1 hl k2 with ⟨s1, e1, c1, c2, -⟩ | ⟨-, e1⟩
    · rw [e1, ok_bind] at h
      refine (loop_inside dbg ks (by rw [c1]; exact hi) (fun l hl => by rw [c1]; exact hk l (by simp [hl])) c2 h).trans ?_
      have ei : sch[i]? = some sch[i] := List.getElem?_eq_getElem hi
      have ej : sch[k.dst]? = some sch[k.dst] := List.getElem?_eq_getElem k1
      generalize sch[i] = si at ei
      generalize sch[k.dst] = sj at ej
      unfold Sched.propagateOne sget sset at e1
      rw [ej, ei] at e1
      simp only [ok_bind, if_pos k1] at e1
      rcases addSpan_any dbg (hl si (List.mem_of_getElem? ei)) k2 with ⟨T, h1, h2, -⟩ | ⟨-, h1⟩
      · rw [h1, ok_bind] at e1
        cases e2 : TSet.inter sj T with
        | error => rw [e2] at e1; cases e1
        | ok r =>
          rw [e2, ok_bind] at e1
          cases e1
          exact InsideSch.set ej (inter_inside (hl sj (List.mem_of_getElem? ej)) h2.loose e2)
      · rw [h1] at e1; cases e1
    · rw [e1] at h; cases h

theorem retain_inside {dbg : Bool} {s s' : Sched} {o : Outcome} (hv : Valid s.graph) (hs : Spanned s.graph) (hc : LooseSched s) {i : Nat}
    (hi : i < s.graph.size) {w : Window} (hw : ProperWindow w) (h : s.retain dbg i w = .ok (s', o)) :
    InsideSch s'.schedule s.schedule ∧
    (o ≠ .recovered → ∀ v, w = .conv v → ∀ x, s'.schedule[i]? = some x → v.containsSet x = true) := by
  have hl : i < s.schedule.length := by rw [hc.1]; exact hi
  have ei : s.schedule[i]? = some s.schedule[i] := List.getElem?_eq_getElem hl
  have hmem : s.schedule[i] ∈ s.schedule := List.getElem_mem hl
  generalize s.schedule[i] = si at ei hmem
  rw [retain_test dbg ei] at h
  split at h
  · rename_i c1
    cases h
    refine ⟨InsideSch.refl _, fun _ v e x hx => ?_⟩
    subst e
    rw [ei] at hx
    cases hx
    exact c1
  split at h
  · cases h
    exact ⟨InsideSch.refl _, fun h => absurd rfl h⟩
  obtain ⟨r, h1, h2, -, -⟩ := restrict_loose hw (hc.2 si hmem) (within_inf_loose (hc.2 si hmem)) (withinWindow_inf hw)
  rw [h1, ok_bind] at h
  unfold Sched.propagateScheduling at h
  obtain ⟨ks, g1, g2, g3, -⟩ := C72_from_partial hv hi
  simp only [g1, ok_bind] at h
  cases e : ks.foldlM (Sched.propagateOne dbg i) (s.schedule.set i r) with
  | error => rw [e] at h; cases h
  | ok sch =>
    rw [e] at h
    cases h
    have hset : ∀ v ∈ s.schedule.set i r, Loose v := by
      intro v hv
      rcases List.mem_or_eq_of_mem_set hv with h | h
      · exact hc.2 v h
      · rw [h]; exact h2
    have hin := loop_inside dbg ks (by rw [List.length_set]; exact hl) (fun k hk => by
      obtain ⟨-, hd, -, ht, -⟩ := g3 k hk
      exact ⟨by rw [List.length_set, hc.1]; exact hd, hs i k.dst hi hd _ ht⟩) hset e
    have hri : Inside r si := by
      cases w with
      | set q => exact inter_inside (hc.2 si hmem) (Canon.loose hw) h1
      | conv v =>
        cases h1
        exact fun y hy => (interAssign_cut (hc.2 si hmem) v y hy).2.2
    refine ⟨hin.trans (InsideSch.set ei hri), fun _ v ev x hx => ?_⟩
    subst ev
    cases h1
    obtain ⟨u, hu, hxu⟩ := hin i x hx
    rw [List.getElem?_set_self hl] at hu
    cases hu
    have pb := proper_bounds hw
    exact contains_inside h2 hxu (contains_of_parts pb.1 pb.2 (fun y hy => by
      have := interAssign_cut (hc.2 si hmem) v y hy
      exact ⟨this.1, this.2.1⟩))

theorem retainAll_inside {dbg : Bool} {w : Convex} (hp : Proper w) : ∀ (l : List Nat) (s : Sched) (o : Outcome) (s' : Sched) (o' : Outcome),
    Valid s.graph → Spanned s.graph → LooseSched s → (∀ i ∈ l, i < s.graph.size) →
    l.foldlM (fun (p : Sched × Outcome) i => do
        match ← Sched.retain dbg p.1 i (.conv w) with
        | (s, .unchanged) => return (s, p.2)
        | (s, .propagated) => return (s, .propagated)
        | _ => .error .unwrapNone) (s, o) = .ok (s', o') →
    LooseSched s' ∧ InsideSch s'.schedule s.schedule ∧ ∀ i ∈ l, ∀ x, s'.schedule[i]? = some x → w.containsSet x = true
  | [], s, o, s', o', _, _, hl, _, h => by cases h; exact ⟨hl, InsideSch.refl _, by simp⟩
  | i :: l, s, o, s', o', hv, hs, hl, hi, h => by
    have hii := hi i (by simp)
    rw [List.foldlM_cons] at h
    rcases retain_any dbg hv hs hl hii (w := .conv w) hp with ⟨s1, o1, a1, R⟩ | ⟨h0, h1⟩
    · obtain ⟨c1, c2⟩ := retain_inside hv hs hl hii (w := .conv w) hp a1
      have rest := fun o => retainAll_inside (dbg := dbg) hp l s1 o s' o' (by rw [R.graph]; exact hv) (by rw [R.graph]; exact hs) R.loose
        (fun i hi' => by rw [R.graph]; exact hi i (by simp [hi']))
      have fin : o1 ≠ .recovered → (LooseSched s' ∧ InsideSch s'.schedule s1.schedule ∧
          ∀ i ∈ l, ∀ x, s'.schedule[i]? = some x → w.containsSet x = true) →
          LooseSched s' ∧ InsideSch s'.schedule s.schedule ∧ ∀ j ∈ i :: l, ∀ x, s'.schedule[j]? = some x → w.containsSet x = true := by
        rintro ho ⟨d1, d2, d3⟩
        refine ⟨d1, d2.trans c1, fun j hj x hx => ?_⟩
        rcases List.mem_cons.1 hj with rfl | hj
        · obtain ⟨u, hu, hxu⟩ := d2 j x hx
          exact contains_inside (R.loose.2 u (List.mem_of_getElem? hu)) hxu (c2 ho w rfl u hu)
        · exact d3 j hj x hx
      simp only [a1, ok_bind] at h
      cases o1 with
      | unchanged => exact fin (by decide) (rest _ h)
      | propagated => exact fin (by decide) (rest _ h)
      | recovered => cases h
      | fatal => cases h
    · simp only [h1] at h
      cases h

/-- the window (or windows) a request tests by its bounds -/
def Spec.Req.Bounded (s' : Sched) : Req → Prop
  | .retain i (.conv v) => ∀ x, s'.schedule[i]? = some x → v.containsSet x = true
  | .retain _ (.set _) => True
  | .remove _ _ => True
  | .deadline d => ∀ x ∈ s'.schedule, (Convex.rangeToIncl d).containsSet x = true
  | .startline d => ∀ x ∈ s'.schedule, (Convex.rangeFrom d).containsSet x = true

theorem req_inside {dbg : Bool} {s s' : Sched} {o : Outcome} (hv : Valid s.graph) (hs : Spanned s.graph) (hc : LooseSched s) {r : Req}
    (hr : r.Proper s.graph.size) (h : r.run dbg s = .ok (s', o)) :
    InsideSch s'.schedule s.schedule ∧ (o ≠ .recovered → r.Bounded s') := by
  have line : ∀ w : Convex, Proper w → s.retainAll dbg (.conv w) = .ok (s', o) →
      InsideSch s'.schedule s.schedule ∧ ∀ x ∈ s'.schedule, w.containsSet x = true := by
    intro w hw h
    obtain ⟨b1, b2, b3⟩ := retainAll_inside hw (List.range s.schedule.length) s .unchanged s' o hv hs hc
      (fun i hi => by rw [← hc.1]; exact List.mem_range.1 hi) h
    refine ⟨b2, fun x hx => ?_⟩
    obtain ⟨j, hj⟩ := List.mem_iff_getElem?.1 hx
    obtain ⟨u, hu, -⟩ := b2 j x hj
    exact b3 j (List.mem_range.2 (List.getElem?_eq_some_iff.1 hu).1) x hj
  cases r with
  | retain i w =>
    obtain ⟨a, b⟩ := retain_inside hv hs hc hr.1 hr.2 h
    refine ⟨a, fun ho => ?_⟩
    cases w with
    | conv v => exact b ho v rfl
    | set q => trivial
  | remove i w =>
    obtain ⟨a, -⟩ := retain_inside hv hs hc hr.1 (w := .set w.not) (neg_any hr.2).1 h
    exact ⟨a, fun _ => trivial⟩
  | deadline d =>
    change Sched.setDeadline dbg s d = _ at h
    unfold Sched.setDeadline at h
    split at h
    · cases h; exact ⟨InsideSch.refl _, fun h => absurd rfl h⟩
    · obtain ⟨a, b⟩ := line (.rangeToIncl d) hr h
      exact ⟨a, fun _ => b⟩
  | startline d =>
    change Sched.setStartline dbg s d = _ at h
    unfold Sched.setStartline at h
    split at h
    · cases h; exact ⟨InsideSch.refl _, fun h => absurd rfl h⟩
    · obtain ⟨a, b⟩ := line (.rangeFrom d) hr h
      exact ⟨a, fun _ => b⟩

theorem later_inside {dbg : Bool} {s s' : Sched} (hv : Valid s.graph) (hs : Spanned s.graph) (hc : LooseSched s)
    (h : Later dbg s.graph.size s s') : s'.graph = s.graph ∧ LooseSched s' ∧ InsideSch s'.schedule s.schedule := by
  induction h with
  | now => exact ⟨rfl, hc, InsideSch.refl _⟩
  | @request s1 r s2 o _ hr e ih =>
    obtain ⟨i1, i2, i3⟩ := ih
    have hv1 : Valid s1.graph := by rw [i1]; exact hv
    have hs1 : Spanned s1.graph := by rw [i1]; exact hs
    have hr1 : r.Proper s1.graph.size := by rw [i1]; exact hr
    rcases req_any dbg hv1 hs1 i2 hr1 with ⟨s3, o3, e3, S⟩ | ⟨e3, -⟩ | ⟨-, e3⟩ <;> rw [e] at e3 <;> cases e3
    exact ⟨S.graph.trans i1, S.loose, (req_inside hv1 hs1 i2 hr1 e).1.trans i3⟩

theorem inside_slot {a b : List Iv} (ha : Loose a) (hb : Loose b) (h : Inside a b) {t : Int} (ht : InExtSet t a) : InExtSet t b := by
  obtain ⟨y, hy, hin⟩ := ht
  obtain ⟨x, hx, h1, h2⟩ := h y hy
  have := (ha.wf y hy)
  have := (hb.wf x hx)
  refine ⟨x, hx, ?_⟩
  have a1 := (hb.wf x hx).lo
  have a2 := (hb.wf x hx).hi
  simp only [InExt] at *
  omega

theorem inside_overlaps {w : Window} (hw : ProperWindow w) {a b : List Iv} (ha : Loose a) (hb : Loose b) (h : Inside a b)
    (ho : w.overlapsSet a = true) : w.overlapsSet b = true := by
  cases w with
  | conv v =>
    obtain ⟨y, hy, h1, h2⟩ := (overlaps_loose_iff ha).1 ho
    obtain ⟨x, hx, h3, h4⟩ := h y hy
    exact (overlaps_loose_iff hb).2 ⟨x, hx, by omega, by omega⟩
  | set r =>
    have hr : Loose r := Canon.loose hw
    have ho : TSet.overlapsSet r a = true := ho
    show TSet.overlapsSet r b = true
    unfold TSet.overlapsSet at *
    obtain ⟨y, hy, h1⟩ := List.any_eq_true.1 ho
    obtain ⟨z, hz, h1, h2⟩ := (overlaps_loose_iff hr).1 h1
    obtain ⟨x, hx, h3, h4⟩ := h y hy
    simp only [Convex.lower, Convex.upper] at *
    exact List.any_eq_true.2 ⟨x, hx, (overlaps_loose_iff hr).2 ⟨z, hz, by simp only [Convex.lower]; omega, by simp only [Convex.upper]; omega⟩⟩

end Chrono
