import Verif.Props.SchedConvex
import Verif.Props.SchedExact
import Verif.Lemmas.SchedAny

/-!
# C125: the order and the repetition of the requests to a scheduler
-/

set_option linter.unusedSimpArgs false

namespace Chrono
open Spec

/-- an interval schedule consistent with its graph is determined by its feasible assignments -/
theorem conv_unique {V V' : Int} {s s' : Sched} {lo hi lo' hi' : Nat → Int} (h : ConvSched V s lo hi) (h' : ConvSched V' s' lo' hi')
    (hg : s'.graph = s.graph) (hv : Valid s.graph) (hm : Minimal s.graph) (hf : ∀ τ, Feasible τ s ↔ Feasible τ s') : s = s' := by
  have hv' : Valid s'.graph := by rw [hg]; exact hv
  have hm' : Minimal s'.graph := by rw [hg]; exact hm
  have hs : s.schedule = s'.schedule := by
    refine List.ext_getElem? (fun j => ?_)
    by_cases hj : j < s.graph.size
    · have hj' : j < s'.graph.size := by rw [hg]; exact hj
      rw [h.get j hj, h'.get j hj']
      refine congrArg some (canon_extSet (canon_one (h.arc.wf j hj)) (canon_one (h'.arc.wf j hj')) (fun t => ?_))
      rw [extSet_one, extSet_one, ← h.slot hj, ← h'.slot hj']
      constructor
      · intro ht
        obtain ⟨τ, a, rfl⟩ := h.attain hv hm hj ht
        exact ((hf τ).1 a).2 j hj'
      · intro ht
        obtain ⟨τ, a, rfl⟩ := h'.attain hv' hm' hj' ht
        exact ((hf τ).2 a).2 j hj
    · rw [List.getElem?_eq_none (by rw [h.len]; omega), List.getElem?_eq_none (by rw [h'.len, hg]; omega)]
  cases s
  cases s'
  simp only at hg hs
  rw [hg, hs]

/-- a request which holds of all the assignments left is answered `Unchanged` -/
theorem implied_unchanged (dbg : Bool) {s : Sched} (hv : Valid s.graph) (hm : Minimal s.graph) {B W : Int} (hg : Within B s.graph)
    (hB0 : 0 ≤ B) (hW0 : 0 ≤ W) (hB : W + 2 * B < INF) {lo hi : Nat → Int} (hc : ConvSched (W + B) s lo hi) {c : PlanCall}
    (hu : c.Ok s.graph.size W) (ha : ∀ τ, Feasible τ s → c.Allows s.graph.size τ) : c.run dbg s = .ok (s, .unchanged) := by
  obtain ⟨s', o, h1, -, -, h4⟩ := plan_step dbg hv hm hg hB0 hW0 hB hc hu
  have ho : o ≠ .recovered := by
    rcases h4 with ⟨-, -, a⟩ | ⟨a, -⟩
    · obtain ⟨τ, hτ⟩ := hc.exists_feasible hv hm
      exact absurd ⟨τ, hτ, ha τ hτ⟩ a
    · rintro rfl
      rcases a with a | a <;> cases a
  -- a window which holds of all the feasible dates of an instant contains its slots
  have con : ∀ (w : Convex) (i : Nat), Proper w → i < s.graph.size → (∀ τ, Feasible τ s → InExtConvex (τ i) w) →
      Window.containsSet (.conv w) [⟨lo i, hi i⟩] = true := by
    intro w i hp hi' ht
    refine (contains_ext (w := .conv w) hp (canon_one (hc.arc.wf i hi'))).2 (fun t h => ?_)
    obtain ⟨τ, a, rfl⟩ := hc.attain hv hm hi' ((slot_get (hc.get i hi') t).2 h)
    exact ht τ a
  have all : ∀ (w : Convex), Proper w → (∀ τ, Feasible τ s → ∀ i, i < s.graph.size → InExtConvex (τ i) w) →
      s.retainAll dbg (.conv w) = .ok (s, .unchanged) := by
    intro w hp ht
    refine (retainAll_unchanged dbg s w).2.2 (fun x hx => ?_)
    obtain ⟨i, hi'⟩ := List.mem_iff_getElem?.1 hx
    have hl : i < s.graph.size := by rw [← hc.len]; exact (List.getElem?_eq_some_iff.1 hi').1
    rw [hc.get i hl] at hi'
    cases hi'
    exact con w i hp hl (fun τ hτ => ht τ hτ i hl)
  cases c with
  | retain i w =>
    obtain ⟨hi', hp, -, -⟩ := hu
    show s.retain dbg i (.conv w) = _
    rw [retain_test dbg (hc.get i hi'), if_pos (con w i hp hi' ha)]
  | deadline d =>
    have h1 : s.setDeadline dbg d = .ok (s', o) := h1
    have := all (.rangeToIncl d) (by
      simp only [PlanCall.Ok] at hu
      have : (0 : Int) < INF := by decide
      simp only [Proper]; omega) ha
    show s.setDeadline dbg d = _
    unfold Sched.setDeadline at h1 ⊢
    split at h1
    · cases h1; exact absurd rfl ho
    · rename_i hn; rw [if_neg hn]; exact this
  | startline d =>
    have h1 : s.setStartline dbg d = .ok (s', o) := h1
    have := all (.rangeFrom d) (by
      simp only [PlanCall.Ok] at hu
      have : (0 : Int) < INF := by decide
      simp only [Proper]; omega) ha
    show s.setStartline dbg d = _
    unfold Sched.setStartline at h1 ⊢
    split at h1
    · cases h1; exact absurd rfl ho
    · rename_i hn; rw [if_neg hn]; exact this

/-- requests which some assignment satisfies together are all accepted -/
theorem plan_accepts (dbg : Bool) {g : Graph} (hv : Valid g) (hm : Minimal g) {B W : Int} (hg : Within B g) (hB0 : 0 ≤ B) (hW0 : 0 ≤ W)
    (hB : W + 2 * B < INF) (τ : Nat → Int) : ∀ (l : List PlanCall) (s : Sched), s.graph = g → (∃ lo hi, ConvSched (W + B) s lo hi) →
    (∀ c ∈ l, c.Ok g.size W) → Feasible τ s → (∀ c ∈ l, c.Allows g.size τ) → ∃ s', planAll dbg s l = .ok (s', l)
  | [], s, _, _, _, _, _ => ⟨s, rfl⟩
  | c :: l, s, h, ⟨lo, hi, hc⟩, hok, hf, ha => by
    subst h
    obtain ⟨s1, o, h1, h2, h3, h4⟩ := plan_step dbg hv hm hg hB0 hW0 hB hc (hok c (by simp))
    rcases h4 with ⟨-, -, a⟩ | ⟨a1, a2, a3, a4⟩
    · exact absurd ⟨τ, hf, ha c (by simp)⟩ a
    · obtain ⟨s2, e⟩ := plan_accepts dbg hv hm hg hB0 hW0 hB τ l s1 h2 h3 (fun c hc => hok c (by simp [hc]))
        ((a4 τ).2 ⟨hf, ha c (by simp)⟩) (fun c hc => ha c (by simp [hc]))
      refine ⟨s2, ?_⟩
      simp only [planAll, h1, ok_bind, e]
      rcases a1 with rfl | rfl <;> rfl

/-- C125: two histories of `retain` with intervals (or dates, or ranges), `set_deadline` and `set_startline` on the same minimal graph
whose accepted requests have the same solutions leave the same scheduler, slot for slot. -/
theorem C125_meaning_partial (dbg dbg' : Bool) {g : Graph} (hv : Valid g) (hm : Minimal g) {B W : Int} (hB : 0 ≤ B) (hW : 0 ≤ W)
    (hg : Within B g) (hBW : W + 2 * B < INF) {l l' : List PlanCall} (hl : ∀ c ∈ l, c.Ok g.size W) (hl' : ∀ c ∈ l', c.Ok g.size W)
    {s s' : Sched} {acc acc' : List PlanCall} (h : planAll dbg (Sched.new g) l = .ok (s, acc))
    (h' : planAll dbg' (Sched.new g) l' = .ok (s', acc'))
    (he : ∀ τ, Sat τ g → ((∀ c ∈ acc, c.Allows g.size τ) ↔ ∀ c ∈ acc', c.Allows g.size τ)) : s = s' := by
  obtain ⟨s1, a1, e1, e2, ⟨lo, hi, e3⟩, -, e4⟩ := plan_history dbg hv hm hg hB hW hBW l (Sched.new g) rfl ⟨_, _, new_conv g _⟩ hl
  obtain ⟨s2, a2, f1, f2, ⟨lo', hi', f3⟩, -, f4⟩ := plan_history dbg' hv hm hg hB hW hBW l' (Sched.new g) rfl ⟨_, _, new_conv g _⟩ hl'
  rw [h] at e1
  rw [h'] at f1
  cases e1
  cases f1
  refine conv_unique e3 f3 (f2.trans e2.symm) (by rw [e2]; exact hv) (by rw [e2]; exact hm) (fun τ => ?_)
  rw [e4, f4, new_feasible]
  exact and_congr_right (he τ)

/-- C125: requests which can be satisfied together are all accepted, in any order, and the order does not matter: the scheduler left
is the same, slot for slot. Repeated requests count once. -/
theorem C125_order_partial (dbg dbg' : Bool) {g : Graph} (hv : Valid g) (hm : Minimal g) {B W : Int} (hB : 0 ≤ B) (hW : 0 ≤ W)
    (hg : Within B g) (hBW : W + 2 * B < INF) {l l' : List PlanCall} (hl : ∀ c ∈ l, c.Ok g.size W) (hs : ∀ c, c ∈ l ↔ c ∈ l')
    (hτ : ∃ τ, Sat τ g ∧ ∀ c ∈ l, c.Allows g.size τ) :
    ∃ s, planAll dbg (Sched.new g) l = .ok (s, l) ∧ planAll dbg' (Sched.new g) l' = .ok (s, l') := by
  obtain ⟨τ, h1, h2⟩ := hτ
  have hl' : ∀ c ∈ l', c.Ok g.size W := fun c hc => hl c ((hs c).2 hc)
  obtain ⟨s, e⟩ := plan_accepts dbg hv hm hg hB hW hBW τ l (Sched.new g) rfl ⟨_, _, new_conv g _⟩ hl ((new_feasible g τ).2 h1) h2
  obtain ⟨s', e'⟩ := plan_accepts dbg' hv hm hg hB hW hBW τ l' (Sched.new g) rfl ⟨_, _, new_conv g _⟩ hl' ((new_feasible g τ).2 h1)
    (fun c hc => h2 c ((hs c).2 hc))
  refine ⟨s, e, ?_⟩
  have := C125_meaning_partial dbg dbg' hv hm hB hW hg hBW hl hl' e e' (fun τ _ => by simp only [hs])
  rw [this]; exact e'

/-- C125: after such a history, a request which holds in every solution of the graph and of the accepted requests, in particular one of the
accepted requests, is answered `Ok(Unchanged)` and changes nothing. Any other accepted request is answered `Ok(Propagated)`. -/
theorem C125_repeat_partial (dbg : Bool) {g : Graph} (hv : Valid g) (hm : Minimal g) {B W : Int} (hB : 0 ≤ B) (hW : 0 ≤ W)
    (hg : Within B g) (hBW : W + 2 * B < INF) {l : List PlanCall} (hl : ∀ c ∈ l, c.Ok g.size W)
    {s : Sched} {acc : List PlanCall} (h : planAll dbg (Sched.new g) l = .ok (s, acc)) :
    (∀ c ∈ acc, ∀ dbg', c.run dbg' s = .ok (s, .unchanged)) ∧
    ∀ c : PlanCall, c.Ok g.size W → ∀ dbg',
      ((∃ s', c.run dbg' s = .ok (s', .unchanged)) ↔ ∀ τ, Sat τ g → (∀ a ∈ acc, a.Allows g.size τ) → c.Allows g.size τ) ∧
      ((∀ τ, Sat τ g → (∀ a ∈ acc, a.Allows g.size τ) → c.Allows g.size τ) → c.run dbg' s = .ok (s, .unchanged)) := by
  obtain ⟨s1, a1, e1, e2, ⟨lo, hi, e3⟩, e5, e4⟩ := plan_history dbg hv hm hg hB hW hBW l (Sched.new g) rfl ⟨_, _, new_conv g _⟩ hl
  rw [h] at e1
  cases e1
  subst e2
  have hf : ∀ τ, Feasible τ s ↔ Sat τ s.graph ∧ ∀ a ∈ acc, a.Allows s.graph.size τ := fun τ => by rw [e4, new_feasible]
  have imp : ∀ c : PlanCall, c.Ok s.graph.size W → ∀ dbg',
      (∀ τ, Sat τ s.graph → (∀ a ∈ acc, a.Allows s.graph.size τ) → c.Allows s.graph.size τ) → c.run dbg' s = .ok (s, .unchanged) :=
    fun c hc dbg' ha => implied_unchanged dbg' hv hm hg hB hW hBW e3 hc (fun τ hτ => ha τ ((hf τ).1 hτ).1 ((hf τ).1 hτ).2)
  refine ⟨fun c hc dbg' => imp c (hl c (e5 c hc)) dbg' (fun τ _ ha => ha c hc), fun c hc dbg' => ⟨⟨?_, fun ha => ⟨s, imp c hc dbg' ha⟩⟩,
    imp c hc dbg'⟩⟩
  rintro ⟨s', h'⟩ τ h1 h2
  obtain ⟨s2, o, f1, -, -, f4⟩ := plan_step dbg' hv hm hg hB hW hBW e3 hc
  rw [h'] at f1
  cases f1
  rcases f4 with ⟨a, -⟩ | ⟨-, a2, -, a4⟩
  · cases a
  · have := a2 rfl
    subst this
    exact ((a4 τ).1 ((hf τ).2 ⟨h1, h2⟩)).2

-- the histories of `exPlan` in another order, with the request on instant 1 twice
example : ∃ s, planAll true (Sched.new exGraph) [.startline 0, .retain 1 (.range 12 40), .deadline 30] =
      .ok (s, [.startline 0, .retain 1 (.range 12 40), .deadline 30]) ∧
    planAll false (Sched.new exGraph) [.deadline 30, .retain 1 (.range 12 40), .startline 0, .retain 1 (.range 12 40)] =
      .ok (s, [.deadline 30, .retain 1 (.range 12 40), .startline 0, .retain 1 (.range 12 40)]) := by
  refine C125_order_partial true false exGraph_valid exGraph_minimal (B := 26) (W := 40) (by decide) (by decide) exGraph_within (by decide)
    ?_ (by simp only [List.mem_cons, List.not_mem_nil, or_false]; grind)
    ⟨fun i => if i = 0 then 0 else if i = 1 then 12 else 17, ?_, ?_⟩
  · intro c hc
    refine exPlan_ok c ?_
    simp only [exPlan, List.mem_cons, List.not_mem_nil, or_false] at hc ⊢
    grind
  · rw [sat_iff exGraph_valid]
    show ∀ i, i < 3 → ∀ j, j < 3 → _
    decide
  · intro c hc
    simp only [List.mem_cons, List.not_mem_nil, or_false] at hc
    rcases hc with rfl | rfl | rfl
    · show ∀ j, j < 3 → _; decide
    · simp only [PlanCall.Allows]; decide
    · show ∀ j, j < 3 → _; decide
example := C125_meaning_partial true true exGraph_valid exGraph_minimal (by decide) (by decide) exGraph_within (by decide) exPlan_ok exPlan_ok
  exPlan_run exPlan_run (fun _ _ => Iff.rfl)
example := C125_repeat_partial true exGraph_valid exGraph_minimal (by decide) (by decide) exGraph_within (by decide) exPlan_ok exPlan_run

/-! ## Sets -/

/-- a canonical set contains an interval which is left empty between two side by side iff it begins there -/
theorem contains_empty {r : TSet} (hr : Canon r) {c : Int} :
    TSet.contains r (.iv ⟨c, c - 1⟩) = true ↔ ∃ z ∈ r, z.lower ≤ c ∧ c ≤ z.upper := by
  have e : TSet.contains r (.iv ⟨c, c - 1⟩) = match r.find? (fun ts => decide (c ≤ ts.upper)) with
      | some ts => decide (ts.lower ≤ c) && decide (c - 1 ≤ ts.upper)
      | none => false := rfl
  rw [e]
  constructor
  · intro h
    split at h
    · rename_i z hz
      have h1 : c ≤ z.upper := by simpa using List.find?_some hz
      have h2 := List.mem_of_find?_eq_some hz
      simp only [Bool.and_eq_true, decide_eq_true_eq] at h
      exact ⟨z, h2, h.1, h1⟩
    · cases h
  · rintro ⟨z, hz, h1, h2⟩
    cases h : r.find? (fun ts => decide (c ≤ ts.upper)) with
    | none => exact absurd (decide_eq_true h2) (List.find?_eq_none.1 h z hz)
    | some y =>
      have g1 : c ≤ y.upper := by simpa using List.find?_some h
      have g2 := List.mem_of_find?_eq_some h
      have hw := (hr.wf z hz).le
      have : y.lower ≤ z.lower := by
        obtain ⟨-, as, bs, e1, e2⟩ := List.find?_eq_some_iff_append.1 h
        have hzm : z ∈ as ++ y :: bs := by rw [← e1]; exact hz
        have hg := hr.gap
        rw [e1] at hg
        rcases List.mem_append.1 hzm with q | q
        · have := e2 z q
          simp only [Bool.not_eq_true', decide_eq_false_iff_not] at this
          omega
        · rcases List.mem_cons.1 q with q | q
          · rw [q]; omega
          · have := (List.pairwise_cons.1 (List.pairwise_append.1 hg).2.1).1 z q
            have := (hr.wf y g2).le
            omega
      simp only [Bool.and_eq_true, decide_eq_true_eq]
      omega

/-- C125 decided for sets: in a release build, the request which has just been accepted is answered `Ok(Unchanged)` and changes nothing when it
is made again, unless one of the former intervals of `i` begins just after the end of an interval of the set and `i` is not instant 0;
then it is answered `Ok(Propagated)` again. -/
theorem C125_set_violated {s : Sched} (hv : Valid s.graph) (hz : ZeroDiag s.graph) (hs : Spanned s.graph)
    (hc : CanonSched s) {B W : Int} (hg : Within B s.graph) (hw : WithinSched W s) (hW : W + B < INF)
    {i : Nat} (hi : i < s.graph.size) {r : TSet} (hr : Canon r) (hwr : WithinSet W r)
    {s' : Sched} (h : s.retain false i (.set r) = .ok (s', .propagated)) :
    ((i ≠ 0 ∧ ∃ w, s.scheduling i = some w ∧ ∃ x ∈ w, ∃ z ∈ r, z.upper + 1 = x.lower) →
      ∃ s'', s'.retain false i (.set r) = .ok (s'', .propagated)) ∧
    (¬ (i ≠ 0 ∧ ∃ w, s.scheduling i = some w ∧ ∃ x ∈ w, ∃ z ∈ r, z.upper + 1 = x.lower) →
      ∀ dbg, s'.retain dbg i (.set r) = .ok (s', .unchanged)) := by
  obtain ⟨si, e, ci, hmem⟩ := sched_get hc hi
  have c1 : Window.containsSet (.set r) si = false := by
    rw [← Bool.not_eq_true]
    intro c
    rw [retain_test _ e, if_pos c] at h; cases h
  have c2 : Window.overlapsSet (.set r) si = true := by
    rw [← Bool.not_eq_false]
    intro c
    rw [retain_test _ e, c1, c] at h; cases h
  obtain ⟨s1, si', a1, a2, a3, a4, -⟩ := retain_set hv hz hs hc hg hw hW hi hr hwr e c1 c2
  rw [h] at a1
  cases a1
  have hl : Loose si' ∧ (∃ t, InExtSet t si ∧ InExtSet t r) := by
    refine ⟨?_, (overlaps_ext (w := .set r) hr ci (fun v e => by cases e)).1 c2⟩
    rcases a4 with ⟨-, c⟩ | ⟨-, c⟩
    · exact c.loose
    · obtain ⟨p, h1, h2, -⟩ := restrict_loose (w := .set r) hr ci.loose (hw si hmem) hwr
      have h1 : TSet.inter si r = .ok p := h1
      rw [c] at h1
      cases h1
      exact h2
  obtain ⟨hl, t0, ht1, ht2⟩ := hl
  have sch : s.scheduling i = some si := e
  simp only [sch]
  have full : ∀ y ∈ si', WF y → TSet.contains r (.iv y) = true := by
    intro y hy hwf
    have := (contains_ext (w := .set r) hr (canon_one hwf)).2 (fun t ht => by
      rw [extSet_one] at ht
      exact ((a3 t).1 ⟨y, hy, ht⟩).2)
    simpa [Window.containsSet, TSet.containsSet] using this
  have key : Window.containsSet (.set r) si' = true ↔ ¬ (i ≠ 0 ∧ ∃ w, some si = some w ∧ ∃ x ∈ w, ∃ z ∈ r, z.upper + 1 = x.lower) := by
    show List.all si' (fun tw => TSet.contains r (.iv tw)) = true ↔ _
    rw [List.all_eq_true]
    rcases a4 with ⟨i0, c⟩ | ⟨i0, c⟩
    · exact ⟨fun _ h => h.1 i0, fun _ y hy => full y hy (c.wf y hy)⟩
    · obtain ⟨p1, p2⟩ := inter_parts ci hr c
      constructor
      · rintro hall ⟨-, w, ew, x, hx, z, hz', exz⟩
        cases ew
        obtain ⟨hm, -⟩ := p2 x.lower ⟨x, hx, z, hz', Or.inr ⟨exz, rfl⟩⟩
        obtain ⟨z', hz2, q1, q2⟩ := (contains_empty hr).1 (hall _ hm)
        have := (hr.wf z hz').le
        have := (hr.wf z' hz2).le
        rcases canon_sep hr hz' hz2 with q | q | q
        · subst q; omega
        · omega
        · omega
      · intro hn y hy
        rcases p1 y hy with q | ⟨c', ⟨x, hx, z, hz', q | q⟩, -, -, rfl⟩
        · exact full y hy q
        · have := (hr.wf z hz').le
          exact (contains_empty hr).2 ⟨z, hz', by omega, by omega⟩
        · exact absurd ⟨i0, si, rfl, x, hx, z, hz', by omega⟩ hn
  constructor
  · intro hb
    have d1 : Window.containsSet (.set r) si' = false := by
      rw [← Bool.not_eq_true, key]
      exact fun q => q hb
    have d2 : Window.overlapsSet (.set r) si' = true := overlaps_any (w := .set r) hr hl ((a3 t0).2 ⟨ht1, ht2⟩) ht2
    rcases retain_any false hv hs ⟨hc.1, fun w hw => (hc.2 w hw).loose⟩ hi (w := .set r) hr with ⟨s2, o, b1, b2⟩ | ⟨b, -⟩
    · rw [h] at b1
      cases b1
      have hgr := b2.graph
      rcases retain_any false (by rw [hgr]; exact hv) (by rw [hgr]; exact hs) b2.loose (by rw [hgr]; exact hi) (w := .set r) hr with
        ⟨s2, o, f1, -⟩ | ⟨b, -⟩
      · refine ⟨s2, ?_⟩
        have f2 := f1
        rw [retain_test false a2, d1, d2] at f2
        simp only [Bool.false_eq_true, if_false, Bool.not_true] at f2
        cases k1 : Window.restrict (.set r) si' with
        | error => rw [k1] at f2; cases f2
        | ok p =>
          rw [k1, ok_bind] at f2
          cases k2 : Sched.propagateScheduling false { s' with schedule := s'.schedule.set i p } i with
          | error => rw [k2] at f2; cases f2
          | ok q => rw [k2] at f2; cases f2; exact f1
      · cases b
    · cases b
  · intro hn dbg
    rw [retain_test dbg a2, if_pos (key.2 hn)]

/-- an example: both halves; slots and sets beginning or ending side by side -/
example : (∃ s', (Sched.mk exGraph [TSet.all, [⟨5, 8⟩], TSet.all]).retain false 1 (.set [⟨0, 4⟩, ⟨8, 9⟩]) = .ok (s', .propagated) ∧
      ∃ s'', s'.retain false 1 (.set [⟨0, 4⟩, ⟨8, 9⟩]) = .ok (s'', .propagated)) ∧
    (∃ s', (Sched.mk exGraph [TSet.all, [⟨5, 8⟩], TSet.all]).retain false 1 (.set [⟨0, 5⟩, ⟨9, 9⟩]) = .ok (s', .propagated) ∧
      s'.retain true 1 (.set [⟨0, 5⟩, ⟨9, 9⟩]) = .ok (s', .unchanged)) := by
  have hc : CanonSched (Sched.mk exGraph [TSet.all, [⟨5, 8⟩], TSet.all]) := ⟨rfl, by decide⟩
  have hw : WithinSched 20 (Sched.mk exGraph [TSet.all, [⟨5, 8⟩], TSet.all]) := by decide
  have hz : ZeroDiag exGraph := (minimal_iff exGraph_valid |>.1 exGraph_minimal).zeroDiag exGraph_valid
  have hs : Spanned exGraph := spanned_of_sat exGraph_minimal.1 (by decide) exGraph_within
  constructor
  · refine ⟨⟨exGraph, [[⟨-15, -2⟩], [⟨5, 4⟩, ⟨8, 8⟩], [⟨10, 10⟩, ⟨13, 14⟩]]⟩, by decide +kernel,
      (C125_set_violated (s := Sched.mk exGraph [TSet.all, [⟨5, 8⟩], TSet.all]) exGraph_valid hz hs hc exGraph_within
      hw (by decide) (by decide) (r := [⟨0, 4⟩, ⟨8, 9⟩]) (by decide) (by decide) (by decide +kernel)).1 ⟨by decide, _, rfl, by decide⟩⟩
  · refine ⟨⟨exGraph, [[⟨-15, -2⟩], [⟨5, 5⟩, ⟨9, 8⟩], [⟨10, 11⟩, ⟨14, 14⟩]]⟩, by decide +kernel,
      (C125_set_violated (s := Sched.mk exGraph [TSet.all, [⟨5, 8⟩], TSet.all]) exGraph_valid hz hs hc exGraph_within
      hw (by decide) (by decide) (r := [⟨0, 5⟩, ⟨9, 9⟩]) (by decide) (by decide) (by decide +kernel)).2 ?_ true⟩
    rintro ⟨-, w, e, h⟩
    cases e
    revert h
    decide

/-- a graph for which the order matters: `0` is at a delay of 0 to 3 from `1`, and `2` is at the same time as `1` -/
def orderGraph : Graph := ⟨3, [0, 0, 0, -3, 0, 0, 0, 0, -3]⟩

/-- C125 fails for sets: these requests can be satisfied together and all are accepted, but the dates left depend on their order. -/
theorem C125_order_violated : ∃ (a b c : Call) (s s' : Sched), Minimal orderGraph ∧
    (∃ τ, Sat τ orderGraph ∧ ∀ q ∈ [a, b, c], q.Allows (τ q.instant)) ∧
    callAll false (Sched.new orderGraph) [a, b, c] = .ok (s, [a, b, c]) ∧
    callAll false (Sched.new orderGraph) [b, a, c] = .ok (s', [b, a, c]) ∧ Slot s 0 5 ∧ ¬ Slot s' 0 5 := by
  have hv : Valid orderGraph := by decide
  refine ⟨.retain 1 (.set [⟨0, 4⟩, ⟨10, 10⟩]), .retain 2 (.set [⟨5, 6⟩, ⟨10, 10⟩]), .retain 1 (.set [⟨8, 20⟩]),
    ⟨orderGraph, [[⟨5, 7⟩, ⟨10, 13⟩], [⟨10, 10⟩], [⟨5, 4⟩, ⟨10, 10⟩]]⟩, ⟨orderGraph, [[⟨10, 13⟩], [⟨10, 10⟩], [⟨10, 10⟩]]⟩,
    ?_, ⟨fun _ => 10, ?_, ?_⟩, by decide +kernel, by decide +kernel, ⟨_, rfl, by decide⟩, ?_⟩
  · rw [minimal_iff hv]
    have d : ∀ i : Fin 3, mat orderGraph i i = 0 := by decide
    have t : ∀ i k j : Fin 3, mat orderGraph i k ≠ -INF → mat orderGraph k j ≠ -INF →
        mat orderGraph i j ≠ -INF ∧ mat orderGraph i k + mat orderGraph k j ≤ mat orderGraph i j := by decide
    exact ⟨fun i hi => d ⟨i, hi⟩, fun i hi k hk j hj => t ⟨i, hi⟩ ⟨k, hk⟩ ⟨j, hj⟩⟩
  · rw [sat_iff hv]
    show ∀ i, i < 3 → ∀ j, j < 3 → _
    decide
  · intro q hq
    simp only [List.mem_cons, List.not_mem_nil, or_false] at hq
    rcases hq with rfl | rfl | rfl <;> (simp only [Call.Allows, InExtWindow, Call.instant]; decide)
  · rintro ⟨w, e, h⟩
    cases e
    revert h
    decide

end Chrono
