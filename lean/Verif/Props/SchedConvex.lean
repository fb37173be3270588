import Verif.Lemmas.SchedConvex
import Verif.Props.Scheduler

/-!
# C78, C79, C90: histories of convex constraints, deadlines and startlines
-/

set_option linter.unusedSimpArgs false

namespace Chrono
open Spec

/-- C78, C79: after any history of `retain` with intervals (or dates, or ranges), `set_deadline` and `set_startline` on a
minimal graph, without panic even in a debug build, the assignments within the graph and the slots are exactly those
which satisfy the graph and all the accepted calls, and there is one. Missing: empty windows, see
`C78_empty_violated`; bounds so large that sums overflow. -/
theorem C78_history_partial (dbg : Bool) {g : Graph} (hv : Valid g) (hm : Minimal g) {B W : Int} (hB : 0 ≤ B) (hW : 0 ≤ W)
    (hg : Within B g) (hBW : W + 2 * B < INF) {calls : List PlanCall} (hok : ∀ c ∈ calls, c.Ok g.size W) :
    ∃ s acc, planAll dbg (Sched.new g) calls = .ok (s, acc) ∧ s.graph = g ∧
      (∀ τ, Feasible τ s ↔ Sat τ g ∧ ∀ c ∈ acc, c.Allows g.size τ) ∧ ∃ τ, Feasible τ s := by
  obtain ⟨s, acc, h1, h2, ⟨lo, hi, h3⟩, -, h4⟩ := plan_history dbg hv hm hg hB hW hBW calls (Sched.new g) rfl
    ⟨_, _, new_conv g _⟩ hok
  refine ⟨s, acc, h1, h2, fun τ => by rw [h4, new_feasible], ?_⟩
  rw [← h2] at hv hm
  exact h3.exists_feasible hv hm

/-- C78: every date left for any instant extends to an assignment of all the instants which satisfies all the constraints
and all the slots. -/
theorem C78_extends_partial (dbg : Bool) {g : Graph} (hv : Valid g) (hm : Minimal g) {B W : Int} (hB : 0 ≤ B) (hW : 0 ≤ W)
    (hg : Within B g) (hBW : W + 2 * B < INF) {calls : List PlanCall} (hok : ∀ c ∈ calls, c.Ok g.size W)
    {s : Sched} {acc : List PlanCall} (h : planAll dbg (Sched.new g) calls = .ok (s, acc)) {i : Nat} {t : Int}
    (hs : Slot s i t) : ∃ τ, Feasible τ s ∧ τ i = t := by
  obtain ⟨s1, acc1, h1, h2, ⟨lo, hi, h3⟩, -, h4⟩ := plan_history dbg hv hm hg hB hW hBW calls (Sched.new g) rfl
    ⟨_, _, new_conv g _⟩ hok
  rw [h] at h1
  cases h1
  have hi : i < s.graph.size := by
    obtain ⟨w, hw, -⟩ := hs
    have hw : s.schedule[i]? = some w := hw
    rw [List.getElem?_eq_some_iff] at hw
    rw [← h3.len]; exact hw.1
  rw [← h2] at hv hm
  exact h3.attain hv hm hi hs

/-- C78: the next call is refused, with `Err(Recovered)` and the schedule unchanged, exactly when no assignment satisfies
the graph, the accepted calls and this one. -/
theorem C78_next_partial (dbg : Bool) {g : Graph} (hv : Valid g) (hm : Minimal g) {B W : Int} (hB : 0 ≤ B) (hW : 0 ≤ W)
    (hg : Within B g) (hBW : W + 2 * B < INF) {calls : List PlanCall} (hok : ∀ c ∈ calls, c.Ok g.size W)
    {s : Sched} {acc : List PlanCall} (h : planAll dbg (Sched.new g) calls = .ok (s, acc)) {c : PlanCall} (hc : c.Ok g.size W) :
    ∃ s' o, c.run dbg s = .ok (s', o) ∧ (o = .recovered ∨ o = .unchanged ∨ o = .propagated) ∧ (o ≠ .propagated → s' = s) ∧
      (o = .recovered ↔ ¬ ∃ τ, Sat τ g ∧ (∀ c' ∈ acc, c'.Allows g.size τ) ∧ c.Allows g.size τ) := by
  obtain ⟨s1, acc1, h1, h2, ⟨lo, hi, h3⟩, -, h4⟩ := plan_history dbg hv hm hg hB hW hBW calls (Sched.new g) rfl
    ⟨_, _, new_conv g _⟩ hok
  rw [h] at h1
  cases h1
  subst h2
  have hf : (∃ τ, Feasible τ s ∧ c.Allows s.graph.size τ) ↔
      ∃ τ, Sat τ s.graph ∧ (∀ c' ∈ acc, c'.Allows s.graph.size τ) ∧ c.Allows s.graph.size τ :=
    exists_congr fun τ => by rw [h4, new_feasible, and_assoc]
  obtain ⟨s', o, e1, e2, e3, e4⟩ := plan_step dbg hv hm hg hB hW hBW h3 hc
  refine ⟨s', o, e1, ?_⟩
  rw [← hf]
  rcases e4 with ⟨rfl, a2, a3⟩ | ⟨a1, a2, a3, -⟩
  · exact ⟨Or.inl rfl, fun _ => a2, fun _ => a3, fun _ => rfl⟩
  · refine ⟨Or.inr a1, fun h => a2 (a1.resolve_right h), fun h => ?_, fun h => absurd a3 h⟩
    rcases a1 with rfl | rfl <;> cases h

/-- C79: after any such history, `set_deadline` does not panic; it returns `Err(Recovered)` iff some instant has no date
left until `d`, and then nothing changes; otherwise it returns `Ok`, no slot has a date after `d` any more, and every
assignment within the former slots and the deadline is kept. Missing: the deadline -oo, see `C79_violated`. -/
theorem C79_deadline_partial (dbg : Bool) {g : Graph} (hv : Valid g) (hm : Minimal g) {B W : Int} (hB : 0 ≤ B) (hW : 0 ≤ W)
    (hg : Within B g) (hBW : W + 2 * B < INF) {calls : List PlanCall} (hok : ∀ c ∈ calls, c.Ok g.size W)
    {s : Sched} {acc : List PlanCall} (h : planAll dbg (Sched.new g) calls = .ok (s, acc)) {d : Int}
    (hd : d = INF ∨ (-W ≤ d ∧ d ≤ W)) :
    ∃ s' o, s.setDeadline dbg d = .ok (s', o) ∧ (o = .recovered ∨ o = .unchanged ∨ o = .propagated) ∧
      (o = .recovered ↔ ∃ i, i < g.size ∧ ¬ ∃ t, Slot s i t ∧ t ≤ d) ∧ (o = .recovered → s' = s) ∧
      (o ≠ .recovered → ∀ i t, Slot s' i t → Slot s i t ∧ (d = INF ∨ t ≤ d)) ∧
      (o ≠ .recovered → ∀ τ, Feasible τ s → (∀ i, i < g.size → τ i ≤ d) → Feasible τ s') := by
  obtain ⟨s1, acc1, h1, h2, ⟨lo, hi, h3⟩, -, h4⟩ := plan_history dbg hv hm hg hB hW hBW calls (Sched.new g) rfl
    ⟨_, _, new_conv g _⟩ hok
  rw [h] at h1
  cases h1
  subst h2
  obtain ⟨s', o, e1, e2, ⟨lo', hi', e3⟩, e4⟩ := deadline_plan dbg hv hm hg hB hW hBW h3 hd
  refine ⟨s', o, e1, ?_⟩
  have key : (¬ ∃ i, i < s.graph.size ∧ ¬ ∃ t, Slot s i t ∧ t ≤ d) →
      ∃ τ, Feasible τ s ∧ ∀ j, j < s.graph.size → d = INF ∨ τ j ≤ d := by
    intro hn
    obtain ⟨τ, a, b⟩ := common_deadline h3 hv hm (d := d) (fun j hj => Classical.byContradiction fun hx => hn ⟨j, hj, hx⟩)
    exact ⟨τ, a, fun j hj => Or.inr (b j hj)⟩
  have fwd : (∃ τ, Feasible τ s ∧ ∀ j, j < s.graph.size → d = INF ∨ τ j ≤ d) →
      ¬ ∃ i, i < s.graph.size ∧ ¬ ∃ t, Slot s i t ∧ t ≤ d := by
    rintro ⟨τ, a, b⟩ ⟨i, hi', hx⟩
    rcases b i hi' with b' | b'
    · obtain ⟨t, h5, h6⟩ := (h3.arc.wf i hi').exists_date
      have h7 := (h3.arc.wf i hi').lo_lt
      exact hx ⟨t, (h3.slot hi' t).2 ⟨Or.inr h6.1, Or.inr h6.2⟩, by
        have := h5.2
        omega⟩
    · exact hx ⟨τ i, a.2 i hi', b'⟩
  rcases e4 with ⟨rfl, a2, a3⟩ | ⟨a1, a2, a3, a4⟩
  · refine ⟨Or.inl rfl, ⟨fun _ => ?_, fun _ => rfl⟩, fun _ => a2, fun h => absurd rfl h, fun h => absurd rfl h⟩
    exact Classical.byContradiction fun hx => a3 (key hx)
  · refine ⟨Or.inr a1, ⟨fun h => ?_, fun h => absurd h (fwd a3)⟩, fun h => ?_, fun _ i t ht => ?_, fun _ τ hτ hd => ?_⟩
    · rcases a1 with rfl | rfl <;> cases h
    · rcases a1 with rfl | rfl <;> cases h
    · have hi : i < s'.graph.size := by
        obtain ⟨w, hw, -⟩ := ht
        have hw : s'.schedule[i]? = some w := hw
        rw [List.getElem?_eq_some_iff] at hw
        rw [← e3.len]; exact hw.1
      obtain ⟨τ, b1, b2⟩ := e3.attain (by rw [e2]; exact hv) (by rw [e2]; exact hm) hi ht
      rw [e2] at hi
      have b3 := (a4 τ).1 b1
      rw [← b2]
      exact ⟨b3.1.2 i hi, b3.2 i hi⟩
    · exact (a4 τ).2 ⟨hτ, fun j hj => Or.inr (hd j hj)⟩

/-- C79, symmetrically for `set_startline`. Missing: the startline +oo, see `C79_violated`. -/
theorem C79_startline_partial (dbg : Bool) {g : Graph} (hv : Valid g) (hm : Minimal g) {B W : Int} (hB : 0 ≤ B) (hW : 0 ≤ W)
    (hg : Within B g) (hBW : W + 2 * B < INF) {calls : List PlanCall} (hok : ∀ c ∈ calls, c.Ok g.size W)
    {s : Sched} {acc : List PlanCall} (h : planAll dbg (Sched.new g) calls = .ok (s, acc)) {d : Int}
    (hd : d = -INF ∨ (-W ≤ d ∧ d ≤ W)) :
    ∃ s' o, s.setStartline dbg d = .ok (s', o) ∧ (o = .recovered ∨ o = .unchanged ∨ o = .propagated) ∧
      (o = .recovered ↔ ∃ i, i < g.size ∧ ¬ ∃ t, Slot s i t ∧ d ≤ t) ∧ (o = .recovered → s' = s) ∧
      (o ≠ .recovered → ∀ i t, Slot s' i t → Slot s i t ∧ (d = -INF ∨ d ≤ t)) ∧
      (o ≠ .recovered → ∀ τ, Feasible τ s → (∀ i, i < g.size → d ≤ τ i) → Feasible τ s') := by
  obtain ⟨s1, acc1, h1, h2, ⟨lo, hi, h3⟩, -, h4⟩ := plan_history dbg hv hm hg hB hW hBW calls (Sched.new g) rfl
    ⟨_, _, new_conv g _⟩ hok
  rw [h] at h1
  cases h1
  subst h2
  obtain ⟨s', o, e1, e2, ⟨lo', hi', e3⟩, e4⟩ := startline_plan dbg hv hm hg hB hW hBW h3 hd
  refine ⟨s', o, e1, ?_⟩
  have key : (¬ ∃ i, i < s.graph.size ∧ ¬ ∃ t, Slot s i t ∧ d ≤ t) →
      ∃ τ, Feasible τ s ∧ ∀ j, j < s.graph.size → d = -INF ∨ d ≤ τ j := by
    intro hn
    obtain ⟨τ, a, b⟩ := common_startline h3 hv hm (d := d) (fun j hj => Classical.byContradiction fun hx => hn ⟨j, hj, hx⟩)
    exact ⟨τ, a, fun j hj => Or.inr (b j hj)⟩
  have fwd : (∃ τ, Feasible τ s ∧ ∀ j, j < s.graph.size → d = -INF ∨ d ≤ τ j) →
      ¬ ∃ i, i < s.graph.size ∧ ¬ ∃ t, Slot s i t ∧ d ≤ t := by
    rintro ⟨τ, a, b⟩ ⟨i, hi', hx⟩
    rcases b i hi' with b' | b'
    · obtain ⟨t, h5, h6⟩ := (h3.arc.wf i hi').exists_date
      exact hx ⟨t, (h3.slot hi' t).2 ⟨Or.inr h6.1, Or.inr h6.2⟩, by
        have := h5.1
        omega⟩
    · exact hx ⟨τ i, a.2 i hi', b'⟩
  rcases e4 with ⟨rfl, a2, a3⟩ | ⟨a1, a2, a3, a4⟩
  · refine ⟨Or.inl rfl, ⟨fun _ => ?_, fun _ => rfl⟩, fun _ => a2, fun h => absurd rfl h, fun h => absurd rfl h⟩
    exact Classical.byContradiction fun hx => a3 (key hx)
  · refine ⟨Or.inr a1, ⟨fun h => ?_, fun h => absurd h (fwd a3)⟩, fun h => ?_, fun _ i t ht => ?_, fun _ τ hτ hd => ?_⟩
    · rcases a1 with rfl | rfl <;> cases h
    · rcases a1 with rfl | rfl <;> cases h
    · have hi : i < s'.graph.size := by
        obtain ⟨w, hw, -⟩ := ht
        have hw : s'.schedule[i]? = some w := hw
        rw [List.getElem?_eq_some_iff] at hw
        rw [← e3.len]; exact hw.1
      obtain ⟨τ, b1, b2⟩ := e3.attain (by rw [e2]; exact hv) (by rw [e2]; exact hm) hi ht
      rw [e2] at hi
      have b3 := (a4 τ).1 b1
      rw [← b2]
      exact ⟨b3.1.2 i hi, b3.2 i hi⟩
    · exact (a4 τ).2 ⟨hτ, fun j hj => Or.inr (hd j hj)⟩

/-- a history with a refused call -/
def exPlan : List PlanCall := [.startline 0, .retain 1 (.range 12 40), .deadline 30, .retain 2 (.point 3), .retain 0 (.rangeToIncl 4)]

/-- the schedule it leads to -/
def exPlanned : Sched := ⟨exGraph, [[⟨0, 4⟩], [⟨12, 24⟩], [⟨17, 30⟩]]⟩

theorem exPlan_ok : ∀ c ∈ exPlan, c.Ok exGraph.size 40 := by
  intro c hc
  simp only [exPlan, List.mem_cons, List.not_mem_nil, or_false] at hc
  rcases hc with rfl | rfl | rfl | rfl | rfl
  · exact Or.inr (by decide)
  · exact ⟨by decide, by decide, ⟨12, by decide⟩, by decide⟩
  · exact Or.inr (by decide)
  · exact ⟨by decide, by decide, ⟨3, by decide⟩, by decide⟩
  · exact ⟨by decide, by decide, ⟨4, by decide⟩, by decide⟩

theorem exPlan_run : planAll true (Sched.new exGraph) exPlan =
    .ok (exPlanned, [.startline 0, .retain 1 (.range 12 40), .deadline 30, .retain 0 (.rangeToIncl 4)]) := by
  decide +kernel

-- the hypotheses of the theorems above are met by `exGraph` and `exPlan`; one call has been refused
example := C78_history_partial true exGraph_valid exGraph_minimal (by decide) (by decide) exGraph_within (by decide) exPlan_ok
example := C78_extends_partial true exGraph_valid exGraph_minimal (by decide) (by decide) exGraph_within (by decide) exPlan_ok
  exPlan_run (i := 1) (t := 20) ⟨_, rfl, by decide⟩
example := C78_next_partial true exGraph_valid exGraph_minimal (by decide) (by decide) exGraph_within (by decide) exPlan_ok
  exPlan_run (c := .deadline 11) (Or.inr (by decide))
example := C79_deadline_partial true exGraph_valid exGraph_minimal (by decide) (by decide) exGraph_within (by decide) exPlan_ok
  exPlan_run (d := 20) (Or.inr (by decide))
example := C79_startline_partial true exGraph_valid exGraph_minimal (by decide) (by decide) exGraph_within (by decide) exPlan_ok
  exPlan_run (d := 2) (Or.inr (by decide))
-- here deadlines of 20 and 10 are accepted and refused
example : ∃ s', exPlanned.setDeadline true 20 = .ok (s', .propagated) :=
  ⟨⟨exGraph, [[⟨0, 4⟩], [⟨12, 15⟩], [⟨17, 20⟩]]⟩, by decide +kernel⟩
example : exPlanned.setDeadline true 10 = .ok (exPlanned, .recovered) := by decide +kernel

/-- C78 fails for every empty interval or range on every instant which is not constrained yet: the call is accepted and the schedule
has no solution any more, although the graph has. -/
theorem C78_empty_violated (dbg : Bool) {g : Graph} (hv : Valid g) (hm : Minimal g) {i : Nat} (hi : i < g.size) {w : Convex}
    (hp : Proper w) (he : ∀ t, ¬ InExtConvex t w) :
    ∃ s, planAll dbg (Sched.new g) [.retain i w] = .ok (s, [.retain i w]) ∧ (∃ τ, Sat τ g) ∧ ¬ ∃ τ, Feasible τ s := by
  obtain ⟨s', h1, -, -, h4⟩ := C75_violated dbg (s := Sched.new g) hv (by simp [Sched.new]) hi
    (by simp [Sched.scheduling, Sched.new, hi]) hp he
  refine ⟨s', ?_, hm.1, h4⟩
  simp only [planAll, PlanCall.run, h1, ok_bind]
  rfl

example : ∃ s, planAll true (Sched.new exGraph) [.retain 0 (.range 5 3)] = .ok (s, [.retain 0 (.range 5 3)]) ∧
    (∃ τ, Sat τ exGraph) ∧ ¬ ∃ τ, Feasible τ s :=
  C78_empty_violated true exGraph_valid exGraph_minimal (by decide) (by decide) (by intro t; simp only [InExtConvex]; ticks)

/-- C79 fails for infinite deadlines: no instant has a date until -oo, but whenever all the slots are unbounded below (as after `new`) the
deadline -oo is never refused; the call returns `Ok` or panics. The same for a startline of +oo when all are unbounded above. -/
theorem C79_violated (dbg : Bool) (s : Sched) :
    ((∀ w ∈ s.schedule, TSet.lowerBound w = -INF) → ∀ s' o, s.setDeadline dbg (-INF) = .ok (s', o) → o ≠ .recovered) ∧
    ((∀ w ∈ s.schedule, TSet.upperBound w = INF) → ∀ s' o, s.setStartline dbg INF = .ok (s', o) → o ≠ .recovered) := by
  have key : ∀ (tw : Window) (l : List Nat) (p : Sched × Outcome) (s' : Sched) (o : Outcome), p.2 ≠ .recovered →
      l.foldlM (fun (p : Sched × Outcome) i => do
        match ← Sched.retain dbg p.1 i tw with
        | (s, .unchanged) => return (s, p.2)
        | (s, .propagated) => return (s, .propagated)
        | _ => .error .unwrapNone) p = .ok (s', o) → o ≠ .recovered := by
    intro tw l
    induction l with
    | nil => intro p s' o hp h; injection h with h; subst h; exact hp
    | cons i l ih =>
      intro p s' o hp h
      rw [List.foldlM_cons] at h
      cases e : Sched.retain dbg p.1 i tw with
      | error => rw [e] at h; cases h
      | ok r =>
        obtain ⟨r, q⟩ := r
        rw [e] at h
        cases q with
        | unchanged => exact ih (r, p.2) s' o hp h
        | propagated => exact ih (r, .propagated) s' o (fun c => nomatch c) h
        | recovered => cases h
        | fatal => cases h
  constructor
  · intro hw s' o h
    rw [Sched.setDeadline, if_neg] at h
    · exact key _ _ (s, .unchanged) s' o (fun c => nomatch c) h
    · simp only [List.any_eq_true, decide_eq_true_eq, not_exists, not_and]
      intro w hm
      rw [hw w hm]
      omega
  · intro hw s' o h
    rw [Sched.setStartline, if_neg] at h
    · exact key _ _ (s, .unchanged) s' o (fun c => nomatch c) h
    · simp only [List.any_eq_true, decide_eq_true_eq, not_exists, not_and]
      intro w hm
      rw [hw w hm]
      omega

-- the hypotheses are those of every fresh scheduler; the call is accepted and nothing is left (a panic in a debug build)
example : (∀ w ∈ (Sched.new exGraph).schedule, TSet.lowerBound w = -INF ∧ TSet.upperBound w = INF) := by decide
example : ∃ s, (Sched.new exGraph).setDeadline false (-INF) = .ok (s, .propagated) ∧
    (Sched.new exGraph).setDeadline true (-INF) = .error .debugAssert ∧
    (Sched.new exGraph).setStartline false INF = .ok (s, .propagated) ∧
    (Sched.new exGraph).setStartline true INF = .error .debugAssert ∧ ∀ i t, ¬ Slot s i t := by
  refine ⟨⟨exGraph, [[], [], []]⟩, by decide +kernel, by decide +kernel, by decide +kernel, by decide +kernel, ?_⟩
  rintro i t ⟨w, hw, x, hx, -⟩
  have hw : [([] : TSet), [], []][i]? = some w := hw
  have : w ∈ [([] : TSet), [], []] := List.mem_of_getElem? hw
  have : w = [] := by simpa using this
  rw [this] at hx
  simp at hx

/-- the loop over the instants answers `Unchanged` iff the window contains every slot, and then nothing has changed -/
theorem retainAll_unchanged (dbg : Bool) (s : Sched) (w : Convex) :
    (∀ s', s.retainAll dbg (.conv w) = .ok (s', .unchanged) → s' = s) ∧
    (s.retainAll dbg (.conv w) = .ok (s, .unchanged) ↔ ∀ x ∈ s.schedule, w.containsSet x = true) := by
  have same : ∀ (i : Nat) (x : TSet), s.schedule[i]? = some x → w.containsSet x = true →
      s.retain dbg i (.conv w) = .ok (s, .unchanged) := by
    intro i x hx hw
    have hi : i < s.schedule.length := (List.getElem?_eq_some_iff.1 hx).1
    simp only [Sched.retain, hi, if_true, sget, hx, ok_bind, Window.containsSet, hw]
    rfl
  have out : ∀ (i : Nat) (s' : Sched), s.retain dbg i (.conv w) = .ok (s', .unchanged) →
      s' = s ∧ ∀ x, s.schedule[i]? = some x → w.containsSet x = true := by
    intro i s' h
    unfold Sched.retain at h
    split at h
    · rename_i hi
      have hx : s.schedule[i]? = some s.schedule[i] := List.getElem?_eq_getElem hi
      simp only [sget, hx, ok_bind, Window.containsSet] at h
      split at h
      · rename_i hw
        injection h with h
        exact ⟨(congrArg Prod.fst h).symm, fun x e => by rw [hx] at e; injection e with e; subst e; exact hw⟩
      · split at h
        · injection h with h; cases h
        · simp only [Window.restrict, ok_bind] at h
          cases e1 : sset s.schedule i (TSet.interAssignConvex s.schedule[i] w) with
          | error => rw [e1] at h; cases h
          | ok v =>
            rw [e1, ok_bind] at h
            cases e2 : Sched.propagateScheduling dbg { s with schedule := v } i with
            | error => rw [e2] at h; cases h
            | ok v => rw [e2] at h; injection h with h; cases h
    · cases h
  have prop : ∀ (l : List Nat) (p s' : Sched), l.foldlM (fun (p : Sched × Outcome) i => do
        match ← Sched.retain dbg p.1 i (.conv w) with
        | (s, .unchanged) => return (s, p.2)
        | (s, .propagated) => return (s, .propagated)
        | _ => .error .unwrapNone) (p, .propagated) ≠ .ok (s', .unchanged) := by
    intro l
    induction l with
    | nil => intro p s' h; injection h with h; cases h
    | cons i l ih =>
      intro p s' h
      rw [List.foldlM_cons] at h
      cases e : Sched.retain dbg p i (.conv w) with
      | error => rw [e] at h; cases h
      | ok r =>
        obtain ⟨r, q⟩ := r
        rw [e] at h
        cases q with
        | unchanged => exact ih r s' h
        | propagated => exact ih r s' h
        | recovered => cases h
        | fatal => cases h
  have key : ∀ (l : List Nat), (∀ i ∈ l, i < s.schedule.length) → (∀ s', l.foldlM (fun (p : Sched × Outcome) i => do
        match ← Sched.retain dbg p.1 i (.conv w) with
        | (s, .unchanged) => return (s, p.2)
        | (s, .propagated) => return (s, .propagated)
        | _ => .error .unwrapNone) (s, .unchanged) = .ok (s', .unchanged) →
        s' = s ∧ ∀ i ∈ l, ∀ x, s.schedule[i]? = some x → w.containsSet x = true) ∧
      ((∀ i ∈ l, ∀ x, s.schedule[i]? = some x → w.containsSet x = true) → l.foldlM (fun (p : Sched × Outcome) i => do
        match ← Sched.retain dbg p.1 i (.conv w) with
        | (s, .unchanged) => return (s, p.2)
        | (s, .propagated) => return (s, .propagated)
        | _ => .error .unwrapNone) (s, .unchanged) = .ok (s, .unchanged)) := by
    intro l
    induction l with
    | nil => exact fun _ => ⟨fun s' h => ⟨by injection h with h; exact (congrArg Prod.fst h).symm, by simp⟩, fun _ => rfl⟩
    | cons i l ih =>
      intro hl
      obtain ⟨ih1, ih2⟩ := ih (fun k hk => hl k (by simp [hk]))
      constructor
      · intro s' h
        rw [List.foldlM_cons] at h
        cases e : Sched.retain dbg s i (.conv w) with
        | error => simp only [e] at h; cases h
        | ok r =>
          obtain ⟨r, q⟩ := r
          simp only [e] at h
          cases q with
          | unchanged =>
            obtain ⟨rfl, h2⟩ := out i r e
            obtain ⟨h3, h4⟩ := ih1 s' h
            refine ⟨h3, fun k hk => ?_⟩
            rcases List.mem_cons.1 hk with rfl | hk
            · exact h2
            · exact h4 k hk
          | propagated => exact absurd h (prop l r s')
          | recovered => cases h
          | fatal => cases h
      · intro h
        have hi := hl i (by simp)
        rw [List.foldlM_cons]
        simp only [same i _ (List.getElem?_eq_getElem hi) (h i (by simp) _ (List.getElem?_eq_getElem hi))]
        exact ih2 fun k hk => h k (by simp [hk])
  obtain ⟨k1, k2⟩ := key (List.range s.schedule.length) (fun i hi => by simpa using hi)
  refine ⟨fun s' h => (k1 s' h).1, fun h x hx => ?_, fun h => k2 fun i _ x hx => h x (List.mem_of_getElem? hx)⟩
  obtain ⟨i, hi, rfl⟩ := List.getElem_of_mem hx
  exact (k1 s h).2 i (by simpa using hi) _ (List.getElem?_eq_getElem hi)

/-- C79. `Ok(Unchanged)` is decided: on any canonical schedule, `set_deadline(d)` answers so iff every instant has a date and none after `d`,
and then nothing has changed. -/
theorem C79_deadline_unchanged (dbg : Bool) {s : Sched} (hs : CanonSched s) {d : Int} (hd : Date d) :
    (∀ s', s.setDeadline dbg d = .ok (s', .unchanged) → s' = s) ∧
    (s.setDeadline dbg d = .ok (s, .unchanged) ↔
      ∀ i, i < s.graph.size → (∃ t, Slot s i t) ∧ ∀ t, Slot s i t → t ≤ d) := by
  obtain ⟨k1, k2⟩ := retainAll_unchanged dbg s (.rangeToIncl d)
  have hp : ProperWindow (.conv (.rangeToIncl d)) := ⟨hd.1, by have := hd.2; omega⟩
  have hne : ∀ x ∈ s.schedule, (∃ t, InExtSet t x) → x ≠ [] := by
    rintro x - ⟨t, y, hy, -⟩ rfl
    cases hy
  have hc : ∀ x ∈ s.schedule, ((Convex.rangeToIncl d).containsSet x = true ∧ ¬ TSet.lowerBound x > d) ↔
      (∃ t, InExtSet t x) ∧ ∀ t, InExtSet t x → t ≤ d := by
    intro x hx
    have e : (Convex.rangeToIncl d).containsSet x = true ↔ ∀ t, InExtSet t x → InExtConvex t (.rangeToIncl d) :=
      contains_ext hp (hs.2 x hx)
    have e' : ∀ t, InExtConvex t (.rangeToIncl d) ↔ t ≤ d := by
      intro t
      simp only [InExtConvex]
      unfold Date at hd
      omega
    simp only [e, e']
    constructor
    · rintro ⟨h1, h2⟩
      refine ⟨?_, h1⟩
      cases x with
      | nil => exact absurd h2 (by simp only [TSet.lowerBound, List.head?_nil]; unfold Date at hd; omega)
      | cons y ys =>
        obtain ⟨t, -, ht⟩ := canon_nonempty (hs.2 _ hx) (List.cons_ne_nil y ys)
        exact ⟨t, ht⟩
    · rintro ⟨h1, h2⟩
      refine ⟨h2, ?_⟩
      obtain ⟨t, g1, g2⟩ := canon_nonempty (hs.2 x hx) (hne x hx h1)
      have g3 := h2 t g2
      have g4 := (canon_bounds (hs.2 x hx) (hne x hx h1)).2.2.2 t ((extSet_legal (hs.2 x hx).wf (by unfold Legal; ticks)).1 g2)
      omega
  have hall : (∀ i, i < s.graph.size → (∃ t, Slot s i t) ∧ ∀ t, Slot s i t → t ≤ d) ↔
      ∀ x ∈ s.schedule, (∃ t, InExtSet t x) ∧ ∀ t, InExtSet t x → t ≤ d := by
    rw [← hs.1]
    constructor
    · intro h x hx
      obtain ⟨i, hi, rfl⟩ := List.getElem_of_mem hx
      have := h i hi
      simpa only [slot_get (s := s) (List.getElem?_eq_getElem hi)] using this
    · intro h i hi
      simpa only [slot_get (s := s) (List.getElem?_eq_getElem hi)] using h _ (List.getElem_mem hi)
  rw [hall]
  unfold Sched.setDeadline
  split
  · rename_i hany
    obtain ⟨x, hx, hlt⟩ := List.any_eq_true.1 hany
    refine ⟨fun s' h => (nomatch Except.ok.inj h), fun h => (nomatch Except.ok.inj h), fun h => ?_⟩
    exact absurd (of_decide_eq_true hlt) ((hc x hx).2 (h x hx)).2
  · rename_i hany
    refine ⟨k1, k2.trans ⟨fun h x hx => (hc x hx).1 ⟨h x hx, fun c => hany ?_⟩, fun h x hx => ((hc x hx).2 (h x hx)).1⟩⟩
    exact List.any_eq_true.2 ⟨x, hx, decide_eq_true c⟩

/-- C79. `Ok(Unchanged)` is decided: on any canonical schedule, `set_startline(d)` answers so iff every instant has a date and none before `d`,
and then nothing has changed. -/
theorem C79_startline_unchanged (dbg : Bool) {s : Sched} (hs : CanonSched s) {d : Int} (hd : Date d) :
    (∀ s', s.setStartline dbg d = .ok (s', .unchanged) → s' = s) ∧
    (s.setStartline dbg d = .ok (s, .unchanged) ↔
      ∀ i, i < s.graph.size → (∃ t, Slot s i t) ∧ ∀ t, Slot s i t → d ≤ t) := by
  obtain ⟨k1, k2⟩ := retainAll_unchanged dbg s (.rangeFrom d)
  have hp : ProperWindow (.conv (.rangeFrom d)) := ⟨by have := hd.1; omega, hd.2⟩
  have hne : ∀ x ∈ s.schedule, (∃ t, InExtSet t x) → x ≠ [] := by
    rintro x - ⟨t, y, hy, -⟩ rfl
    cases hy
  have hc : ∀ x ∈ s.schedule, ((Convex.rangeFrom d).containsSet x = true ∧ ¬ TSet.upperBound x < d) ↔
      (∃ t, InExtSet t x) ∧ ∀ t, InExtSet t x → d ≤ t := by
    intro x hx
    have e : (Convex.rangeFrom d).containsSet x = true ↔ ∀ t, InExtSet t x → InExtConvex t (.rangeFrom d) :=
      contains_ext hp (hs.2 x hx)
    have e' : ∀ t, InExtConvex t (.rangeFrom d) ↔ d ≤ t := by
      intro t
      simp only [InExtConvex]
      unfold Date at hd
      omega
    simp only [e, e']
    constructor
    · rintro ⟨h1, h2⟩
      refine ⟨?_, h1⟩
      cases x with
      | nil => exact absurd h2 (by simp only [TSet.upperBound, List.getLast?_nil]; unfold Date at hd; omega)
      | cons y ys =>
        obtain ⟨t, -, ht⟩ := canon_nonempty (hs.2 _ hx) (List.cons_ne_nil y ys)
        exact ⟨t, ht⟩
    · rintro ⟨h1, h2⟩
      refine ⟨h2, ?_⟩
      obtain ⟨t, g1, g2⟩ := canon_nonempty (hs.2 x hx) (hne x hx h1)
      have g3 := h2 t g2
      have g4 := (canon_bounds (hs.2 x hx) (hne x hx h1)).2.2.2 t ((extSet_legal (hs.2 x hx).wf (by unfold Legal; ticks)).1 g2)
      omega
  have hall : (∀ i, i < s.graph.size → (∃ t, Slot s i t) ∧ ∀ t, Slot s i t → d ≤ t) ↔
      ∀ x ∈ s.schedule, (∃ t, InExtSet t x) ∧ ∀ t, InExtSet t x → d ≤ t := by
    rw [← hs.1]
    constructor
    · intro h x hx
      obtain ⟨i, hi, rfl⟩ := List.getElem_of_mem hx
      have := h i hi
      simpa only [slot_get (s := s) (List.getElem?_eq_getElem hi)] using this
    · intro h i hi
      simpa only [slot_get (s := s) (List.getElem?_eq_getElem hi)] using h _ (List.getElem_mem hi)
  rw [hall]
  unfold Sched.setStartline
  split
  · rename_i hany
    obtain ⟨x, hx, hlt⟩ := List.any_eq_true.1 hany
    refine ⟨fun s' h => (nomatch Except.ok.inj h), fun h => (nomatch Except.ok.inj h), fun h => ?_⟩
    exact absurd (of_decide_eq_true hlt) ((hc x hx).2 (h x hx)).2
  · rename_i hany
    refine ⟨k1, k2.trans ⟨fun h x hx => (hc x hx).1 ⟨h x hx, fun c => hany ?_⟩, fun h x hx => ((hc x hx).2 (h x hx)).1⟩⟩
    exact List.any_eq_true.2 ⟨x, hx, decide_eq_true c⟩

example : CanonSched exPlanned ∧ exPlanned.setDeadline true 30 = .ok (exPlanned, .unchanged) ∧
    exPlanned.setStartline true 0 = .ok (exPlanned, .unchanged) := by decide +kernel

/-- C90: after any history of `retain` and `remove` with windows of any kind, `set_deadline` never loses an assignment
which meets the deadline; if it returns `Ok`, no slot has a date after `d`; if it returns `Err(Recovered)` nothing
changes, and if it does so or panics then no assignment within the slots meets the deadline. Missing: it may
panic, see `C90_violated`. -/
theorem C90_deadline_partial (dbg : Bool) {g : Graph} (hv : Valid g) (hz : ZeroDiag g) (hs : Spanned g) {B W : Int} (hB : 0 ≤ B)
    (hg : Within B g) {calls : List Call} (hW : W + calls.length * B + g.size * B < INF) (hok : ∀ c ∈ calls, c.Ok g.size W)
    {s : Sched} {acc : List Call} (h : callAll dbg (Sched.new g) calls = .ok (s, acc)) {d : Int} (hd : -W ≤ d ∧ d ≤ W) :
    (∃ s' o, s.setDeadline dbg d = .ok (s', o) ∧
      (o = .recovered → s' = s ∧ ¬ ∃ τ, Feasible τ s ∧ ∀ i, i < g.size → τ i ≤ d) ∧
      (o ≠ .recovered → (∀ i t, Slot s' i t → Slot s i t ∧ t ≤ d) ∧
        ∀ τ, Feasible τ s → (∀ i, i < g.size → τ i ≤ d) → Feasible τ s')) ∨
    (s.setDeadline dbg d = .error .unwrapNone ∧ ¬ ∃ τ, Feasible τ s ∧ ∀ i, i < g.size → τ i ≤ d) ∨
    (dbg = true ∧ s.setDeadline dbg d = .error .debugAssert) := by
  have hn1 : 0 ≤ (calls.length : Int) * B := Int.mul_nonneg (by omega) hB
  have hn2 : 0 ≤ (g.size : Int) * B := Int.mul_nonneg (by omega) hB
  obtain ⟨h1, h2, h3⟩ := callAll_within dbg hB calls (s := Sched.new g) (V := W) hv hz hs (new_loose g) hg (new_within g W)
    (Int.le_refl _) (by omega) hok h
  have h1 : s.graph = g := h1
  subst h1
  have hmem : ∀ i, i ∈ List.range s.schedule.length ↔ i < s.graph.size := by
    intro i; rw [List.mem_range, h2.1]
  have hdd : d ≠ INF := by omega
  unfold Sched.setDeadline
  split
  · rename_i hany
    left
    refine ⟨s, .recovered, rfl, fun _ => ⟨rfl, ?_⟩, fun h => absurd rfl h⟩
    rintro ⟨τ, hτ, hle⟩
    obtain ⟨w, hw, hlt⟩ := List.any_eq_true.1 hany
    have hlt : d < TSet.lowerBound w := of_decide_eq_true hlt
    obtain ⟨j, hj⟩ := List.mem_iff_getElem?.1 hw
    have hl : j < s.graph.size := by
      rw [List.getElem?_eq_some_iff] at hj
      rw [← h2.1]; exact hj.1
    have hin := hτ.2 j hl
    rw [slot_get hj] at hin
    obtain ⟨x, hx, hin⟩ := hin
    have hb := (loose_bounds (h2.2 w hw) x hx).1
    have := hle j hl
    simp only [InExt] at hin
    omega
  · have hlen : ((List.range s.schedule.length).length : Int) = s.graph.size := by rw [List.length_range, h2.1]
    rcases retainAll_loose dbg hB (w := .rangeToIncl d) (W := W) (by
        show -INF < d ∧ d ≤ INF
        omega) (Or.inr hd) (List.range s.schedule.length) s .unchanged hv hz hs h2 hg h3 (by omega)
        (by rw [hlen]; omega) (fun i hi => (hmem i).1 hi) (by decide) (by decide) with
      ⟨s', o, b1, b2, b3, b4, b5, b6⟩ | ⟨b1, b2⟩ | ⟨b1, b2⟩
    · left
      refine ⟨s', o, b1, fun h => absurd h b3, fun _ => ⟨fun i t ht => ?_, fun τ hτ hle => ?_⟩⟩
      · obtain ⟨c1, c2⟩ := b5 i t ht
        refine ⟨c1, (c2 ((hmem i).2 ?_)).resolve_left hdd⟩
        obtain ⟨w, hw, -⟩ := c1
        have hw : s.schedule[i]? = some w := hw
        rw [List.getElem?_eq_some_iff] at hw
        rw [← h2.1]; exact hw.1
      · exact b6 τ hτ (fun i hi => Or.inr (hle i ((hmem i).1 hi)))
    · right; left
      refine ⟨b1, ?_⟩
      rintro ⟨τ, hτ, hle⟩
      exact b2 ⟨τ, hτ, fun i hi => Or.inr (hle i ((hmem i).1 hi))⟩
    · exact Or.inr (Or.inr ⟨b1, b2⟩)

/-- C90, symmetrically for `set_startline`. -/
theorem C90_startline_partial (dbg : Bool) {g : Graph} (hv : Valid g) (hz : ZeroDiag g) (hs : Spanned g) {B W : Int} (hB : 0 ≤ B)
    (hg : Within B g) {calls : List Call} (hW : W + calls.length * B + g.size * B < INF) (hok : ∀ c ∈ calls, c.Ok g.size W)
    {s : Sched} {acc : List Call} (h : callAll dbg (Sched.new g) calls = .ok (s, acc)) {d : Int} (hd : -W ≤ d ∧ d ≤ W) :
    (∃ s' o, s.setStartline dbg d = .ok (s', o) ∧
      (o = .recovered → s' = s ∧ ¬ ∃ τ, Feasible τ s ∧ ∀ i, i < g.size → d ≤ τ i) ∧
      (o ≠ .recovered → (∀ i t, Slot s' i t → Slot s i t ∧ d ≤ t) ∧
        ∀ τ, Feasible τ s → (∀ i, i < g.size → d ≤ τ i) → Feasible τ s')) ∨
    (s.setStartline dbg d = .error .unwrapNone ∧ ¬ ∃ τ, Feasible τ s ∧ ∀ i, i < g.size → d ≤ τ i) ∨
    (dbg = true ∧ s.setStartline dbg d = .error .debugAssert) := by
  have hn1 : 0 ≤ (calls.length : Int) * B := Int.mul_nonneg (by omega) hB
  have hn2 : 0 ≤ (g.size : Int) * B := Int.mul_nonneg (by omega) hB
  obtain ⟨h1, h2, h3⟩ := callAll_within dbg hB calls (s := Sched.new g) (V := W) hv hz hs (new_loose g) hg (new_within g W)
    (Int.le_refl _) (by omega) hok h
  have h1 : s.graph = g := h1
  subst h1
  have hmem : ∀ i, i ∈ List.range s.schedule.length ↔ i < s.graph.size := by
    intro i; rw [List.mem_range, h2.1]
  have hdd : d ≠ -INF := by omega
  unfold Sched.setStartline
  split
  · rename_i hany
    left
    refine ⟨s, .recovered, rfl, fun _ => ⟨rfl, ?_⟩, fun h => absurd rfl h⟩
    rintro ⟨τ, hτ, hle⟩
    obtain ⟨w, hw, hlt⟩ := List.any_eq_true.1 hany
    have hlt : TSet.upperBound w < d := of_decide_eq_true hlt
    obtain ⟨j, hj⟩ := List.mem_iff_getElem?.1 hw
    have hl : j < s.graph.size := by
      rw [List.getElem?_eq_some_iff] at hj
      rw [← h2.1]; exact hj.1
    have hin := hτ.2 j hl
    rw [slot_get hj] at hin
    obtain ⟨x, hx, hin⟩ := hin
    have hb := (loose_bounds (h2.2 w hw) x hx).2
    have := hle j hl
    simp only [InExt] at hin
    omega
  · have hlen : ((List.range s.schedule.length).length : Int) = s.graph.size := by rw [List.length_range, h2.1]
    rcases retainAll_loose dbg hB (w := .rangeFrom d) (W := W) (by
        show -INF ≤ d ∧ d < INF
        omega) (Or.inr hd) (List.range s.schedule.length) s .unchanged hv hz hs h2 hg h3 (by omega)
        (by rw [hlen]; omega) (fun i hi => (hmem i).1 hi) (by decide) (by decide) with
      ⟨s', o, b1, b2, b3, b4, b5, b6⟩ | ⟨b1, b2⟩ | ⟨b1, b2⟩
    · left
      refine ⟨s', o, b1, fun h => absurd h b3, fun _ => ⟨fun i t ht => ?_, fun τ hτ hle => ?_⟩⟩
      · obtain ⟨c1, c2⟩ := b5 i t ht
        refine ⟨c1, (c2 ((hmem i).2 ?_)).resolve_left hdd⟩
        obtain ⟨w, hw, -⟩ := c1
        have hw : s.schedule[i]? = some w := hw
        rw [List.getElem?_eq_some_iff] at hw
        rw [← h2.1]; exact hw.1
      · exact b6 τ hτ (fun i hi => Or.inr (hle i ((hmem i).1 hi)))
    · right; left
      refine ⟨b1, ?_⟩
      rintro ⟨τ, hτ, hle⟩
      exact b2 ⟨τ, hτ, fun i hi => Or.inr (hle i ((hmem i).1 hi))⟩
    · exact Or.inr (Or.inr ⟨b1, b2⟩)


/-- a history with sets of dates -/
def exSets : List Call :=
  [.retain 2 (.set [⟨1, 1⟩, ⟨5, 5⟩]), .retain 1 (.set [⟨-4, -4⟩, ⟨0, 2⟩]), .retain 0 (.conv (.iv ⟨-4, -1⟩))]

/-- instant 1 follows instant 0 by 2 to 5 ticks, instant 2 follows instant 1 by 3 to 5 ticks and instant 0 by 5 to 8 -/
def exDelays : Graph := ⟨3, [0, -5, 0, 2, -8, -5, 0, 3, 5]⟩

theorem exDelays_valid : Valid exDelays := by decide

theorem exDelays_minimal : Minimal exDelays := by
  rw [minimal_iff exDelays_valid]
  have d : ∀ i : Fin 3, mat exDelays i i = 0 := by decide
  have t : ∀ i k j : Fin 3, mat exDelays i k ≠ -INF → mat exDelays k j ≠ -INF →
      mat exDelays i j ≠ -INF ∧ mat exDelays i k + mat exDelays k j ≤ mat exDelays i j := by decide
  exact ⟨fun i hi => d ⟨i, hi⟩, fun i hi k hk j hj => t ⟨i, hi⟩ ⟨k, hk⟩ ⟨j, hj⟩⟩

theorem exDelays_within : Within 8 exDelays := by
  rw [within_iff exDelays_valid]
  have d : ∀ i j : Fin 3, mat exDelays i j = -INF ∨ (-8 ≤ mat exDelays i j ∧ mat exDelays i j ≤ 8) := by decide
  exact fun i hi j hj => d ⟨i, hi⟩ ⟨j, hj⟩

/-- the schedule `exSets` leads to -/
def exSetsAfter : Sched := ⟨exDelays, [[⟨-4, -1⟩], [⟨0, 2⟩], [⟨1, 1⟩, ⟨5, 5⟩]]⟩

theorem exSets_ok : ∀ c ∈ exSets, c.Ok exDelays.size 10 := by decide

theorem exSets_run (dbg : Bool) : callAll dbg (Sched.new exDelays) exSets = .ok (exSetsAfter, exSets) := by
  cases dbg <;> decide +kernel

-- the hypotheses of C90 are met
example := C90_deadline_partial false exDelays_valid (zeroDiag_of_minimal exDelays_valid exDelays_minimal)
  (spanned_of_sat exDelays_minimal.1 (by decide) exDelays_within) (by decide) exDelays_within (by decide) exSets_ok
  (exSets_run false) (d := 6) (by decide)
example := C90_startline_partial false exDelays_valid (zeroDiag_of_minimal exDelays_valid exDelays_minimal)
  (spanned_of_sat exDelays_minimal.1 (by decide) exDelays_within) (by decide) exDelays_within (by decide) exSets_ok
  (exSets_run false) (d := -4) (by decide)

/-- C90 fails: after three accepted calls with sets of dates, each instant has a date until 1, but the deadline 1 makes
`set_deadline` panic instead of returning an error. -/
theorem C90_violated (dbg : Bool) : callAll dbg (Sched.new exDelays) exSets = .ok (exSetsAfter, exSets) ∧
    (∀ i, i < 3 → ∃ t, Slot exSetsAfter i t ∧ t ≤ 1) ∧ exSetsAfter.setDeadline dbg 1 = .error .unwrapNone := by
  refine ⟨exSets_run dbg, fun i hi => ?_, by cases dbg <;> decide +kernel⟩
  match i, hi with
  | 0, _ => exact ⟨-4, ⟨_, rfl, by decide⟩, by decide⟩
  | 1, _ => exact ⟨0, ⟨_, rfl, by decide⟩, by decide⟩
  | 2, _ => exact ⟨1, ⟨_, rfl, by decide⟩, by decide⟩

end Chrono
