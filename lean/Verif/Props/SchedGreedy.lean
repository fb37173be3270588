import Verif.Props.SchedRepeat

/-!
# C126: choosing the dates one after the other
-/

set_option linter.unusedSimpArgs false

namespace Chrono
open Spec

/-- C126: after any history of `retain` with intervals (or dates, or ranges) which are not empty, `set_deadline` and `set_startline` on a minimal
graph, choose a date in the current slots of some instant and request it with `retain`, and so on, in any order: every choice is accepted, in both
builds; a date is left for each instant after each of them (here: after the last one); the chosen instants have their dates and
no other; and once all the instants have been chosen, their dates satisfy the graph and all the accepted requests. -/
theorem C126_greedy_partial (dbg : Bool) {g : Graph} (hv : Valid g) (hm : Minimal g) {B W : Int} (hB : 0 ≤ B) (hW : 0 ≤ W)
    (hg : Within B g) (hBW : W + 2 * B < INF) {calls : List PlanCall} (hok : ∀ c ∈ calls, c.Ok g.size W)
    {s : Sched} {acc : List PlanCall} (h : planAll dbg (Sched.new g) calls = .ok (s, acc))
    {picks : List (Nat × Int)} (hp : Choices dbg W s picks) :
    ∃ s', planAll dbg s (picks.map fun p => .retain p.1 (.point p.2)) = .ok (s', picks.map fun p => .retain p.1 (.point p.2)) ∧
      (∀ i, i < g.size → ∃ t, Slot s' i t) ∧
      (∀ p ∈ picks, s'.scheduling p.1 = some [⟨p.2, p.2⟩]) ∧
      ((∀ i, i < g.size → ∃ t, (i, t) ∈ picks) → ∀ τ : Nat → Int, (∀ p ∈ picks, τ p.1 = p.2) →
        Sat τ g ∧ ∀ c ∈ acc, c.Allows g.size τ) := by
  obtain ⟨s1, acc1, h1, h2, h3, -, h4⟩ := plan_history dbg hv hm hg hB hW hBW calls (Sched.new g) rfl ⟨_, _, new_conv g _⟩ hok
  rw [h] at h1
  cases h1
  subst h2
  have key : ∀ (l : List (Nat × Int)) (q : Sched), q.graph = s.graph → (∃ lo hi, ConvSched (W + B) q lo hi) → Choices dbg W q l →
      ∃ s', planAll dbg q (l.map fun p => .retain p.1 (.point p.2)) = .ok (s', l.map fun p => .retain p.1 (.point p.2)) ∧
        s'.graph = s.graph ∧ (∃ lo hi, ConvSched (W + B) s' lo hi) ∧
        (∀ p ∈ l, p.1 < s.graph.size) ∧
        ∀ τ, Feasible τ s' ↔ Feasible τ q ∧ ∀ p ∈ l, τ p.1 = p.2 := by
    intro l
    induction l with
    | nil => exact fun q hq hc _ => ⟨q, rfl, hq, hc, by simp, fun τ => by simp⟩
    | cons p l ih =>
      obtain ⟨i, t⟩ := p
      rintro q hq ⟨lo, hi, hc⟩ ⟨hs, ht1, ht2, hn⟩
      have hi' : i < q.graph.size := by
        obtain ⟨w, hw, -⟩ := hs
        have hw : q.schedule[i]? = some w := hw
        rw [← hc.len]; exact (List.getElem?_eq_some_iff.1 hw).1
      have hv' : Valid q.graph := by rw [hq]; exact hv
      have hm' : Minimal q.graph := by rw [hq]; exact hm
      have hg' : Within B q.graph := by rw [hq]; exact hg
      have hu : (PlanCall.retain i (.point t)).Ok q.graph.size W := by
        refine ⟨hi', ?_, ⟨t, rfl⟩, ?_⟩
        · simp only [Proper, Date]; omega
        · exact ⟨ht1, ht2⟩
      obtain ⟨τ, f1, f2⟩ := hc.attain hv' hm' hi' hs
      obtain ⟨s1, o, e1, e2, e3, e4⟩ := plan_step dbg hv' hm' hg' hB hW hBW hc hu
      rcases e4 with ⟨-, -, a⟩ | ⟨a1, a2, a3, a4⟩
      · exact absurd ⟨τ, f1, f2⟩ a
      · obtain ⟨s', b1, b2, b3, b4, b5⟩ := ih s1 (e2.trans hq) e3 (hn s1 o e1)
        refine ⟨s', ?_, b2, b3, ?_, fun σ => ?_⟩
        · simp only [List.map_cons, planAll, e1, ok_bind, b1]
          rcases a1 with rfl | rfl <;> rfl
        · intro p hp
          rcases List.mem_cons.1 hp with rfl | hp
          · rw [← hq]; exact hi'
          · exact b4 p hp
        · rw [b5, a4, List.forall_mem_cons, and_assoc]
          exact Iff.rfl
  obtain ⟨s', b1, b2, ⟨lo, hi, b3⟩, b4, b5⟩ := key picks s rfl h3 hp
  have hv' : Valid s'.graph := by rw [b2]; exact hv
  have hm' : Minimal s'.graph := by rw [b2]; exact hm
  have some : ∀ i, i < s'.graph.size → ∃ t, Slot s' i t := by
    intro i hi'
    obtain ⟨t, -, ht⟩ := (b3.arc.wf i hi').exists_date
    exact ⟨t, (b3.slot hi' t).2 ⟨Or.inr ht.1, Or.inr ht.2⟩⟩
  have only : ∀ p ∈ picks, ∀ t, Slot s' p.1 t → t = p.2 := by
    intro p hp t ht
    obtain ⟨τ, c1, rfl⟩ := b3.attain hv' hm' (by rw [b2]; exact b4 p hp) ht
    exact ((b5 τ).1 c1).2 p hp
  have mine : ∀ p ∈ picks, Slot s' p.1 p.2 := by
    intro p hp
    obtain ⟨t, ht⟩ := some p.1 (by rw [b2]; exact b4 p hp)
    have := only p hp t ht
    rwa [this] at ht
  refine ⟨s', b1, fun i hi' => some i (by rw [b2]; exact hi'), fun p hp => ?_, fun hall τ hτ => ?_⟩
  · have hi' : p.1 < s'.graph.size := by rw [b2]; exact b4 p hp
    show s'.schedule[p.1]? = _
    rw [b3.get p.1 hi']
    have a := (b3.slot hi' _).1 (mine p hp)
    have b := fun h => only p hp (p.2 - 1) ((b3.slot hi' _).2 h)
    have c := fun h => only p hp (p.2 + 1) ((b3.slot hi' _).2 h)
    simp only [InExt] at a b c
    have : lo p.1 = p.2 ∧ hi p.1 = p.2 := by omega
    rw [this.1, this.2]
  · obtain ⟨σ, hσ⟩ := b3.exists_feasible hv' hm'
    have same : ∀ i, i < s'.graph.size → τ i = σ i := by
      intro i hi'
      obtain ⟨t, ht⟩ := hall i (by rw [← b2]; exact hi')
      exact (hτ _ ht).trans (((b5 σ).1 hσ).2 _ ht).symm
    have hf : Feasible τ s' := by
      refine ⟨(sat_iff hv' τ).2 (fun i hi' j hj => ?_), fun i hi' => by rw [same i hi']; exact hσ.2 i hi'⟩
      rw [same i hi', same j hj]
      exact (sat_iff hv' σ).1 hσ.1 i hi' j hj
    have := (h4 τ).1 ((b5 τ).1 hf).1
    rwa [new_feasible] at this

-- after `exPlan`: 20 is chosen for instant 1, then 26 for instant 2, then 3 for instant 0
example : ∃ s', planAll true exPlanned [.retain 1 (.point 20), .retain 2 (.point 26), .retain 0 (.point 3)] =
    .ok (s', [.retain 1 (.point 20), .retain 2 (.point 26), .retain 0 (.point 3)]) ∧ s'.scheduling 0 = some [⟨3, 3⟩] := by
  obtain ⟨s', h1, -, h2, -⟩ := C126_greedy_partial true exGraph_valid exGraph_minimal (by decide) (by decide) exGraph_within (by decide) exPlan_ok
    exPlan_run (picks := [(1, 20), (2, 26), (0, 3)]) (by
      have e1 : exPlanned.retain true 1 (.conv (.point 20)) = .ok (⟨exGraph, [[⟨0, 4⟩], [⟨20, 20⟩], [⟨25, 26⟩]]⟩, .propagated) := by decide +kernel
      have e2 : (Sched.mk exGraph [[⟨0, 4⟩], [⟨20, 20⟩], [⟨25, 26⟩]]).retain true 2 (.conv (.point 26)) =
        .ok (⟨exGraph, [[⟨0, 4⟩], [⟨20, 20⟩], [⟨26, 26⟩]]⟩, .propagated) := by decide +kernel
      refine ⟨⟨_, rfl, by decide⟩, by decide, by decide, fun s' o h => ?_⟩
      rw [e1] at h; cases h
      refine ⟨⟨_, rfl, by decide⟩, by decide, by decide, fun s' o h => ?_⟩
      rw [e2] at h; cases h
      exact ⟨⟨_, rfl, by decide⟩, by decide, by decide, fun _ _ _ => trivial⟩)
  exact ⟨s', h1, h2 (0, 3) (by simp)⟩

/-- C126 fails after requests with sets: the three requests of `C125_order_violated` are accepted and have a common solution, 5 is left for
instant 0, and choosing it is accepted, but leaves no date for instant 1. -/
theorem C126_set_violated : ∃ (calls : List Call) (s s' : Sched), Minimal orderGraph ∧
    (∃ τ, Sat τ orderGraph ∧ ∀ q ∈ calls, q.Allows (τ q.instant)) ∧
    callAll false (Sched.new orderGraph) calls = .ok (s, calls) ∧ Slot s 0 5 ∧
    s.retain false 0 (.conv (.point 5)) = .ok (s', .propagated) ∧ ∀ t, ¬ Slot s' 1 t := by
  have hv : Valid orderGraph := by decide
  obtain ⟨-, -, -, -, -, hm, -⟩ := C125_order_violated
  refine ⟨[.retain 1 (.set [⟨0, 4⟩, ⟨10, 10⟩]), .retain 2 (.set [⟨5, 6⟩, ⟨10, 10⟩]), .retain 1 (.set [⟨8, 20⟩])],
    ⟨orderGraph, [[⟨5, 7⟩, ⟨10, 13⟩], [⟨10, 10⟩], [⟨5, 4⟩, ⟨10, 10⟩]]⟩, ⟨orderGraph, [[⟨5, 5⟩], [], [⟨5, 4⟩]]⟩,
    hm, ⟨fun _ => 10, ?_, ?_⟩, by decide +kernel, ⟨_, rfl, by decide⟩, by decide +kernel, ?_⟩
  · rw [sat_iff hv]
    show ∀ i, i < 3 → ∀ j, j < 3 → _
    decide
  · intro q hq
    simp only [List.mem_cons, List.not_mem_nil, or_false] at hq
    rcases hq with rfl | rfl | rfl <;> (simp only [Call.Allows, InExtWindow, Call.instant]; decide)
  · rintro t ⟨w, e, x, hx, -⟩
    cases e
    cases hx

end Chrono
