import Verif.Props.Steady
import Verif.Props.SchedGreedy

/-!
# C132: adding constraints never gives anything back
-/

namespace Chrono
open Spec

/-- the time span announced is the set of the delays of the solutions -/
theorem SInv.delays {N : Nat} {W : Int} {g : Graph} {P : (Nat → Int) → Prop} (h : SInv N W g P) {i j : Nat} (hij : i ≠ j) (t : Int) :
    (∃ s, g.timespan i j = .ok s ∧ InExt t s) ↔ ∃ τ, P τ ∧ τ j - τ i = t := by
  by_cases c : i < g.size ∧ j < g.size
  · rw [timespan_eq h.valid c.1 c.2]
    constructor
    · rintro ⟨s, e, a, b⟩
      cases e
      simp only at a b
      obtain ⟨τ, t1, t2⟩ := h.closed.attain c.1 c.2 (d := t) a (by omega) (fun e => absurd e hij)
      exact ⟨τ, (h.sat τ).1 t1, t2⟩
    · rintro ⟨τ, t1, rfl⟩
      obtain ⟨s, e, k⟩ := (sat_iff h.valid τ).2 ((h.sat τ).2 t1) i j c.1 c.2
      rw [timespan_eq h.valid c.1 c.2] at e
      exact ⟨s, e, k⟩
  · rw [timespan_out (by omega)]
    constructor
    · intro _
      obtain ⟨τ, hτ⟩ := h.closed.sat
      by_cases d : j < g.size
      · refine ⟨fun k => if k = i then τ j - t else τ k, (h.sat _).1 (fun a ha b hb => ?_), ?_⟩
        · rw [if_neg (by omega), if_neg (by omega)]
          exact hτ a ha b hb
        · simp only
          rw [if_neg (Ne.symm hij), if_pos trivial]
          omega
      · refine ⟨fun k => if k = j then τ i + t else τ k, (h.sat _).1 (fun a ha b hb => ?_), ?_⟩
        · rw [if_neg (by omega), if_neg (by omega)]
          exact hτ a ha b hb
        · simp only
          rw [if_neg hij, if_pos trivial]
          omega
    · intro _
      exact ⟨_, rfl, Or.inl rfl, Or.inl rfl⟩

/-- C132: of two graphs, whatever their histories, the constraints of one imply those of the other if and only if all the delays it allows are
allowed by the other. -/
theorem C132_graph_partial {N : Nat} (hN : 0 < N) (hN' : N ≤ 65535) {W : Int} (hW : 0 ≤ W) (hB : 3 * (N : Int) * (N * W) < INF)
    {g g' : Graph} {P P' : (Nat → Int) → Prop} (h : Steady N W g P) (h' : Steady N W g' P') :
    (∀ τ, P' τ → P τ) ↔
      ∀ i j, i ≠ j → ∀ t, (∃ s, g'.timespan i j = .ok s ∧ InExt t s) → ∃ s, g.timespan i j = .ok s ∧ InExt t s := by
  have i1 := steady_inv hN' hN hW hB h
  have i2 := steady_inv hN' hN hW hB h'
  constructor
  · intro hp i j hij t k
    rw [i2.delays hij] at k
    rw [i1.delays hij]
    obtain ⟨τ, k1, k2⟩ := k
    exact ⟨τ, hp τ k1, k2⟩
  · intro k τ hp
    rw [← i1.sat, ← sat_iff i1.valid]
    intro i j hi hj
    by_cases d : i = j
    · subst d
      refine ⟨_, timespan_eq i1.valid hi hi, ?_⟩
      rw [i1.closed.diag i hi]
      exact ⟨Or.inr (by simp only; omega), Or.inr (by simp only; omega)⟩
    · exact k i j d _ ((i2.delays d _).2 ⟨τ, hp, rfl⟩)

/-- C132: then what the weaker graph refuses the stronger one refuses, be it a constraint, a batch or a merge with another graph, and the
constraints which the weaker one knows already the stronger one knows. -/
theorem C132_answers_partial {N : Nat} (hN : 0 < N) (hN' : N ≤ 65535) {W : Int} (hW : 0 ≤ W) (hB : 3 * (N : Int) * (N * W) < INF)
    {g g' : Graph} {P P' : (Nat → Int) → Prop} (h : Steady N W g P) (h' : Steady N W g' P') (hp : ∀ τ, P' τ → P τ) :
    (∀ k, Usable g.size W k → Usable g'.size W k → ∃ x o x' o', g.propagate k = .ok (x, o) ∧ g'.propagate k = .ok (x', o') ∧
      (o = .recovered → o' = .recovered) ∧ (o = .unchanged → o' = .unchanged)) ∧
    (∀ ks hint, (∀ k ∈ ks, Batchable N W k) → hint ≠ some 0 → hint ≠ some 1 →
      ∃ x o x' o', g.extend hint ks = .ok (x, o) ∧ g'.extend hint ks = .ok (x', o') ∧ (o = .fatal → o' = .fatal)) ∧
    (∀ m Q, Steady N W m Q → ∃ x o x' o', g.merge m = .ok (x, o) ∧ g'.merge m = .ok (x', o') ∧ (o = .fatal → o' = .fatal)) := by
  have i1 := steady_inv hN' hN hW hB h
  have i2 := steady_inv hN' hN hW hB h'
  refine ⟨fun k hk hk' => ?_, fun ks hint hk h0 h1 => ?_, fun m Q hm => ?_⟩
  · obtain ⟨x, o, e, -, -, r, -, n⟩ := sinv_propagate hW hN hB i1 hk
    obtain ⟨x', o', e', -, -, -, a', n'⟩ := sinv_propagate hW hN hB i2 hk'
    refine ⟨x, o, x', o', e, e', fun c => ?_, fun c => ?_⟩
    · by_cases c' : o' = .recovered
      · exact c'
      · obtain ⟨τ, t⟩ := (a' c').closed.sat
        have t := ((a' c').sat τ).1 t
        exact absurd t.2 ((r c).2 τ (hp τ t.1))
    · exact n'.2 fun τ t => n.1 c τ (hp τ t)
  · rcases sinv_extend hN' hW hN hB i2 hk h0 h1 with ⟨x', e', -, a'⟩ | ⟨x', e', a'⟩ <;>
      rcases sinv_extend hN' hW hN hB i1 hk h0 h1 with ⟨x, e, -, a⟩ | ⟨x, e, a⟩
    · exact ⟨x, _, x', _, e, e', nofun⟩
    · obtain ⟨τ, t⟩ := a'.closed.sat
      have t := (a'.sat τ).1 t
      exact absurd ⟨hp τ t.1, t.2⟩ (a τ)
    · exact ⟨x, _, x', _, e, e', nofun⟩
    · exact ⟨x, _, x', _, e, e', fun _ => rfl⟩
  · have i3 := steady_inv hN' hN hW hB hm
    obtain ⟨x, o, e, -, f, -⟩ := sinv_merge hW hN hB i1 i3
    obtain ⟨x', o', e', -, f', -⟩ := sinv_merge hW hN hB i2 i3
    exact ⟨x, o, x', o', e, e', fun c => f'.2 fun ⟨τ, t1, t2⟩ => f.1 c ⟨τ, hp τ t1, t2⟩⟩

/-- C132 for schedulers without sets: if the plans of the second one are plans of the first, whatever the graphs and the requests, then all the
dates it leaves are left by the first; what the first refuses the second refuses; the windows, and with the same number of instants the deadlines and
startlines, which the first answers unchanged the second answers unchanged. -/
theorem C132_sched_partial (dbg : Bool) {g g' : Graph} (hv : Valid g) (hv' : Valid g') (hm : Minimal g) (hm' : Minimal g') (hs : g.size ≤ g'.size)
    {B W : Int} (hB : 0 ≤ B) (hW : 0 ≤ W) (hg : Within B g) (hg' : Within B g') (hBW : W + 2 * B < INF) {calls calls' : List PlanCall}
    (hok : ∀ c ∈ calls, c.Ok g.size W) (hok' : ∀ c ∈ calls', c.Ok g'.size W) {s s' : Sched} {acc acc' : List PlanCall}
    (h : planAll dbg (Sched.new g) calls = .ok (s, acc)) (h' : planAll dbg (Sched.new g') calls' = .ok (s', acc'))
    (hp : ∀ τ, Sat τ g' → (∀ c ∈ acc', c.Allows g'.size τ) → Sat τ g ∧ ∀ c ∈ acc, c.Allows g.size τ) :
    (∀ i, i < g.size → ∀ t, Slot s' i t → Slot s i t) ∧
    (∀ c : PlanCall, c.Ok g.size W → c.Ok g'.size W → ∃ x o x' o', c.run dbg s = .ok (x, o) ∧ c.run dbg s' = .ok (x', o') ∧
      (o = .recovered → o' = .recovered)) ∧
    (∀ i w, (PlanCall.retain i w).Ok g.size W → (∃ x, s.retain dbg i (.conv w) = .ok (x, .unchanged)) →
      ∃ x, s'.retain dbg i (.conv w) = .ok (x, .unchanged)) ∧
    (g.size = g'.size → ∀ d, -W ≤ d → d ≤ W →
      (s.setDeadline dbg d = .ok (s, .unchanged) → s'.setDeadline dbg d = .ok (s', .unchanged)) ∧
      (s.setStartline dbg d = .ok (s, .unchanged) → s'.setStartline dbg d = .ok (s', .unchanged))) := by
  obtain ⟨s1, acc1, k1, k2, ⟨lo, hi, hc⟩, -, k3⟩ := plan_history dbg hv hm hg hB hW hBW calls (Sched.new g) rfl ⟨_, _, new_conv g _⟩ hok
  rw [h] at k1
  cases k1
  obtain ⟨s2, acc2, l1, l2, ⟨lo', hi', hc'⟩, -, l3⟩ := plan_history dbg hv' hm' hg' hB hW hBW calls' (Sched.new g') rfl ⟨_, _, new_conv g' _⟩ hok'
  rw [h'] at l1
  cases l1
  have inc : ∀ i, i < g.size → ∀ t, Slot s' i t → Slot s i t := by
    intro i hi t ht
    obtain ⟨τ, f, rfl⟩ := hc'.attain (by rw [l2]; exact hv') (by rw [l2]; exact hm') (by rw [l2]; omega) ht
    have q := (l3 τ).1 f
    have q := hp τ ((new_feasible _ _).1 q.1) q.2
    have q := (k3 τ).2 ⟨(new_feasible _ _).2 q.1, q.2⟩
    exact q.2 i (by rw [k2]; exact hi)
  refine ⟨inc, fun c hc1 hc2 => ?_, fun i w hw e => ?_, fun hz d hd1 hd2 => ?_⟩
  · obtain ⟨x, o, e, -, -, r⟩ := C78_next_partial dbg hv hm hB hW hg hBW hok h hc1
    obtain ⟨x', o', e', -, -, r'⟩ := C78_next_partial dbg hv' hm' hB hW hg' hBW hok' h' hc2
    refine ⟨x, o, x', o', e, e', fun q => r'.2 ?_⟩
    rintro ⟨τ, t1, t2, t3⟩
    have p := hp τ t1 t2
    refine r.1 q ⟨τ, p.1, p.2, ?_⟩
    cases c with
    | retain i w => exact t3
    | deadline d => exact fun j hj => t3 j (by omega)
    | startline d => exact fun j hj => t3 j (by omega)
  · obtain ⟨w1, w2, -, -⟩ := hw
    have a := (C75_unchanged dbg hc.canon (i := i) (by rw [k2]; exact w1) (w := .conv w) w2).1 e
    exact (C75_unchanged dbg hc'.canon (i := i) (by rw [l2]; omega) (w := .conv w) w2).2 fun t ht => a t (inc i w1 t ht)
  · have hd : Date d := by
      simp only [Date]
      omega
    have some : ∀ i, i < s'.graph.size → ∃ t, Slot s' i t := by
      intro i hi'
      obtain ⟨t, -, ht⟩ := (hc'.arc.wf i hi').exists_date
      exact ⟨t, (hc'.slot hi' t).2 ⟨Or.inr ht.1, Or.inr ht.2⟩⟩
    constructor
    · rw [(C79_deadline_unchanged dbg hc.canon hd).2, (C79_deadline_unchanged dbg hc'.canon hd).2]
      intro q i hi'
      rw [l2] at hi'
      exact ⟨some i (by rw [l2]; exact hi'), fun t ht => (q i (by rw [k2]; omega)).2 t (inc i (by omega) t ht)⟩
    · rw [(C79_startline_unchanged dbg hc.canon hd).2, (C79_startline_unchanged dbg hc'.canon hd).2]
      intro q i hi'
      rw [l2] at hi'
      exact ⟨some i (by rw [l2]; exact hi'), fun t ht => (q i (by rw [k2]; omega)).2 t (inc i (by omega) t ht)⟩

/-- C132 is violated by sets: two schedulers on the same graph have accepted the same requests, but one leaves a date for instant 0 which the
other does not. -/
theorem C132_set_violated : ∃ (l l' : List Call) (s s' : Sched), Minimal orderGraph ∧ (∀ q, q ∈ l ↔ q ∈ l') ∧
    (∃ τ, Sat τ orderGraph ∧ ∀ q ∈ l, q.Allows (τ q.instant)) ∧ callAll false (Sched.new orderGraph) l = .ok (s, l) ∧
    callAll false (Sched.new orderGraph) l' = .ok (s', l') ∧ Slot s 0 5 ∧ ¬ Slot s' 0 5 := by
  obtain ⟨a, b, c, s, s', h1, h2, h3, h4, h5, h6⟩ := C125_order_violated
  refine ⟨[a, b, c], [b, a, c], s, s', h1, fun q => ?_, h2, h3, h4, h5, h6⟩
  simp only [List.mem_cons]
  constructor
  · rintro (h | h | h | h) <;> simp [h]
  · rintro (h | h | h | h) <;> simp [h]

/-! ## Examples -/

/-- two histories, the second of which implies the first -/
example : ∃ g g' P P', Steady 3 20 g P ∧ Steady 3 20 g' P' ∧ (∀ τ, P' τ → P τ) ∧ g.timespan 0 1 = .ok ⟨2, 15⟩ ∧ g'.timespan 0 1 = .ok ⟨3, 5⟩ := by
  have a0 : Steady 3 20 ⟨2, [0, -INF, 0, -INF]⟩ _ := .new (n := 2) (by decide) (by decide +kernel)
  have a1 : Steady 3 20 ⟨2, [0, -15, 0, 2]⟩ _ := a0.accepted (k := ⟨0, 1, false, 2, 15⟩) (o := .propagated)
    (by unfold Usable WithinK; decide) (by decide +kernel) (Or.inr rfl)
  have b1 : Steady 3 20 ⟨2, [0, -5, 0, 3]⟩ _ := a0.accepted (k := ⟨1, 0, false, -5, -3⟩) (o := .propagated)
    (by unfold Usable WithinK; decide) (by decide +kernel) (Or.inr rfl)
  refine ⟨_, _, _, _, a1, b1, fun τ => ?_, by decide, by decide⟩
  simp only [Holds, InExt, true_and]
  ticks

/-- two plans on `exGraph`, the second of which implies the first -/
example : planAll true (Sched.new exGraph) [.retain 0 (.iv ⟨0, 100⟩)] =
      .ok (⟨exGraph, [[⟨0, 100⟩], [⟨10, 120⟩], [⟨15, 126⟩]]⟩, [.retain 0 (.iv ⟨0, 100⟩)]) ∧
    planAll true (Sched.new exGraph) [.startline 10, .deadline 50] =
      .ok (⟨exGraph, [[⟨10, 35⟩], [⟨20, 45⟩], [⟨25, 50⟩]]⟩, [.startline 10, .deadline 50]) ∧
    ∀ τ, Sat τ exGraph → (∀ c ∈ [PlanCall.startline 10, .deadline 50], c.Allows exGraph.size τ) →
      Sat τ exGraph ∧ ∀ c ∈ [PlanCall.retain 0 (.iv ⟨0, 100⟩)], c.Allows exGraph.size τ := by
  refine ⟨by decide +kernel, by decide +kernel, fun τ h1 h2 => ⟨h1, fun c hc => ?_⟩⟩
  cases List.mem_singleton.1 hc
  have a := h2 (.startline 10) (by simp) 0 (by decide)
  have b := h2 (.deadline 50) (by simp) 0 (by decide)
  simp only [PlanCall.Allows, InExtConvex, InExt]
  ticks

end Chrono
