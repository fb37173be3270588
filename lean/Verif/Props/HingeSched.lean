import Verif.Spec.Hinge
import Verif.Props.SchedRepeat
import Verif.Props.Hinge

/-!
# C153: the schedule of a part of a plan
-/

set_option linter.unusedSimpArgs false

namespace Chrono
open Spec

theorem coupled_sat {P Q : Nat → Bool} {c : Nat} {g : Graph} (hv : Valid g) (hj : Coupled P Q c g) {τ σ : Nat → Int} (ht : Sat τ g)
    (hs : Sat σ g) (e : τ c = σ c) : Sat (fun i => if P i then τ i else σ i) g := by
  have cross : ∀ i j, i < g.size → j < g.size → P i = true → P j = false →
      (mat g i j = -INF ∨ mat g i j ≤ σ j - τ i) ∧ (mat g j i = -INF ∨ mat g j i ≤ τ i - σ j) := by
    intro i j hi hj' hPi hPj
    have hQj : Q j = true := by
      rcases hj.all j hj' with h | h
      · rw [h] at hPj; cases hPj
      · exact h
    obtain ⟨s1, e1, i1⟩ := ht i c hi hj.shared.1
    obtain ⟨s2, e2, i2⟩ := hs c j hj.shared.1 hj'
    have := (hj.through i j hi hj' hPi hQj _ s1 s2 (timespan_eq hv hi hj') e1 e2 (σ j - τ i)).2 ⟨_, _, i1, i2, by omega⟩
    simp only [InExt] at this
    omega
  rw [sat_iff hv]
  intro i hi j hj'
  have a := (sat_iff hv τ).1 ht i hi j hj'
  have b := (sat_iff hv σ).1 hs i hi j hj'
  cases h1 : P i <;> cases h2 : P j <;> simp only [h1, h2, if_true, if_false, Bool.false_eq_true]
  · exact b
  · exact (cross j i hj' hi h2 h1).2
  · exact (cross i j hi hj' h1 h2).1
  · exact a

/-- the dates of a part after a history: those which its own requests and the date of the shared instant allow -/
theorem part_dates (dbg dbg' : Bool) {P Q : Nat → Bool} {c : Nat} {g : Graph} (hv : Valid g) (hm : Minimal g) (hj : Coupled P Q c g)
    {B W : Int} (hB : 0 ≤ B) (hW : 0 ≤ W) (hg : Within B g) (hBW : W + 2 * B < INF) {l : List PlanCall} (hl : ∀ r ∈ l, r.Ok g.size W)
    {s : Sched} {acc : List PlanCall} (h : planAll dbg (Sched.new g) l = .ok (s, acc)) :
    ∃ q, planAll dbg' (Sched.new g) (acc.filter (PlanCall.about Q)) = .ok (q, acc.filter (PlanCall.about Q)) ∧
      ∀ i, i < g.size → P i = true → ∀ t, Slot s i t ↔
        ∃ τ, Sat τ g ∧ (∀ r ∈ acc, r.about P = true → r.Allows g.size τ) ∧ Slot q c (τ c) ∧ τ i = t := by
  obtain ⟨s1, a1, e1, e2, ⟨lo, hi, e3⟩, e5, e4⟩ := plan_history dbg hv hm hg hB hW hBW l (Sched.new g) rfl ⟨_, _, new_conv g _⟩ hl
  rw [h] at e1
  cases e1
  have hv' : Valid s.graph := by rw [e2]; exact hv
  have hm' : Minimal s.graph := by rw [e2]; exact hm
  obtain ⟨τ0, f0⟩ := e3.exists_feasible hv' hm'
  have f0' := (e4 τ0).1 f0
  have ho : ∀ r ∈ acc.filter (PlanCall.about Q), r.Ok g.size W := fun r hr => hl r (e5 r (List.mem_filter.1 hr).1)
  obtain ⟨q, eq⟩ := plan_accepts dbg' hv hm hg hB hW hBW τ0 (acc.filter (PlanCall.about Q)) (Sched.new g) rfl ⟨_, _, new_conv g _⟩ ho
    f0'.1 (fun r hr => f0'.2 r (List.mem_filter.1 hr).1)
  obtain ⟨q1, a2, g1, g2, ⟨lo', hi', g3⟩, -, g4⟩ := plan_history dbg' hv hm hg hB hW hBW _ (Sched.new g) rfl ⟨_, _, new_conv g _⟩ ho
  rw [eq] at g1
  cases g1
  refine ⟨q, eq, fun i hi' hP t => ⟨fun hs => ?_, fun ⟨τ, t1, t2, t3, t4⟩ => ?_⟩⟩
  · obtain ⟨τ, f, rfl⟩ := e3.attain hv' hm' (by rw [e2]; exact hi') hs
    have f' := (e4 τ).1 f
    refine ⟨τ, (new_feasible g τ).1 f'.1, fun r hr _ => f'.2 r hr, ?_, rfl⟩
    exact ((g4 τ).2 ⟨f'.1, fun r hr => f'.2 r (List.mem_filter.1 hr).1⟩).2 c (by rw [g2]; exact hj.shared.1)
  · obtain ⟨σ, f, ec⟩ := g3.attain (by rw [g2]; exact hv) (by rw [g2]; exact hm) (by rw [g2]; exact hj.shared.1) t3
    have f' := (g4 σ).1 f
    have hs := coupled_sat hv hj t1 ((new_feasible g σ).1 f'.1) ec.symm
    have F : Feasible (fun i => if P i then τ i else σ i) s := by
      refine (e4 _).2 ⟨(new_feasible g _).2 hs, fun r hr => ?_⟩
      have x := fun h => t2 r hr h
      have y := fun h => f'.2 r (List.mem_filter.2 ⟨hr, h⟩)
      cases r with
      | retain k w =>
        have hk := (hl _ (e5 _ hr)).1
        simp only [PlanCall.Allows, PlanCall.about] at x y ⊢
        by_cases hPk : P k = true
        · rw [if_pos hPk]; exact x hPk
        · rw [if_neg hPk]; exact y ((hj.all k hk).resolve_left hPk)
      | deadline d =>
        intro k hk
        have x := x rfl k hk
        have y := y rfl k hk
        simp only
        split
        · exact x
        · exact y
      | startline d =>
        intro k hk
        have x := x rfl k hk
        have y := y rfl k hk
        simp only
        split
        · exact x
        · exact y
    have := F.2 i (by rw [e2]; exact hi')
    simp only [if_pos hP] at this
    rw [← t4]; exact this

/-! ## Properties -/

/-- **C153.** The parts `P` and `Q` of the plan are joined at the instant `c`. After any requests, the requests accepted about the part `Q` are
also accepted alone, on a new scheduler; the dates left for an instant of `P` are those which the constraints and the requests accepted about
`P` allow, with a date of `c` which the requests about `Q` alone leave. -/
theorem C153_dates (dbg dbg' : Bool) {P Q : Nat → Bool} {c : Nat} {g : Graph} (hv : Valid g) (hm : Minimal g) (hj : Coupled P Q c g)
    {B W : Int} (hB : 0 ≤ B) (hW : 0 ≤ W) (hg : Within B g) (hBW : W + 2 * B < INF) {l : List PlanCall} (hl : ∀ r ∈ l, r.Ok g.size W)
    {s : Sched} {acc : List PlanCall} (h : planAll dbg (Sched.new g) l = .ok (s, acc)) :
    ∃ q, planAll dbg' (Sched.new g) (acc.filter (PlanCall.about Q)) = .ok (q, acc.filter (PlanCall.about Q)) ∧
      ∀ i, i < g.size → P i = true → ∀ t, Slot s i t ↔
        ∃ τ, Sat τ g ∧ (∀ r ∈ acc, r.about P = true → r.Allows g.size τ) ∧ Slot q c (τ c) ∧ τ i = t :=
  part_dates dbg dbg' hv hm hj hB hW hg hBW hl h

/-- **C153.** Two histories accept the same requests about the part `P`, and the requests they accept about `Q` leave, alone, the same slots
for the shared instant. Then both show the same slots for all the instants of `P`, and give the same answer to any next request about an
instant of `P`. -/
theorem C153_through (dbg dbg' : Bool) {P Q : Nat → Bool} {c : Nat} {g : Graph} (hv : Valid g) (hm : Minimal g) (hj : Coupled P Q c g)
    {B W : Int} (hB : 0 ≤ B) (hW : 0 ≤ W) (hg : Within B g) (hBW : W + 2 * B < INF) {l l' : List PlanCall}
    (hl : ∀ r ∈ l, r.Ok g.size W) (hl' : ∀ r ∈ l', r.Ok g.size W) {s s' : Sched} {acc acc' : List PlanCall}
    (h : planAll dbg (Sched.new g) l = .ok (s, acc)) (h' : planAll dbg' (Sched.new g) l' = .ok (s', acc'))
    (same : ∀ r, r.about P = true → (r ∈ acc ↔ r ∈ acc')) {q q' : Sched} {x x' : List PlanCall}
    (hq : planAll dbg (Sched.new g) (acc.filter (PlanCall.about Q)) = .ok (q, x))
    (hq' : planAll dbg' (Sched.new g) (acc'.filter (PlanCall.about Q)) = .ok (q', x')) (hc : q.scheduling c = q'.scheduling c) :
    (∀ i, P i = true → s.scheduling i = s'.scheduling i) ∧
    ∀ i w, P i = true → (PlanCall.retain i w).Ok g.size W →
      ∃ t t' o, s.retain dbg i (.conv w) = .ok (t, o) ∧ s'.retain dbg' i (.conv w) = .ok (t', o) := by
  obtain ⟨q1, y1, y2⟩ := part_dates dbg dbg hv hm hj hB hW hg hBW hl h
  obtain ⟨q2, z1, z2⟩ := part_dates dbg' dbg' hv hm hj hB hW hg hBW hl' h'
  rw [hq] at y1
  rw [hq'] at z1
  cases y1
  cases z1
  have hqq : ∀ t, Slot q c t ↔ Slot q' c t := fun t => by unfold Slot; rw [hc]
  have hsl : ∀ i, i < g.size → P i = true → ∀ t, Slot s i t ↔ Slot s' i t := by
    intro i hi hP t
    rw [y2 i hi hP, z2 i hi hP]
    refine exists_congr fun τ => ?_
    rw [hqq]
    constructor
    · rintro ⟨a1, a2, a3⟩
      exact ⟨a1, fun r hr hp => a2 r ((same r hp).2 hr) hp, a3⟩
    · rintro ⟨a1, a2, a3⟩
      exact ⟨a1, fun r hr hp => a2 r ((same r hp).1 hr) hp, a3⟩
  obtain ⟨s1, a1, e1, e2, ⟨lo, hi, e3⟩, -, e4⟩ := plan_history dbg hv hm hg hB hW hBW l (Sched.new g) rfl ⟨_, _, new_conv g _⟩ hl
  obtain ⟨s2, a2, f1, f2, ⟨lo', hi', f3⟩, -, f4⟩ := plan_history dbg' hv hm hg hB hW hBW l' (Sched.new g) rfl ⟨_, _, new_conv g _⟩ hl'
  rw [h] at e1
  rw [h'] at f1
  cases e1
  cases f1
  have hv1 : Valid s.graph := by rw [e2]; exact hv
  have hm1 : Minimal s.graph := by rw [e2]; exact hm
  have hv2 : Valid s'.graph := by rw [f2]; exact hv
  have hm2 : Minimal s'.graph := by rw [f2]; exact hm
  refine ⟨fun i hP => ?_, fun i w hP hok => ?_⟩
  · show s.schedule[i]? = s'.schedule[i]?
    by_cases hi' : i < g.size
    · have j1 : i < s.graph.size := by rw [e2]; exact hi'
      have j2 : i < s'.graph.size := by rw [f2]; exact hi'
      rw [e3.get i j1, f3.get i j2]
      refine congrArg some (canon_extSet (canon_one (e3.arc.wf i j1)) (canon_one (f3.arc.wf i j2)) (fun t => ?_))
      rw [extSet_one, extSet_one, ← e3.slot j1, ← f3.slot j2]
      exact hsl i hi' hP t
    · rw [List.getElem?_eq_none (by rw [e3.len, e2]; omega), List.getElem?_eq_none (by rw [f3.len, f2]; omega)]
  · have hi' : i < g.size := hok.1
    obtain ⟨t, o, r1, r2, r3, r4⟩ := C78_next_partial dbg hv hm hB hW hg hBW hl h hok
    obtain ⟨t', o', u1, u2, u3, u4⟩ := C78_next_partial dbg' hv hm hB hW hg hBW hl' h' hok
    have v := ((C125_repeat_partial dbg hv hm hB hW hg hBW hl h).2 _ hok dbg).1
    have v' := ((C125_repeat_partial dbg' hv hm hB hW hg hBW hl' h').2 _ hok dbg').1
    rw [r1] at v
    rw [u1] at v'
    have k : ∀ τ, (Sat τ g ∧ ∀ r ∈ acc, r.Allows g.size τ) ↔ Feasible τ s := fun τ => by rw [e4, new_feasible]
    have k' : ∀ τ, (Sat τ g ∧ ∀ r ∈ acc', r.Allows g.size τ) ↔ Feasible τ s' := fun τ => by rw [f4, new_feasible]
    have E1 : o = .recovered ↔ o' = .recovered := by
      rw [r4, u4]
      refine not_congr ⟨?_, ?_⟩
      · rintro ⟨τ, p1, p2, p3⟩
        obtain ⟨σ, b, eb⟩ := f3.attain hv2 hm2 (by rw [f2]; exact hi')
          ((hsl i hi' hP _).1 (((k τ).1 ⟨p1, p2⟩).2 i (by rw [e2]; exact hi')))
        have b' := (k' σ).2 b
        refine ⟨σ, b'.1, b'.2, ?_⟩
        simp only [PlanCall.Allows] at p3 ⊢
        rw [eb]; exact p3
      · rintro ⟨τ, p1, p2, p3⟩
        obtain ⟨σ, b, eb⟩ := e3.attain hv1 hm1 (by rw [e2]; exact hi')
          ((hsl i hi' hP _).2 (((k' τ).1 ⟨p1, p2⟩).2 i (by rw [f2]; exact hi')))
        have b' := (k σ).2 b
        refine ⟨σ, b'.1, b'.2, ?_⟩
        simp only [PlanCall.Allows] at p3 ⊢
        rw [eb]; exact p3
    have E2 : o = .unchanged ↔ o' = .unchanged := by
      have w1 : (∃ s'', Except.ok (ε := Panic) (t, o) = .ok (s'', Outcome.unchanged)) ↔ o = .unchanged :=
        ⟨fun ⟨_, h⟩ => by cases h; rfl, fun h => ⟨t, by rw [h]⟩⟩
      have w2 : (∃ s'', Except.ok (ε := Panic) (t', o') = .ok (s'', Outcome.unchanged)) ↔ o' = .unchanged :=
        ⟨fun ⟨_, h⟩ => by cases h; rfl, fun h => ⟨t', by rw [h]⟩⟩
      rw [← w1, ← w2, v, v']
      constructor
      · intro H τ p1 p2
        obtain ⟨σ, b, eb⟩ := e3.attain hv1 hm1 (by rw [e2]; exact hi')
          ((hsl i hi' hP _).2 (((k' τ).1 ⟨p1, p2⟩).2 i (by rw [f2]; exact hi')))
        have b' := (k σ).2 b
        have := H σ b'.1 b'.2
        simp only [PlanCall.Allows] at this ⊢
        rw [← eb]; exact this
      · intro H τ p1 p2
        obtain ⟨σ, b, eb⟩ := f3.attain hv2 hm2 (by rw [f2]; exact hi')
          ((hsl i hi' hP _).1 (((k τ).1 ⟨p1, p2⟩).2 i (by rw [e2]; exact hi')))
        have b' := (k' σ).2 b
        have := H σ b'.1 b'.2
        simp only [PlanCall.Allows] at this ⊢
        rw [← eb]; exact this
    have oo : o = o' := by
      rcases r2 with rfl | rfl | rfl
      · exact (E1.1 rfl).symm
      · exact (E2.1 rfl).symm
      · rcases u2 with rfl | rfl | rfl
        · exact E1.2 rfl
        · exact E2.2 rfl
        · rfl
    subst oo
    exact ⟨t, t', o, r1, u1⟩

/-- **C153.** Constraints which are each inside one of two parts sharing one instant make such a plan. -/
theorem C153_built {P Q : Nat → Bool} {c : Nat} (only : ∀ i, P i = true → Q i = true → i = c) {n : Nat} (hn : n ≤ 65535) (hc : c < n)
    (hPc : P c = true) (hQc : Q c = true) (all : ∀ i, i < n → P i = true ∨ Q i = true) {W : Int} (hW : 0 ≤ W) (hB : 3 * (n : Int) * W < INF)
    {ks : List Constr} (hk : ∀ k ∈ ks, Usable n W k ∧ (Constr.within P k = true ∨ Constr.within Q k = true)) :
    ∃ g os, (Graph.withSize n >>= fun g => answers g ks) = .ok (g, os) ∧ g.size = n ∧ Coupled P Q c g ∧ Coupled Q P c g := by
  obtain ⟨g, g', os, h1, -, h2, -, -, h3⟩ := C150_parts only hn hc hW hB hk
  obtain ⟨g1, -, os1, k1, -, -, -, -, k3⟩ := C150_parts (P := Q) (Q := P) (fun i a b => only i b a) hn hc hW hB
    (fun k m => ⟨(hk k m).1, (hk k m).2.symm⟩)
  rw [h1] at k1
  cases k1
  subst h2
  refine ⟨g, os, h1, rfl, ⟨⟨hc, hPc, hQc⟩, only, all, fun i j hi hj hP hQ s s1 s2 e e1 e2 d => ?_⟩,
    ⟨⟨hc, hQc, hPc⟩, fun i a b => only i b a, fun i hi => (all i hi).symm, fun i j hi hj hP hQ s s1 s2 e e1 e2 d => ?_⟩⟩
  · obtain ⟨r, r1, r2, f, f1, f2, x⟩ := h3 i j hi hj hP hQ
    rw [e] at f; cases f
    rw [e1] at f1; cases f1
    rw [e2] at f2; cases f2
    exact x d
  · obtain ⟨r, r1, r2, f, f1, f2, x⟩ := k3 i j hi hj hP hQ
    rw [e] at f; cases f
    rw [e1] at f1; cases f1
    rw [e2] at f2; cases f2
    exact x d

/-! ## Examples -/

/-- instants 0 and 1 make a part of `exGraph`, 1 and 2 another one -/
theorem exGraph_coupled : Coupled (fun i => decide (i ≤ 1)) (fun i => decide (1 ≤ i)) 1 exGraph := by
  obtain ⟨g, os, h, -, k, -⟩ := C153_built (P := fun i => decide (i ≤ 1)) (Q := fun i => decide (1 ≤ i)) (c := 1)
    (fun i a b => by simp only [decide_eq_true_eq] at a b; omega) (n := 3) (by decide) (by decide) (by decide) (by decide)
    (fun i _ => by simp only [decide_eq_true_eq]; omega) (W := 20) (by decide) (by decide) (ks := [⟨0, 1, false, 10, 20⟩, ⟨1, 2, false, 5, 6⟩])
    (by simp only [List.mem_cons, List.not_mem_nil, or_false]; rintro k (rfl | rfl) <;> decide)
  have e : (Graph.withSize 3 >>= fun g => answers g [⟨0, 1, false, 10, 20⟩, ⟨1, 2, false, 5, 6⟩]) =
      .ok (exGraph, [.propagated, .propagated]) := by decide +kernel
  rw [e] at h
  cases h
  exact k

example := C153_dates true false exGraph_valid exGraph_minimal exGraph_coupled (by decide) (by decide) exGraph_within (by decide) exPlan_ok exPlan_run

/-- two histories with different requests about instant 2, one of them refused, which leave alone the same dates for instant 1 -/
example : ∃ s s', planAll true (Sched.new exGraph) [.retain 0 (.range 0 4), .retain 2 (.range 20 26)] =
      .ok (s, [.retain 0 (.range 0 4), .retain 2 (.range 20 26)]) ∧
    planAll false (Sched.new exGraph) [.retain 2 (.range 20 40), .retain 0 (.range 0 4), .retain 2 (.point 3), .retain 2 (.rangeToIncl 25)] =
      .ok (s', [.retain 2 (.range 20 40), .retain 0 (.range 0 4), .retain 2 (.rangeToIncl 25)]) ∧
    (∀ i, decide (i ≤ 1) = true → s.scheduling i = s'.scheduling i) ∧ s.scheduling 0 = some [⟨0, 3⟩] ∧ s.scheduling 1 = some [⟨14, 20⟩] := by
  have e1 : planAll true (Sched.new exGraph) [.retain 0 (.range 0 4), .retain 2 (.range 20 26)] =
      .ok (⟨exGraph, [[⟨0, 3⟩], [⟨14, 20⟩], [⟨20, 25⟩]]⟩, [.retain 0 (.range 0 4), .retain 2 (.range 20 26)]) := by decide +kernel
  have e2 : planAll false (Sched.new exGraph)
        [.retain 2 (.range 20 40), .retain 0 (.range 0 4), .retain 2 (.point 3), .retain 2 (.rangeToIncl 25)] =
      .ok (⟨exGraph, [[⟨0, 3⟩], [⟨14, 20⟩], [⟨20, 25⟩]]⟩,
        [.retain 2 (.range 20 40), .retain 0 (.range 0 4), .retain 2 (.rangeToIncl 25)]) := by decide +kernel
  have q1 : planAll true (Sched.new exGraph) [.retain 2 (.range 20 26)] =
      .ok (⟨exGraph, [[⟨-6, 10⟩], [⟨14, 20⟩], [⟨20, 25⟩]]⟩, [.retain 2 (.range 20 26)]) := by decide +kernel
  have q2 : planAll false (Sched.new exGraph) [.retain 2 (.range 20 40), .retain 2 (.rangeToIncl 25)] =
      .ok (⟨exGraph, [[⟨-6, 10⟩], [⟨14, 20⟩], [⟨20, 25⟩]]⟩, [.retain 2 (.range 20 40), .retain 2 (.rangeToIncl 25)]) := by decide +kernel
  refine ⟨_, _, e1, e2, ?_, rfl, rfl⟩
  refine (C153_through true false exGraph_valid exGraph_minimal exGraph_coupled (B := 26) (W := 40) (by decide) (by decide) exGraph_within
    (by decide) ?_ ?_ e1 e2 ?_ q1 q2 rfl).1
  · simp only [List.mem_cons, List.not_mem_nil, or_false]
    rintro c (rfl | rfl)
    · exact ⟨by decide, by decide, ⟨0, by decide⟩, by decide⟩
    · exact ⟨by decide, by decide, ⟨20, by decide⟩, by decide⟩
  · simp only [List.mem_cons, List.not_mem_nil, or_false]
    rintro c (rfl | rfl | rfl | rfl)
    · exact ⟨by decide, by decide, ⟨20, by decide⟩, by decide⟩
    · exact ⟨by decide, by decide, ⟨0, by decide⟩, by decide⟩
    · exact ⟨by decide, by decide, ⟨3, by decide⟩, by decide⟩
    · exact ⟨by decide, by decide, ⟨3, by decide⟩, by decide⟩
  · intro r hr
    simp only [List.mem_cons, List.not_mem_nil, or_false]
    constructor
    · rintro (rfl | rfl)
      · exact Or.inr (Or.inl rfl)
      · simp [PlanCall.about] at hr
    · rintro (rfl | rfl | rfl)
      · simp [PlanCall.about] at hr
      · exact Or.inl rfl
      · simp [PlanCall.about] at hr

end Chrono
