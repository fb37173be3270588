import Verif.Props.ExplainSched
import Verif.Props.Explain
import Verif.Props.SchedBest

/-!
# C156: a plan between a startline and a deadline
-/

set_option linter.unusedSimpArgs false

namespace Chrono
open Spec

theorem pushes_startline {g : Graph} {a t : Int} {i : Nat} (h : Pushes g (.startline a) i t) :
    ∃ j s, j < g.size ∧ g.timespan j i = .ok s ∧ s.lower ≠ -INF ∧ t ≤ a + s.lower := by
  obtain ⟨j, d, s, hj, hd, hs, hl, rfl⟩ := h
  have := hd (fun _ => a) (fun _ _ => Or.inr (Int.le_refl _))
  exact ⟨j, s, hj, hs, hl, by omega⟩

theorem pushes_deadline {g : Graph} {b t : Int} {i : Nat} (h : Pushes g (.deadline b) i t) : False := by
  obtain ⟨j, d, s, hj, hd, -⟩ := h
  have := hd (fun _ => min b (d - 1)) (fun _ _ => Or.inr (by simp only []; omega))
  omega

theorem pulls_deadline {g : Graph} {b t : Int} {i : Nat} (h : Pulls g (.deadline b) i t) :
    ∃ j s, j < g.size ∧ g.timespan j i = .ok s ∧ s.upper ≠ INF ∧ b + s.upper ≤ t := by
  obtain ⟨j, d, s, hj, hd, hs, hl, rfl⟩ := h
  have := hd (fun _ => b) (fun _ _ => Or.inr (Int.le_refl _))
  exact ⟨j, s, hj, hs, hl, by omega⟩

theorem pulls_startline {g : Graph} {a t : Int} {i : Nat} (h : Pulls g (.startline a) i t) : False := by
  obtain ⟨j, d, s, hj, hd, -⟩ := h
  have := hd (fun _ => max a (d + 1)) (fun _ _ => Or.inr (by simp only []; omega))
  omega

/-- the dates left for an instant after a history are an interval -/
theorem plan_interval (dbg : Bool) {g : Graph} (hv : Valid g) (hm : Minimal g) {B W : Int} (hB : 0 ≤ B) (hW : 0 ≤ W)
    (hg : Within B g) (hBW : W + 2 * B < INF) {calls : List PlanCall} (hok : ∀ c ∈ calls, c.Ok g.size W)
    {s : Sched} {acc : List PlanCall} (h : planAll dbg (Sched.new g) calls = .ok (s, acc)) {i : Nat} (hi : i < g.size) :
    ∃ lo up t, InExt t ⟨lo, up⟩ ∧ ∀ t, Slot s i t ↔ InExt t ⟨lo, up⟩ := by
  obtain ⟨s1, acc1, h1, h2, ⟨lo, up, h3⟩, -, h4⟩ := plan_history dbg hv hm hg hB hW hBW calls (Sched.new g) rfl
    ⟨_, _, new_conv g _⟩ hok
  rw [h] at h1
  cases h1
  subst h2
  obtain ⟨τ, f⟩ := h3.exists_feasible hv hm
  exact ⟨lo i, up i, τ i, (h3.slot hi _).1 (f.2 i hi), fun t => h3.slot hi t⟩

/-- **C156.** On a graph which means the constraints `ks`, a startline `a` is accepted, and the dates left for an instant are those after
`a` by at least the total of each chain of constraints which leads to it. Then a deadline `b` is refused iff some
chain does not fit between `a` and `b`; otherwise the dates left for an instant are exactly those which leave, after `a`, the time for each
chain which leads to this instant and, until `b`, the time for each chain which comes from it. -/
theorem C156_window (dbg : Bool) {g : Graph} (hv : Valid g) (hm : Minimal g) {ks : List Constr} (hs : ∀ τ, Sat τ g ↔ ∀ k ∈ ks, Holds τ k)
    {B W : Int} (hB : 0 ≤ B) (hW : 0 ≤ W) (hg : Within B g) (hBW : W + 2 * B < INF) {a b : Int} (ha : -W ≤ a ∧ a ≤ W) (hb : -W ≤ b ∧ b ≤ W) :
    ∃ s1 o1 s2 o2, (Sched.new g).setStartline dbg a = .ok (s1, o1) ∧ o1 ≠ .recovered ∧ o1 ≠ .fatal ∧
      (∀ j, j < g.size → ∀ x, Slot s1 j x ↔ ∀ i w, i < g.size → Leads ks i j w → a + w ≤ x) ∧
      s1.setDeadline dbg b = .ok (s2, o2) ∧ o2 ≠ .fatal ∧
      (o2 = .recovered ↔ ∃ i j w, i < g.size ∧ j < g.size ∧ Leads ks i j w ∧ b < a + w) ∧
      (o2 ≠ .recovered → ∀ j, j < g.size → ∀ x, Slot s2 j x ↔
        (∀ i w, i < g.size → Leads ks i j w → a + w ≤ x) ∧ ∀ i w, i < g.size → Leads ks j i w → x + w ≤ b) := by
  have hINF : (0 : Int) < INF := by decide
  have exp : ∀ i j s, i < g.size → j < g.size → g.timespan i j = .ok s → Explained ks i j s := fun i j s hi hj e => C148_delay hm hs hi hj e
  -- the startline
  obtain ⟨s1, o1, e1, c1, r1, -, -, -⟩ := C79_startline_partial dbg hv hm hB hW hg hBW (calls := []) (fun _ h => nomatch h) rfl (d := a) (Or.inr ha)
  have n1 : o1 ≠ .recovered := by
    intro c
    obtain ⟨i, hi, no⟩ := r1.1 c
    obtain ⟨τ, ht⟩ := hm.1
    refine no ⟨a, ?_, Int.le_refl _⟩
    exact ((new_feasible (g := g) (τ := fun k => τ k + (a - τ i))).2 (by
      intro j k hj hk
      obtain ⟨s, e, h⟩ := ht j k hj hk
      exact ⟨s, e, by rw [show τ k + (a - τ i) - (τ j + (a - τ i)) = τ k - τ j by omega]; exact h⟩)).2 i hi |> fun h => by
        simp only [show τ i + (a - τ i) = a by omega] at h
        exact h
  have n1' : o1 ≠ .fatal := by rcases c1 with rfl | rfl | rfl <;> decide
  have p1 : planAll dbg (Sched.new g) [.startline a] = .ok (s1, [.startline a]) := by
    simp only [planAll, PlanCall.run, e1, ok_bind]
    simp [n1, n1']
    rfl
  have ok1 : ∀ c ∈ [PlanCall.startline a], c.Ok g.size W := by
    intro c hc; cases hc with
    | head => exact Or.inr ha
    | tail _ h => nomatch h
  have f1 : ∀ τ, Feasible τ s1 ↔ Sat τ g ∧ ∀ j, j < g.size → a ≤ τ j := by
    obtain ⟨s, acc, e, -, h, -⟩ := C78_history_partial dbg hv hm hB hW hg hBW ok1
    rw [p1] at e; cases e
    intro τ
    rw [h]
    simp only [List.mem_singleton, forall_eq, PlanCall.Allows]
    exact and_congr_right fun _ => forall_congr' fun j => forall_congr' fun _ => by omega
  have slots1 : ∀ j, j < g.size → ∀ x, Slot s1 j x ↔ ∀ i w, i < g.size → Leads ks i j w → a + w ≤ x := by
    intro j hj x
    constructor
    · intro h i w hi l
      obtain ⟨τ, f, rfl⟩ := C78_extends_partial dbg hv hm hB hW hg hBW ok1 p1 h
      obtain ⟨f1, f2⟩ := (f1 τ).1 f
      have := leads_sound ((hs τ).1 f1) l
      have := f2 i hi
      omega
    · intro h
      obtain ⟨lo, up, t, ht, hl⟩ := plan_interval dbg hv hm hB hW hg hBW ok1 p1 hj
      rw [hl]
      unfold InExt at ht hl ⊢
      simp only [] at ht hl ⊢
      refine ⟨?_, ?_⟩
      · by_cases c : lo = -INF
        · exact Or.inl c
        · obtain ⟨q, hq, hp⟩ := C148_earliest dbg hv hm hB hW hg hBW ok1 p1 ((hl lo).2 (by omega)) (fun t' h' => by have := (hl t').1 h'; omega)
          simp only [List.mem_singleton] at hq
          subst hq
          obtain ⟨i, s, hi, es, n, le⟩ := pushes_startline hp
          have := h i s.lower hi ((exp i j s hi hj es).1 n).1
          omega
      · by_cases c : up = INF
        · exact Or.inl c
        · obtain ⟨q, hq, hp⟩ := C148_latest dbg hv hm hB hW hg hBW ok1 p1 ((hl up).2 (by omega)) (fun t' h' => by have := (hl t').1 h'; omega)
          simp only [List.mem_singleton] at hq
          subst hq
          exact (pulls_startline hp).elim
  -- the deadline
  obtain ⟨s2, o2, e2, c2, r2, -, -, -⟩ := C79_deadline_partial dbg hv hm hB hW hg hBW ok1 p1 (d := b) (Or.inr hb)
  have n2' : o2 ≠ .fatal := by rcases c2 with rfl | rfl | rfl <;> decide
  refine ⟨s1, o1, s2, o2, e1, n1, n1', slots1, e2, n2', r2.trans ⟨?_, ?_⟩, fun n2 => ?_⟩
  · rintro ⟨j, hj, no⟩
    refine Classical.byContradiction fun all => no ?_
    obtain ⟨lo, up, t, ht, hl⟩ := plan_interval dbg hv hm hB hW hg hBW ok1 p1 hj
    refine ⟨min t b, (slots1 j hj _).2 fun i w hi l => ?_, by omega⟩
    have h1 := (slots1 j hj t).1 ((hl t).2 ht) i w hi l
    have h2 : ¬ b < a + w := fun c => all ⟨i, j, w, hi, hj, l, c⟩
    omega
  · rintro ⟨i, j, w, hi, hj, l, c⟩
    refine ⟨j, hj, ?_⟩
    rintro ⟨t, ht, hb⟩
    have := (slots1 j hj t).1 ht i w hi l
    omega
  have p2 : planAll dbg (Sched.new g) [.startline a, .deadline b] = .ok (s2, [.startline a, .deadline b]) := by
    simp only [planAll, PlanCall.run, e1, e2, ok_bind]
    simp [n1, n1', n2, n2']
    rfl
  have ok2 : ∀ c ∈ [PlanCall.startline a, .deadline b], c.Ok g.size W := by
    intro c hc
    simp only [List.mem_cons, List.not_mem_nil, or_false] at hc
    rcases hc with rfl | rfl
    · exact Or.inr ha
    · exact Or.inr hb
  have f2 : ∀ τ, Feasible τ s2 ↔ Sat τ g ∧ (∀ j, j < g.size → a ≤ τ j) ∧ ∀ j, j < g.size → τ j ≤ b := by
    obtain ⟨s, acc, e, -, h, -⟩ := C78_history_partial dbg hv hm hB hW hg hBW ok2
    rw [p2] at e; cases e
    intro τ
    rw [h]
    simp only [List.mem_cons, List.not_mem_nil, or_false, forall_eq_or_imp, forall_eq, PlanCall.Allows]
    exact and_congr_right fun _ => and_congr (forall_congr' fun j => forall_congr' fun _ => by omega)
      (forall_congr' fun j => forall_congr' fun _ => by omega)
  intro j hj x
  constructor
  · intro h
    obtain ⟨τ, f, rfl⟩ := C78_extends_partial dbg hv hm hB hW hg hBW ok2 p2 h
    obtain ⟨f1, f2, f3⟩ := (f2 τ).1 f
    refine ⟨fun i w hi l => ?_, fun i w hi l => ?_⟩
    · have := leads_sound ((hs τ).1 f1) l
      have := f2 i hi
      omega
    · have := leads_sound ((hs τ).1 f1) l
      have := f3 i hi
      omega
  · rintro ⟨h1, h2⟩
    obtain ⟨lo, up, t, ht, hl⟩ := plan_interval dbg hv hm hB hW hg hBW ok2 p2 hj
    rw [hl]
    unfold InExt at ht hl ⊢
    simp only [] at ht hl ⊢
    refine ⟨?_, ?_⟩
    · by_cases c : lo = -INF
      · exact Or.inl c
      · obtain ⟨q, hq, hp⟩ := C148_earliest dbg hv hm hB hW hg hBW ok2 p2 ((hl lo).2 (by omega)) (fun t' h' => by have := (hl t').1 h'; omega)
        simp only [List.mem_cons, List.not_mem_nil, or_false] at hq
        rcases hq with rfl | rfl
        · obtain ⟨i, s, hi, es, n, le⟩ := pushes_startline hp
          have := h1 i s.lower hi ((exp i j s hi hj es).1 n).1
          omega
        · exact (pushes_deadline hp).elim
    · by_cases c : up = INF
      · exact Or.inl c
      · obtain ⟨q, hq, hp⟩ := C148_latest dbg hv hm hB hW hg hBW ok2 p2 ((hl up).2 (by omega)) (fun t' h' => by have := (hl t').1 h'; omega)
        simp only [List.mem_cons, List.not_mem_nil, or_false] at hq
        rcases hq with rfl | rfl
        · exact (pulls_startline hp).elim
        · obtain ⟨i, s, hi, es, n, le⟩ := pulls_deadline hp
          have := h2 i (-s.upper) hi ((exp i j s hi hj es).2.2.1 n).1
          omega

/-- **C156.** After the startline `a`, `earliest_ending` announces the end of the longest chains of constraints when they
start at `a`; after the deadline `b`, if it is not refused, `latest_beginning` announces the beginning of the longest chains when they end at `b`. -/
theorem C156_ends (dbg : Bool) {g : Graph} (hv : Valid g) (hm : Minimal g) {ks : List Constr} (hs : ∀ τ, Sat τ g ↔ ∀ k ∈ ks, Holds τ k)
    {B W : Int} (hB : 0 ≤ B) (hW : 0 ≤ W) (hg : Within B g) (hBW : W + 2 * B < INF) {a b : Int} (ha : -W ≤ a ∧ a ≤ W) (hb : -W ≤ b ∧ b ≤ W)
    (pos : 0 < g.size) :
    ∃ s1 o1 s2 o2 e, (Sched.new g).setStartline dbg a = .ok (s1, o1) ∧ s1.setDeadline dbg b = .ok (s2, o2) ∧
      s1.earliestEnding = .ok e ∧
      (∃ i j w, i < g.size ∧ j < g.size ∧ Leads ks i j w ∧ e = a + w) ∧
      (∀ i j w, i < g.size → j < g.size → Leads ks i j w → a + w ≤ e) ∧
      (o2 ≠ .recovered → ∃ l, s2.latestBeginning = .ok l ∧
        (∃ i j w, i < g.size ∧ j < g.size ∧ Leads ks i j w ∧ l = b - w) ∧
        ∀ i j w, i < g.size → j < g.size → Leads ks i j w → l ≤ b - w) := by
  have hINF : (0 : Int) < INF := by decide
  have exp : ∀ i j s, i < g.size → j < g.size → g.timespan i j = .ok s → Explained ks i j s := fun i j s hi hj e => C148_delay hm hs hi hj e
  obtain ⟨s1, o1, s2, o2, e1, n1, n1', slots1, e2, n2', -, slots2⟩ := C156_window dbg hv hm hs hB hW hg hBW ha hb
  have p1 : planAll dbg (Sched.new g) [.startline a] = .ok (s1, [.startline a]) := by
    simp only [planAll, PlanCall.run, e1, ok_bind]
    simp [n1, n1']
    rfl
  have ok1 : ∀ c ∈ [PlanCall.startline a], c.Ok g.size W := by
    intro c hc; cases hc with
    | head => exact Or.inr ha
    | tail _ h => nomatch h
  obtain ⟨s, acc, k1, k2, ⟨lo, up, hc⟩, -, -⟩ := plan_history dbg hv hm hg hB hW hBW _ (Sched.new g) rfl ⟨_, _, new_conv g _⟩ ok1
  rw [p1] at k1
  cases k1
  have k2 : s1.graph = g := k2
  have hp : s1.graph.size = g.size := by rw [k2]
  have first : ∀ j, j < g.size → lo j ≠ -INF ∧ Slot s1 j (lo j) ∧ ∀ t, Slot s1 j t → lo j ≤ t := by
    intro j hj
    have sl := hc.slot (j := j) (by omega)
    have wf := hc.arc.wf j (by omega)
    have n : lo j ≠ -INF := by
      intro c
      have := (slots1 j hj (min (a - 1) (up j))).1 ((sl _).2 ⟨Or.inl c, Or.inr (by simp only []; omega)⟩) j 0 hj .here
      omega
    refine ⟨n, (sl _).2 ⟨Or.inr (Int.le_refl _), Or.inr wf.le⟩, fun t ht => ?_⟩
    have := ((sl t).1 ht).1
    simp only [] at this
    omega
  obtain ⟨v, ev⟩ := (C80_earliest_ending s1 hc.canon).2.1 (by omega)
  obtain ⟨⟨w, hw, ew⟩, hall⟩ := earliest_ending_eq ev
  refine ⟨s1, o1, s2, o2, v, e1, e2, ev, ?_, fun i j w hi hj l => ?_, fun n2 => ?_⟩
  · obtain ⟨j, hj, rfl⟩ := List.getElem_of_mem hw
    have hj : j < g.size := by rw [hc.len] at hj; omega
    have gj := hc.get j (by omega)
    rw [(List.getElem_of_getElem? gj).2] at ew
    have ew : lo j = v := ew
    obtain ⟨-, h2, h3⟩ := first j hj
    obtain ⟨q, hq, hp⟩ := C148_earliest dbg hv hm hB hW hg hBW ok1 p1 h2 h3
    simp only [List.mem_singleton] at hq
    subst hq
    obtain ⟨i, s, hi, es, n, le⟩ := pushes_startline hp
    have l := ((exp i j s hi hj es).1 n).1
    have := (slots1 j hj _).1 h2 i _ hi l
    exact ⟨i, j, s.lower, hi, hj, l, by omega⟩
  · obtain ⟨-, h2, -⟩ := first j hj
    have h1 := (slots1 j hj _).1 h2 i w hi l
    have h3 := hall _ (List.mem_of_getElem? (hc.get j (by omega)))
    have h3 : lo j ≤ v := h3
    omega
  have slots2 := slots2 n2
  have p2 : planAll dbg (Sched.new g) [.startline a, .deadline b] = .ok (s2, [.startline a, .deadline b]) := by
    simp only [planAll, PlanCall.run, e1, e2, ok_bind]
    simp [n1, n1', n2, n2']
    rfl
  have ok2 : ∀ c ∈ [PlanCall.startline a, .deadline b], c.Ok g.size W := by
    intro c hc
    simp only [List.mem_cons, List.not_mem_nil, or_false] at hc
    rcases hc with rfl | rfl
    · exact Or.inr ha
    · exact Or.inr hb
  obtain ⟨s, acc, k1, k3, ⟨lo, up, hc⟩, -, -⟩ := plan_history dbg hv hm hg hB hW hBW _ (Sched.new g) rfl ⟨_, _, new_conv g _⟩ ok2
  rw [p2] at k1
  cases k1
  have k3 : s2.graph = g := k3
  have hp : s2.graph.size = g.size := by rw [k3]
  have last : ∀ j, j < g.size → Slot s2 j (up j) ∧ ∀ t, Slot s2 j t → t ≤ up j := by
    intro j hj
    have sl := hc.slot (j := j) (by omega)
    have wf := hc.arc.wf j (by omega)
    have n : up j ≠ INF := by
      intro c
      have := ((slots2 j hj (max (b + 1) (lo j))).1 ((sl _).2 ⟨Or.inr (by simp only []; omega), Or.inl c⟩)).2 j 0 hj .here
      omega
    refine ⟨(sl _).2 ⟨Or.inr wf.le, Or.inr (Int.le_refl _)⟩, fun t ht => ?_⟩
    have := ((sl t).1 ht).2
    simp only [] at this
    omega
  obtain ⟨v, ev⟩ := (C80_latest_beginning s2 hc.canon).2.1 (by omega)
  obtain ⟨⟨w, hw, ew⟩, hall⟩ := latest_beginning_eq ev
  refine ⟨v, ev, ?_, fun i j w hi hj l => ?_⟩
  · obtain ⟨i, hi, rfl⟩ := List.getElem_of_mem hw
    have hi : i < g.size := by rw [hc.len] at hi; omega
    have gi := hc.get i (by omega)
    rw [(List.getElem_of_getElem? gi).2] at ew
    have ew : up i = v := ew
    obtain ⟨h2, h3⟩ := last i hi
    obtain ⟨q, hq, hp⟩ := C148_latest dbg hv hm hB hW hg hBW ok2 p2 h2 h3
    simp only [List.mem_cons, List.not_mem_nil, or_false] at hq
    rcases hq with rfl | rfl
    · exact (pulls_startline hp).elim
    · obtain ⟨j, s, hj, es, n, le⟩ := pulls_deadline hp
      have l := ((exp j i s hj hi es).2.2.1 n).1
      have := ((slots2 i hi _).1 h2).2 j _ hj l
      exact ⟨i, j, -s.upper, hi, hj, l, by omega⟩
  · obtain ⟨h2, -⟩ := last i hi
    have h1 := ((slots2 i hi _).1 h2).2 j w hj l
    have h3 := hall _ (List.mem_of_getElem? (hc.get i (by omega)))
    have h3 : v ≤ up i := h3
    omega

/-- **C156.** Constraints which can all be satisfied are all accepted, whatever their order, and the graph they give meets the
hypotheses of `C156_window`. -/
theorem C156_built {n : Nat} (hn : n ≤ 65535) {W : Int} (hW : 0 ≤ W) (hB : 3 * (n : Int) * W < INF) {ks : List Constr}
    (hks : ∀ k ∈ ks, Usable n W k) (hs : ∃ τ, ∀ k ∈ ks, Holds τ k) :
    ∃ g, (Graph.withSize n >>= fun g => propagateAll g ks) = .ok (g, ks) ∧ g.size = n ∧ Valid g ∧ Minimal g ∧
      (∀ τ, Sat τ g ↔ ∀ k ∈ ks, Holds τ k) ∧ Within (n * W) g := by
  obtain ⟨g0, z0, n0, v0, -, m0⟩ := withSize_eq hn
  obtain ⟨g, acc, e1, s1, c1, t1, -, a1, -, all⟩ := propagateAll_tight hW v0 (unconstrained_closed (by rw [n0]; exact m0))
    (unconstrained_tight (by rw [n0]; exact m0)) (by rw [n0]; exact hB) (by rw [n0]; exact hks)
  have un : ∀ τ, MSat g0.size (mat g0) τ := unconstrained_sat (by rw [n0]; exact m0)
  obtain ⟨τ0, t0⟩ := hs
  have ea := all ⟨τ0, un τ0, t0⟩
  subst ea
  have sz := s1.size
  have hv := s1.valid v0
  have hm := (minimal_iff hv).2 (by rw [sz]; exact c1)
  refine ⟨g, by rw [z0, ok_bind]; exact e1, by omega, hv, hm, fun τ => ?_, ?_⟩
  · rw [sat_iff hv, sz, a1]
    exact ⟨fun h => h.2, fun h => ⟨un τ, h⟩⟩
  · refine within_of_small hv ?_
    rw [sz]
    intro i hi j hj
    have h := c1.tight_small hW t1 i hi j hj
    have : ((g0.size - 1 : Nat) : Int) * W ≤ (n : Int) * W := Int.mul_le_mul_of_nonneg_right (by omega) hW
    unfold Small at h ⊢
    omega

/-- **C156.** A plan of precedences, in which each constraint puts an instant at least some delay after another one, of smaller rank, can
always be satisfied: it is accepted whole, in whatever order it is given. -/
theorem C156_precedences {n : Nat} (hn : n ≤ 65535) {W : Int} (hW : 0 ≤ W) (hB : 3 * (n : Int) * W < INF) {ks : List Constr}
    (hks : ∀ k ∈ ks, Usable n W k) {rank : Nat → Nat} (pre : ∀ k ∈ ks, k.isEmpty = false ∧ k.upper = INF ∧ rank k.src < rank k.dst) :
    ∃ g, (Graph.withSize n >>= fun g => propagateAll g ks) = .ok (g, ks) ∧ g.size = n ∧ Valid g ∧ Minimal g ∧
      (∀ τ, Sat τ g ↔ ∀ k ∈ ks, Holds τ k) ∧ Within (n * W) g := by
  refine C156_built hn hW hB hks ⟨fun m => (rank m : Int) * W, fun k hk => ?_⟩
  obtain ⟨p1, p2, p3⟩ := pre k hk
  obtain ⟨-, hw⟩ := (hks k hk).2.2 p1
  refine ⟨p1, ?_, Or.inl p2⟩
  have : ((rank k.src : Int) + 1) * W ≤ (rank k.dst : Int) * W := Int.mul_le_mul_of_nonneg_right (by omega) hW
  rw [Int.add_mul] at this
  have := hw.1
  simp only []
  omega

/-! ## The hypotheses are met: two activities of at least 10 and 5 ticks, one after the other, and one of at least 12 ticks -/

/-- instants 0 → 1 → 3 and 0 → 2 → 3 -/
def activities : List Constr := [⟨1, 3, false, 5, INF⟩, ⟨0, 1, false, 10, INF⟩, ⟨2, 3, false, 0, INF⟩, ⟨0, 2, false, 12, INF⟩]

example : (∀ k ∈ activities, Usable 4 12 k ∧ k.isEmpty = false ∧ k.upper = INF ∧ k.src < k.dst) ∧ 3 * ((4 : Nat) : Int) * 12 < INF ∧
    (100 : Int) + 2 * (4 * 12) < INF ∧ Leads activities 0 3 15 ∧ Leads activities 2 3 0 := by
  refine ⟨by decide, by decide, by decide, ?_, ?_⟩
  · show Leads activities 0 3 (0 + 10 + 5)
    exact .least (k := ⟨1, 3, false, 5, INF⟩) (.least (k := ⟨0, 1, false, 10, INF⟩) .here (by decide) (by decide)) (by decide) (by decide)
  · show Leads activities 2 3 (0 + 0)
    exact .least (k := ⟨2, 3, false, 0, INF⟩) .here (by decide) (by decide)

/-- the critical path of 15 ticks does not fit in 14 ticks; in 20 ticks, the instants have a margin of 5 or 8 ticks -/
example : (do
    let (g, _) ← Graph.withSize 4 >>= fun g => propagateAll g activities
    let (s, _) ← (Sched.new g).setStartline true 100
    let e ← s.earliestEnding
    let (_, o) ← s.setDeadline true 114
    let (s, o') ← s.setDeadline true 120
    pure (o, o', s.schedule, e, ← s.latestBeginning)) =
    (.ok (.recovered, .propagated, [[⟨100, 105⟩], [⟨110, 115⟩], [⟨112, 120⟩], [⟨115, 120⟩]], 115, 105) :
      Res (Outcome × Outcome × List TSet × Int × Int)) := by
  decide +kernel

end Chrono
