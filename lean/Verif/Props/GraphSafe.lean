import Verif.Lemmas.GraphSafe
import Verif.Props.GraphIter

/-!
# C59, C74: memory safety, and the operations on the size of the graph
-/

set_option linter.unusedSimpArgs false

namespace Chrono
open Spec

theorem op_safe {g : Graph} (hv : Valid g) {op : Op} (hop : op.InRange) :
    Safe (fun p : Graph × Outcome => Valid p.1) OnlyAssert (op.run g) := by
  cases op with
  | propagate k => exact (propagate_safe hv hop).mono (fun p h => h.valid)
  | extend hint ks => exact (extend_safe hv hop).mono (fun p h => h.valid)
  | merge h => exact (merge_safe hv hop).mono (fun p h => h.valid)
  | resize n =>
    obtain ⟨g', h1, -, h3, -⟩ := resize_next g hop
    exact Safe.of_eq (a := (g', .unchanged)) (by show (g.resize n >>= _) = _; rw [h1]; rfl) h3
  | reset =>
    obtain ⟨g', h1, h2, -⟩ := reset_eq hv
    exact Safe.of_eq (a := (g', .unchanged)) (by show (g.reset >>= _) = _; rw [h1]; rfl) (h2.valid hv)
  | shrinkToFit =>
    obtain ⟨n, h1, h2, -⟩ := shrunk_eq hv g.size (Nat.le_refl _)
    refine Safe.of_eq (a := ({ g with size := n }, .unchanged))
      (by show (g.shrinkToFit >>= _) = _; unfold Graph.shrinkToFit; rw [h1]; rfl) ?_
    have := hv.1
    exact ⟨by show n ≤ _; omega, Nat.le_trans (sq_mono h2) hv.2⟩

/-- C59: an operation on an allocated graph, with instants below 65535, returns with an allocated graph, or panics on the
sum of two opposite infinities. In particular there is no access out of bounds and no overflow of `u32`. The bounds of
the constraints and the content of the graph are arbitrary. -/
theorem C59_operation {g : Graph} (hv : Valid g) {op : Op} (hop : op.InRange) :
    (∃ g' o, op.run g = .ok (g', o) ∧ Valid g') ∨ op.run g = .error .assertFail := by
  rcases (op_safe hv hop).cases with ⟨⟨g', o⟩, e, h⟩ | ⟨er, e, h⟩
  · exact Or.inl ⟨g', o, e, h⟩
  · exact Or.inr (by rw [e, h])

/-- C59, for histories of operations of any length. -/
theorem C59_history : ∀ {ops : List Op} {g : Graph}, Valid g → (∀ op ∈ ops, op.InRange) →
    (∃ g', runOps g ops = .ok g' ∧ Valid g') ∨ runOps g ops = .error .assertFail
  | [], g, hv, _ => Or.inl ⟨g, rfl, hv⟩
  | op :: ops, g, hv, hops => by
    unfold runOps
    rw [List.foldlM_cons]
    rcases C59_operation hv (hops op (by simp)) with ⟨g', o, e, h⟩ | e
    · rw [e]
      exact C59_history (ops := ops) h (fun op' h' => hops op' (by simp [h']))
    · right
      rw [e]; rfl

/-- C59: graphs start allocated. -/
theorem C59_start : Valid Graph.default ∧ ∀ n, n ≤ 65535 → ∃ g, Graph.withSize n = .ok g ∧ Valid g := by
  refine ⟨default_valid, fun n hn => ?_⟩
  obtain ⟨g, h1, -, h2, -⟩ := withSize_eq hn
  exact ⟨g, h1, h2⟩

/-- C59: on an allocated graph, the queries never panic, whatever the instants are. -/
theorem C59_queries {g : Graph} (hv : Valid g) (i j : Nat) :
    (∃ r, g.timespan i j = .ok r) ∧ (∃ r, g.constraint i j = .ok r) ∧ (∃ r, g.instantCmp i j = .ok r) ∧
    (∃ r, g.areDistinct i j = .ok r) ∧ (∃ r, g.iterAll = .ok r) ∧ (∃ r, g.constraintsFrom i = .ok r) ∧
    (∃ r, g.constraintsTo i = .ok r) := by
  have it : ∃ r, g.iterAll = .ok r := (iterAll_spec hv).imp (fun _ h => h.1)
  have fr : (∃ r, g.constraintsFrom i = .ok r) ∧ (∃ r, g.constraintsTo i = .ok r) := by
    rcases Nat.lt_or_ge i g.size with hi | hi
    · obtain ⟨ks, h, -⟩ := C72_from_partial hv hi
      exact ⟨⟨ks, h⟩, ⟨_, C72_to hv hi h⟩⟩
    · exact ⟨⟨_, (C72_out_of_range g hi).1⟩, ⟨_, (C72_out_of_range g hi).2⟩⟩
  by_cases c : i < g.size ∧ j < g.size
  · have k := constraint_eq hv c.1 c.2
    refine ⟨⟨_, timespan_eq hv c.1 c.2⟩, ⟨_, k⟩, ?_, ?_, it, fr.1, fr.2⟩
    · unfold Graph.instantCmp
      rw [if_neg (by simp only [Bool.or_eq_true, decide_eq_true_eq]; omega), lower_eq hv c.1 c.2, ok_bind]
      split
      · exact ⟨_, rfl⟩
      · rw [lower_eq hv c.2 c.1, ok_bind]
        split
        · exact ⟨_, rfl⟩
        · split <;> exact ⟨_, rfl⟩
    · unfold Graph.areDistinct
      rw [k, ok_bind]
      split <;> exact ⟨_, rfl⟩
  · have o : g.size ≤ i ∨ g.size ≤ j := by omega
    have k : g.constraint i j = .ok none := by
      unfold Graph.constraint
      rw [if_pos (by simpa using o)]; rfl
    exact ⟨⟨_, timespan_out o⟩, ⟨_, k⟩, ⟨_, (C69_out_of_range g o).1⟩, ⟨_, (C69_out_of_range g o).2⟩, it, fr.1, fr.2⟩

/-- C59: 65535 is the limit. An instant from 65535 on makes `resize`, hence `propagate`, overflow. -/
theorem C59_limit {g : Graph} (hv : Valid g) :
    (∀ n, 65536 ≤ n → g.resize n = .error .overflow) ∧
    (∀ k : Constr, k.isEmpty = false → 65535 ≤ max k.src k.dst → g.propagate k = .error .overflow) := by
  have r : ∀ n, 65536 ≤ n → g.resize n = .error .overflow := by
    intro n hn
    unfold Graph.resize
    rw [chkSq_over hn]; rfl
  refine ⟨r, fun k hk hm => ?_⟩
  have hv1 := hv.1
  unfold Graph.propagate
  rw [if_neg (by rw [hk]; decide)]
  simp only
  rw [if_pos (by omega)]
  rcases chkU32_cases (((max k.src k.dst : Nat) : Int) + 1) with e | ⟨m, e, h⟩
  · rw [e]; rfl
  · rw [e, ok_bind, r m (by omega)]; rfl

/-- C59: no constraint gets hidden beyond the instants of the graph, unless an operation fails fatally (see C66). -/
theorem C59_clean {g g' : Graph} {o : Outcome} (hv : Valid g) {op : Op} (hop : op.InRange) (h : op.run g = .ok (g', o))
    (ho : o ≠ .fatal) (hc : Clean g) (hm : ∀ h, op = .merge h → Clean h) : Clean g' := by
  rw [clean_iff] at hc ⊢
  cases op with
  | propagate k =>
    have := propagate_safe hv hop
    rw [show g.propagate k = .ok (g', o) from h] at this
    cases this with
    | ok this => exact this.clean hc
  | extend hint ks =>
    have := extend_safe (hint := hint) hv hop
    rw [show g.extend hint ks = .ok (g', o) from h] at this
    cases this with
    | ok this => exact this.clean ho hc
  | merge x =>
    have := merge_safe hv hop
    rw [show g.merge x = .ok (g', o) from h] at this
    cases this with
    | ok this => exact this.clean ho ⟨hc, clean_iff.1 (hm x rfl)⟩
  | resize n =>
    obtain ⟨x, h1, -, -, h4, -⟩ := resize_next g hop
    have e : (g.resize n >>= fun x => pure (x, Outcome.unchanged)) = .ok (g', o) := h
    rw [h1] at e
    cases e
    exact h4
  | reset =>
    obtain ⟨x, h1, h2, h3⟩ := reset_eq hv
    have e : (g.reset >>= fun x => pure (x, Outcome.unchanged)) = .ok (g', o) := h
    rw [h1] at e
    cases e
    intro i j _ _ hij _
    rw [h3, if_neg (by omega)]
  | shrinkToFit =>
    obtain ⟨n, h1, h2, h3, -⟩ := shrunk_eq hv g.size (Nat.le_refl _)
    have e : (g.shrinkToFit >>= fun x => pure (x, Outcome.unchanged)) = .ok (g', o) := h
    unfold Graph.shrinkToFit at e
    rw [h1] at e
    cases e
    intro i j hi hj hij ho
    by_cases c : i < g.size ∧ j < g.size
    · exact h3 i j hij ho c.1 c.2
    · exact hc i j hi hj hij (by omega)

/-- C59: the same for `Tidy`. -/
theorem C59_tidy {g g' : Graph} {o : Outcome} (hv : Valid g) {op : Op} (hop : op.InRange) (h : op.run g = .ok (g', o))
    (ho : o ≠ .fatal) (ht : Tidy g) (hm : ∀ h, op = .merge h → Tidy h) (hz : op = .shrinkToFit → ZeroDiag g) :
    Tidy g' := by
  cases op with
  | propagate k =>
    have := propagate_safe hv hop
    rw [show g.propagate k = .ok (g', o) from h] at this
    cases this with
    | ok this => exact this.tidy ht
  | extend hint ks =>
    have := extend_safe (hint := hint) hv hop
    rw [show g.extend hint ks = .ok (g', o) from h] at this
    cases this with
    | ok this => exact this.tidy ho ht
  | merge x =>
    have := merge_safe hv hop
    rw [show g.merge x = .ok (g', o) from h] at this
    cases this with
    | ok this => exact this.tidy ho ⟨ht, hm x rfl⟩
  | resize n =>
    obtain ⟨x, h1, -, -, -, h5⟩ := resize_next g hop
    have e : (g.resize n >>= fun x => pure (x, Outcome.unchanged)) = .ok (g', o) := h
    rw [h1] at e
    cases e
    exact h5
  | reset =>
    obtain ⟨x, h1, h2, h3⟩ := reset_eq hv
    have e : (g.reset >>= fun x => pure (x, Outcome.unchanged)) = .ok (g', o) := h
    rw [h1] at e
    cases e
    rw [tidy_iff]
    intro i j hij
    rw [h2.size] at hij
    rw [h3, if_neg (by omega)]
    exact Or.inl rfl
  | shrinkToFit =>
    obtain ⟨n, h1, h2, h3, -⟩ := shrunk_eq hv g.size (Nat.le_refl _)
    have e : (g.shrinkToFit >>= fun x => pure (x, Outcome.unchanged)) = .ok (g', o) := h
    unfold Graph.shrinkToFit at e
    rw [h1] at e
    cases e
    rw [tidy_iff] at ht ⊢
    intro i j ho
    by_cases c : i < g.size ∧ j < g.size
    · by_cases d : i = j
      · subst d
        exact Or.inr ⟨rfl, (zeroDiag_iff hv).1 (hz rfl) i c.1⟩
      · exact Or.inl (h3 i j d ho c.1 c.2)
    · exact ht i j (by omega)

example : Valid exGraph ∧ Clean exGraph ∧ (Op.propagate ⟨2, 65534, false, -INF, INF⟩).InRange ∧
    (Op.extend none [⟨0, 3, false, 5, 6⟩, ⟨3, 1, true, 1, 0⟩]).InRange ∧ (Op.merge exGraph2).InRange ∧
    (Op.resize 65535).InRange :=
  ⟨exGraph_valid, exGraph_clean, ⟨by decide, by decide⟩, by simp [Op.InRange], by unfold Op.InRange; decide, by simp [Op.InRange]⟩

/-! ## C74 -/

/-- C74: `reset` keeps the instants and removes every constraint. -/
theorem C74_reset {g : Graph} (hv : Valid g) :
    ∃ g', g.reset = .ok g' ∧ g'.size = g.size ∧ Valid g' ∧ Clean g' ∧ Minimal g' ∧
      (∀ i j, i ≠ j → g'.timespan i j = .ok ⟨-INF, INF⟩) ∧
      (∀ i, i < g.size → g'.timespan i i = .ok ⟨0, 0⟩) := by
  obtain ⟨g', h1, h2, h3⟩ := reset_eq hv
  have v := h2.valid hv
  have sz := h2.size
  have mm : ∀ a b, a < g'.size → b < g'.size → mat g' a b = if a = b then 0 else -INF := by
    intro a b ha hb
    rw [h3]
    by_cases c : a = b
    · rw [if_pos ⟨c, by omega⟩, if_pos c]
    · rw [if_neg (by omega), if_neg c]
  refine ⟨g', h1, sz, v, clean_iff.2 ?_, (minimal_iff v).2 (unconstrained_closed mm), ?_, ?_⟩
  · intro i j _ _ hij _
    rw [h3, if_neg (by omega)]
  · intro i j hij
    by_cases c : i < g'.size ∧ j < g'.size
    · rw [timespan_eq v c.1 c.2, h3, h3, if_neg (by omega), if_neg (by omega)]; decide
    · exact timespan_out (by omega)
  · intro i hi
    rw [timespan_eq v (by omega) (by omega), h3, if_pos ⟨rfl, hi⟩]; decide

/-- C74: `resize`, in both directions: the time spans between two distinct instants are kept if both remain; the other
ones are unconstrained. -/
theorem C74_resize {g : Graph} (hv : Valid g) (hc : Clean g) {n : Nat} (hn : n ≤ 65535) :
    ∃ g', g.resize n = .ok g' ∧ g'.size = n ∧ Valid g' ∧ Clean g' ∧
      ∀ i j, i ≠ j → g'.timespan i j = if i < n ∧ j < n then g.timespan i j else .ok ⟨-INF, INF⟩ := by
  obtain ⟨g', h1, h2, h3, h4, h5⟩ := grow (clean_iff.1 hc) hn
  refine ⟨g', h1, h2, h3, clean_iff.2 h4, fun i j hij => ?_⟩
  by_cases c : i < n ∧ j < n
  · rw [if_pos c, timespan_eq h3 (by omega) (by omega), h5 i j c.1 c.2, h5 j i c.2 c.1]
    by_cases d : i < g.size ∧ j < g.size
    · rw [if_pos d, if_pos ⟨d.2, d.1⟩, timespan_eq hv d.1 d.2]
    · rw [if_neg d, if_neg hij, if_neg (fun e : j < g.size ∧ i < g.size => d ⟨e.2, e.1⟩), if_neg (Ne.symm hij),
        timespan_out (g := g) (by omega)]
      decide
  · rw [if_neg c]; exact timespan_out (by omega)

/-- C74: growing adds no solution and removes none. -/
theorem C74_grow {g : Graph} (hv : Valid g) (hc : Clean g) {n : Nat} (hs : g.size ≤ n) (hn : n ≤ 65535) :
    ∃ g', g.resize n = .ok g' ∧ (∀ τ, Sat τ g' ↔ Sat τ g) ∧ (Minimal g → Minimal g') := by
  obtain ⟨g', h1, h2, h3, h4, h5⟩ := grow (clean_iff.1 hc) hn
  refine ⟨g', h1, fun τ => ?_, fun hm => ?_⟩
  · rw [sat_iff h3, sat_iff hv, h2]
    exact grow_sat hs h5 τ
  · rw [minimal_iff h3, h2]
    exact grow_closed h5 ((minimal_iff hv).1 hm)

/-- C74: `shrink_to_fit` removes no constraint, and removes exactly the last instants which are not constrained. -/
theorem C74_shrink {g : Graph} (hv : Valid g) :
    ∃ g', g.shrinkToFit = .ok g' ∧ g'.size ≤ g.size ∧ Valid g' ∧ (Clean g → Clean g') ∧
      (∀ i j, i ≠ j → g'.timespan i j = g.timespan i j) ∧
      (∀ i, i < g'.size → g'.timespan i i = g.timespan i i) ∧
      (0 < g'.size → ∃ j, j < g'.size - 1 ∧ g.timespan (g'.size - 1) j ≠ .ok ⟨-INF, INF⟩) := by
  obtain ⟨n, h1, h2, h3, h4⟩ := shrunk_eq hv g.size (Nat.le_refl _)
  have v : Valid { g with size := n } := by
    have := hv.1
    exact ⟨by show n ≤ _; omega, Nat.le_trans (sq_mono h2) hv.2⟩
  refine ⟨{ g with size := n }, by unfold Graph.shrinkToFit; rw [h1]; rfl, h2, v, ?_, ?_, ?_, ?_⟩
  · intro hc
    refine C59_clean hv (op := .shrinkToFit) trivial (o := .unchanged) ?_ (by decide) hc (fun h e => by cases e)
    show (g.shrinkToFit >>= _) = _
    unfold Graph.shrinkToFit
    rw [h1]; rfl
  · intro i j hij
    by_cases c : i < n ∧ j < n
    · rw [timespan_eq v c.1 c.2, timespan_eq hv (by omega) (by omega)]; rfl
    · rw [timespan_out (g := { g with size := n }) (by show n ≤ i ∨ n ≤ j; omega)]
      by_cases d : i < g.size ∧ j < g.size
      · rw [timespan_eq hv d.1 d.2, h3 i j hij (by omega) d.1 d.2, h3 j i (Ne.symm hij) (by omega) d.2 d.1]; decide
      · rw [timespan_out (by omega)]
  · intro i hi
    have hi' : i < n := hi
    rw [timespan_eq v hi' hi', timespan_eq hv (by omega) (by omega)]; rfl
  · intro hp
    obtain ⟨j, hj, hr⟩ := h4 hp
    refine ⟨j, hj, fun e => ?_⟩
    have hp' : 0 < n := hp
    rw [timespan_eq hv (by show n - 1 < _; omega) (by omega)] at e
    have e1 := congrArg Iv.lower (Except.ok.inj e)
    have e2 := congrArg Iv.upper (Except.ok.inj e)
    simp only at e1 e2
    omega

example : Valid exGraph ∧ Clean exGraph ∧
    (exGraph.resize 5 >>= Graph.shrinkToFit) = .ok ⟨3, [0, -20, 0, 10, -26, -6, 0, 5, 15,
      -INF, -INF, -INF, 0, -INF, -INF, -INF, -INF, -INF, -INF, -INF, 0, -INF, -INF, -INF, -INF]⟩ ∧
    (exGraph.resize 2 >>= fun g => g.timespan 0 1) = .ok ⟨10, 20⟩ :=
  ⟨exGraph_valid, exGraph_clean, by decide, by decide⟩

end Chrono
