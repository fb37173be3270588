import Verif.Lemmas.GraphBatch
import Verif.Props.Graph

/-!
# C63 (any start), C65–C68: batches, merging, order of the constraints
-/

set_option linter.unusedSimpArgs false

namespace Chrono
open Spec

/-- two minimal graphs with the same solutions say the same -/
theorem same_of_sat {g h : Graph} (hg : Valid g) (hh : Valid h) (sz : g.size = h.size) (mg : Closed g.size (mat g))
    (mh : Closed h.size (mat h)) (e : ∀ τ, MSat g.size (mat g) τ ↔ MSat h.size (mat h) τ) : SameGraph g h := by
  refine ⟨sz, fun i j => ?_⟩
  by_cases c : i < g.size ∧ j < g.size
  · rw [timespan_eq hg c.1 c.2, timespan_eq hh (by omega) (by omega)]
    rw [← sz] at mh e
    rw [mg.unique mh e c.1 c.2, mg.unique mh e c.2 c.1]
  · rw [timespan_out (by omega), timespan_out (by omega)]

/-- C63, from any minimal graph: after any history of accepted and rejected calls, the graph is minimal and its
solutions are those of the first graph which satisfy all the accepted constraints. -/
theorem C63_from_minimal {g : Graph} (hv : Valid g) (hm : Minimal g) {W : Int} (hW : 0 ≤ W) (hg : Within W g)
    (hB : 3 * (g.size : Int) * W < INF) {ks : List Constr} (hks : ∀ k ∈ ks, Usable g.size W k) :
    ∃ g' acc, propagateAll g ks = .ok (g', acc) ∧ acc.Sublist ks ∧ g'.size = g.size ∧ Valid g' ∧ Minimal g' ∧
      (Clean g → Clean g') ∧ (Tidy g → Tidy g') ∧
      (∀ τ, Sat τ g' ↔ Sat τ g ∧ ∀ k ∈ acc, Holds τ k) ∧
      ((∃ τ, Sat τ g ∧ ∀ k ∈ ks, Holds τ k) → acc = ks) := by
  obtain ⟨g', acc, e, s, c, -, off, a, sub, all⟩ := propagateAll_tight hW hv ((minimal_iff hv).1 hm)
    (tight_of_small (small_of_within hv hg)) hB hks
  have hv' := s.valid hv
  refine ⟨g', acc, e, sub, s.size, hv', (minimal_iff hv').2 (by rw [s.size]; exact c),
    fun h => clean_iff.2 (s.clean off (clean_iff.1 h)), s.tidy off, fun τ => ?_, ?_⟩
  · rw [sat_iff hv', sat_iff hv, s.size, a]
  · rintro ⟨τ, t1, t2⟩
    exact all ⟨τ, (sat_iff hv τ).1 t1, t2⟩

example : Valid exGraph ∧ Minimal exGraph ∧ Within 26 exGraph ∧ 3 * (exGraph.size : Int) * 26 < INF ∧
    Usable exGraph.size 26 ⟨2, 0, false, -25, -24⟩ ∧ Usable exGraph.size 26 ⟨0, 1, false, -5, 3⟩ ∧
    propagateAll exGraph [⟨2, 0, false, -25, -24⟩, ⟨0, 1, false, -5, 3⟩] =
      .ok (⟨3, [0, -20, 0, 18, -25, -6, 0, 5, 24]⟩, [⟨2, 0, false, -25, -24⟩]) :=
  ⟨exGraph_valid, exGraph_minimal, exGraph_within, by decide, by decide, by decide, by decide⟩

/-! ## C65: extend -/

/-- C65: `extend` with several constraints (the iterator does not announce at most one item) succeeds if and only if
some assignment satisfies the graph and all of them; the graph is then minimal, with exactly these solutions,
even if it was not minimal before. Otherwise the failure is fatal and the graph has no instant left. -/
theorem C65_extend {g : Graph} (hv : Valid g) (hc : Clean g) (hz : ZeroDiag g) {W : Int} (hW : 0 ≤ W)
    (hg : Within W g) {n : Nat} (hn0 : 0 < n) (hn : g.size ≤ n) (hn2 : n ≤ 65535) (hB : 3 * (n : Int) * W < INF)
    {ks : List Constr} (hks : ∀ k ∈ ks, Batchable n W k) {hint : Option Nat} (h0 : hint ≠ some 0)
    (h1 : hint ≠ some 1) :
    ∃ g' o, g.extend hint ks = .ok (g', o) ∧ (o = .propagated ∨ o = .fatal) ∧
      (o = .propagated ↔ ∃ τ, Sat τ g ∧ ∀ k ∈ ks, Holds τ k) ∧
      (o = .propagated → Valid g' ∧ Clean g' ∧ Minimal g' ∧ (∀ τ, Sat τ g' ↔ Sat τ g ∧ ∀ k ∈ ks, Holds τ k) ∧
        g.size ≤ g'.size ∧ g'.size ≤ n ∧ ∀ k ∈ ks, k.src < g'.size ∧ k.dst < g'.size) ∧
      (o = .fatal → g'.size = 0) := by
  rcases extend_spec hv (clean_iff.1 hc) ((zeroDiag_iff hv).1 hz) hW (small_of_within hv hg) hn0 hn hn2 hB hks h0 h1 with
    ⟨g', e, sz, v, cl, C, -, s⟩ | ⟨g', e, sz, s⟩
  · have hs : ∀ τ, Sat τ g' ↔ Sat τ g ∧ ∀ k ∈ ks, Holds τ k := fun τ => by rw [sat_iff v, sat_iff hv, s]
    have hm := (minimal_iff v).2 C
    refine ⟨g', .propagated, e, Or.inl rfl, ⟨fun _ => ?_, fun _ => rfl⟩, fun _ => ⟨v, clean_iff.2 cl, hm, hs,
      by omega, ?_, ?_⟩, fun h => by cases h⟩
    · obtain ⟨τ, t⟩ := hm.1
      exact ⟨τ, (hs τ).1 t⟩
    · have := needed_le (n := n) (ks := ks) (fun k hk => ⟨(hks k hk).1, (hks k hk).2.1⟩)
      omega
    · intro k hk
      have := lt_needed hk
      omega
  · refine ⟨g', .fatal, e, Or.inr rfl, ⟨fun h => (by cases h), ?_⟩, fun h => (by cases h), fun _ => sz⟩
    rintro ⟨τ, t1, t2⟩
    exact absurd ⟨(sat_iff hv τ).1 t1, t2⟩ (s τ)

/-- C65: with an iterator which announces at most one item, `extend` is `propagate`. -/
theorem C65_single (g : Graph) (k : Constr) :
    g.extend (some 1) [k] = g.propagate k ∧ g.extend (some 1) [] = .ok (g, .unchanged) ∧
    g.extend (some 0) [] = .ok (g, .unchanged) := ⟨rfl, rfl, rfl⟩

/-- C65 is violated by the empty interval: with at least three instants, a batch containing it panics in the propagation
(`+oo + -oo`) instead of reporting the inconsistency. -/
theorem C65_empty_interval_violated :
    (Graph.withSize 3 >>= fun g => g.extend none [Constr.ofConvex 0 1 (.iv ⟨INF, -INF⟩), ⟨1, 2, false, 5, 6⟩]) =
      .error .assertFail := by decide

example : Valid exGraph ∧ Clean exGraph ∧ Within 26 exGraph ∧ exGraph.timespan 1 1 = .ok ⟨0, 0⟩ ∧
    Batchable 4 26 ⟨2, 3, false, 5, 5⟩ ∧ Batchable 4 26 ⟨3, 0, false, -25, INF⟩ ∧ Batchable 4 26 ⟨3, 0, false, -15, INF⟩ ∧
    exGraph.extend none [⟨2, 3, false, 5, 5⟩, ⟨3, 0, false, -25, INF⟩] =
      .ok (⟨4, [0, -15, 0, 10, -20, -6, 0, 5, 15, -25, -11, -5, 0, 5, 10, 20]⟩, .propagated) ∧
    (exGraph.extend none [⟨2, 3, false, 5, 5⟩, ⟨3, 0, false, -15, INF⟩]).map Prod.snd = .ok .fatal :=
  ⟨exGraph_valid, exGraph_clean, exGraph_within, by decide, by decide, by decide, by decide, by decide, by decide⟩

/-! ## C66: after a fatal inconsistency -/

/-- C66, partial: after a fatal failure the graph has no instant, no constraint can be read, and it is as new after
`reset` or `resize(0)`. Missing: that the graph is as new without that, which fails (next theorem). -/
theorem C66_fatal_partial {g g' : Graph}
    (h : (∃ hint ks, g.extend hint ks = .ok (g', .fatal)) ∨ (∃ h, g.merge h = .ok (g', .fatal))) :
    g'.size = 0 ∧ (∀ i j, g'.timespan i j = .ok ⟨-INF, INF⟩ ∧ g'.constraint i j = .ok none) ∧ g'.iterAll = .ok [] ∧
      (∃ g'', g'.reset = .ok g'' ∧ g''.size = 0 ∧ Valid g'' ∧ Clean g'' ∧ Tidy g'') ∧
      (∃ g'', g'.resize 0 = .ok g'' ∧ g''.size = 0 ∧ Valid g'' ∧ Clean g'' ∧ Tidy g'') := by
  have sz : g'.size = 0 := by
    rcases h with ⟨_, _, h⟩ | ⟨_, h⟩
    · exact extend_fatal_size h
    · exact merge_fatal_size h
  have hv : Valid g' := by unfold Valid; rw [sz]; omega
  refine ⟨sz, fun i j => ⟨timespan_out (by omega), ?_⟩, ?_, ?_, ?_⟩
  · unfold Graph.constraint
    rw [if_pos (by rw [sz]; simp)]; rfl
  · unfold Graph.iterAll
    rw [sz]
    unfold Graph.runIter Graph.iterNext Graph.iterInit
    rw [if_pos sz.symm]; rfl
  · obtain ⟨g'', e, s, m⟩ := reset_eq hv
    have t : Tidy g'' := by
      rw [tidy_iff]
      intro i j hij
      left
      rw [m, if_neg (by omega)]
    exact ⟨g'', e, by rw [s.size, sz], s.valid hv, clean_iff.2 (tidy_clean t), t⟩
  · obtain ⟨g'', e, s, l, m⟩ := resize_eq g' (n := 0) (by omega)
    have t : Tidy g'' := tidy_of_len (by rw [s, l])
    exact ⟨g'', e, s, by unfold Valid; rw [s]; omega, clean_iff.2 (tidy_clean t), t⟩

/-- C66: `propagate` never fails fatally. -/
theorem C66_propagate_never_fatal (g g' : Graph) (k : Constr) : g.propagate k ≠ .ok (g', .fatal) := propagate_not_fatal

/-- C66 is violated after every fatal failure: the memory still holds the bounds of the failed operation, and as soon as the graph grows again, with
any constraint, they are announced again between any two instants it has no part in. -/
theorem C66_stale_violated {g g' : Graph}
    (h : (∃ hint ks, g.extend hint ks = .ok (g', .fatal)) ∨ (∃ h, g.merge h = .ok (g', .fatal)))
    {k : Constr} (hk : k.isEmpty = false) (hm : k.src < 65535 ∧ k.dst < 65535) {i j : Nat} (hij : i ≠ j)
    (hi : i ≤ k.src ∨ i ≤ k.dst) (hj : j ≤ k.src ∨ j ≤ k.dst)
    (hn : ¬ (i = k.src ∧ j = k.dst) ∧ ¬ (i = k.dst ∧ j = k.src)) (hl : (max i j + 1) * (max i j + 1) ≤ g'.data.length) :
    g'.timespan i j = .ok ⟨-INF, INF⟩ ∧ ∃ g'', g'.propagate k = .ok (g'', .propagated) ∧
      g''.timespan i j = Graph.timespan ⟨max i j + 1, g'.data⟩ i j := by
  have sz := (C66_fatal_partial h).1
  refine ⟨timespan_out (by omega), ?_⟩
  obtain ⟨x, h1, h2, h3, h4⟩ := resize_eq g' (n := max k.src k.dst + 1) (by omega)
  have v : Valid x := ⟨by omega, by rw [h2, h3]; exact Nat.le_refl _⟩
  have b1 : k.src < x.size := by omega
  have b2 : k.dst < x.size := by omega
  have bi : i < x.size := by omega
  have bj : j < x.size := by omega
  have v1 := v.put k.src k.dst k.lower
  have v2 := v1.put k.dst k.src (tvNeg k.upper)
  refine ⟨put (put x k.src k.dst k.lower) k.dst k.src (tvNeg k.upper), ?_, ?_⟩
  · have ec : chkU32 (((max k.src k.dst : Nat) : Int) + 1) = .ok (max k.src k.dst + 1) := by
      rw [chkU32_ok (by omega) (by omega)]; congr 1
    unfold Graph.propagate
    simp only
    rw [if_neg (by simp [hk]), if_pos (by omega), ec, ok_bind, h1, ok_bind, setLower_eq v b1 b2, ok_bind,
      setLower_eq v1 b2 b1, ok_bind]
    rfl
  · have vw : Valid ⟨max i j + 1, g'.data⟩ := ⟨by simp only; omega, hl⟩
    have key : ∀ a b, a < x.size → b < x.size → a ≠ b → ¬ (a = k.src ∧ b = k.dst) → ¬ (a = k.dst ∧ b = k.src) →
        mat (put (put x k.src k.dst k.lower) k.dst k.src (tvNeg k.upper)) a b = mat g' a b := fun a b ha hb hab c1 c2 => by
      rw [mat_put _ (v1.ix_lt b2 b1), if_neg c2, mat_put _ (v.ix_lt b1 b2), if_neg c1, h4 a b (by omega) (by omega),
        if_neg (fun c => hab c.1)]
    rw [timespan_eq v2 bi bj, timespan_eq vw (by simp only; omega) (by simp only; omega), key i j bi bj hij hn.1 hn.2,
      key j i bj bi (Ne.symm hij) (fun c => hn.2 ⟨c.2, c.1⟩) (fun c => hn.1 ⟨c.2, c.1⟩)]
    rfl

/-- Here the bounds `5 ≤ t₂ - t₁ ≤ 5` are those of the failed batch. -/
example : ∃ g g', exGraph.extend none [⟨0, 1, false, 30, 40⟩, ⟨1, 2, false, 5, 5⟩] = .ok (g, .fatal) ∧
    g.size = 0 ∧ (max 1 2 + 1) * (max 1 2 + 1) ≤ g.data.length ∧ g.propagate ⟨2, 3, false, 0, 1⟩ = .ok (g', .propagated) ∧
    g'.timespan 1 2 = .ok ⟨5, 5⟩ ∧ g'.timespan 0 1 = .ok ⟨30, 20⟩ :=
  ⟨⟨0, [0, -20, 10, 30, -26, -5, 0, 5, 15]⟩, ⟨4, [0, -20, 0, 30, -26, -5, 0, 5, 15, -INF, -INF, -1, 0, 0, -INF, -INF]⟩,
    by decide, by decide, by decide, by decide, by decide, by decide⟩

/-! ## C67: merge -/

/-- C67: merging two consistent graphs fails, fatally, if and only if they have no common solution; otherwise the
solutions of the result are the common ones, and it is minimal if both graphs were. `Ok(Unchanged)` only if the graph
is unchanged. -/
theorem C67_merge {g h : Graph} (hg : Valid g) (hh : Valid h) (tg : Tidy g) (th : Tidy h) (zg : ZeroDiag g)
    (zh : ZeroDiag h) (cg : ∃ τ, Sat τ g) (ch : ∃ τ, Sat τ h) {W : Int} (hW : 0 ≤ W) (wg : Within W g)
    (wh : Within W h) (hB : 3 * ((max g.size h.size : Nat) : Int) * W < INF) :
    ∃ g' o, g.merge h = .ok (g', o) ∧ o ≠ .recovered ∧ (o = .fatal ↔ ¬ ∃ τ, Sat τ g ∧ Sat τ h) ∧
      (o = .fatal → g'.size = 0) ∧ (o = .unchanged → g' = g) ∧
      (o ≠ .fatal → g'.size = max g.size h.size ∧ Valid g' ∧ Tidy g' ∧ (∀ τ, Sat τ g' ↔ Sat τ g ∧ Sat τ h) ∧
        (Minimal g → Minimal h → Minimal g')) := by
  have key : ∀ {a b : Graph}, Valid a → Valid b → Tidy a → Tidy b → ZeroDiag a → (∃ τ, Sat τ a) →
      Within W a → Within W b → b.size ≤ a.size → 3 * (a.size : Int) * W < INF → ∀ u : Outcome,
      (u = .unchanged ∨ u = .propagated) →
      ∃ g' o, (if (Graph.zipMax a.data b.data).2 then Graph.globalPropagation { a with data := (Graph.zipMax a.data b.data).1 }
          else .ok ({ a with data := (Graph.zipMax a.data b.data).1 }, u)) = .ok (g', o) ∧ o ≠ .recovered ∧
        (o = .fatal ↔ ¬ ∃ τ, Sat τ a ∧ Sat τ b) ∧ (o = .fatal → g'.size = 0) ∧ (o = .unchanged → g' = a) ∧
        (o = .unchanged → u = .unchanged) ∧
        (o ≠ .fatal → g'.size = a.size ∧ Valid g' ∧ Tidy g' ∧ (∀ τ, Sat τ g' ↔ Sat τ a ∧ Sat τ b) ∧
          (Minimal a → Minimal b → Minimal g')) := by
    intro a b va vb ta tb za ca wa wb hl hB u hu
    rcases merge_le va vb hl tb ((zeroDiag_iff va).1 za) hW (small_of_within va wa) (small_of_within vb wb) hB with
      ⟨e1, e2, e3⟩ | ⟨e1, ⟨g', e2, e3, e4, e5, e6, -, e7⟩ | ⟨g', e2, e3, e4⟩⟩
    · have imp : ∀ τ, Sat τ a → Sat τ b := fun τ t => (sat_iff vb τ).2 (e3 τ ((sat_iff va τ).1 t))
      obtain ⟨τ, t⟩ := ca
      rw [e1, e2]
      refine ⟨a, u, rfl, by rcases hu with rfl | rfl <;> decide, ⟨fun h => ?_, fun h => absurd ⟨τ, t, imp τ t⟩ h⟩, fun h => ?_,
        fun _ => rfl, fun h => h, fun _ => ⟨rfl, va, ta, fun τ => ⟨fun t => ⟨t, imp τ t⟩, fun t => t.1⟩, fun m _ => m⟩⟩
      · rcases hu with rfl | rfl <;> cases h
      · rcases hu with rfl | rfl <;> cases h
    · have hs : ∀ τ, Sat τ g' ↔ Sat τ a ∧ Sat τ b := fun τ => by rw [sat_iff e4, sat_iff va, sat_iff vb, e3, e7]
      have hm : Minimal g' := (minimal_iff e4).2 (by rw [e3]; exact e6)
      rw [e1]
      refine ⟨g', .propagated, e2, by decide, ⟨fun h => (by cases h), fun h => ?_⟩, fun h => (by cases h),
        fun h => (by cases h), fun h => (by cases h), fun _ => ⟨e3, e4, e5 ta, hs, fun _ _ => hm⟩⟩
      obtain ⟨τ, t⟩ := hm.1
      exact absurd ⟨τ, (hs τ).1 t⟩ h
    · rw [e1]
      refine ⟨g', .fatal, e2, by decide, ⟨fun _ => ?_, fun _ => rfl⟩, fun _ => e3, fun h => (by cases h),
        fun h => (by cases h), fun h => absurd rfl h⟩
      rintro ⟨τ, t1, t2⟩
      exact e4 τ ⟨(sat_iff va τ).1 t1, (sat_iff vb τ).1 t2⟩
  by_cases c : g.size < h.size
  · have e : max g.size h.size = h.size := by omega
    rw [e] at hB ⊢
    obtain ⟨g', o, k1, k2, k3, k4, k5, k6, k7⟩ := key hh hg th tg zh ch wh wg (by omega) hB .propagated (Or.inr rfl)
    refine ⟨g', o, ?_, k2, ?_, k4, fun h => absurd (k6 h) (by decide), fun h => ?_⟩
    · unfold Graph.merge
      rw [if_pos c]
      exact k1
    · rw [k3]
      exact ⟨fun h ⟨τ, t⟩ => h ⟨τ, t.2, t.1⟩, fun h ⟨τ, t⟩ => h ⟨τ, t.2, t.1⟩⟩
    · obtain ⟨l1, l2, l3, l4, l5⟩ := k7 h
      exact ⟨l1, l2, l3, fun τ => by rw [l4 τ]; exact and_comm, fun m1 m2 => l5 m2 m1⟩
  · have e : max g.size h.size = g.size := by omega
    rw [e] at hB ⊢
    obtain ⟨g', o, k1, k2, k3, k4, k5, k6, k7⟩ := key hg hh tg th zg cg wg wh (by omega) hB .unchanged (Or.inl rfl)
    refine ⟨g', o, ?_, k2, k3, k4, k5, k7⟩
    unfold Graph.merge
    rw [if_neg c]
    exact k1

/-- C67: `Ok(Unchanged)` exactly when the other graph has no other instant and tells nothing new: each of its time spans includes
the one of the graph. (`h.data.length ≤ g.size * g.size`: the memory of the other graph, which may be larger than its instants after
`shrink_to_fit`, is not larger than the graph.) -/
theorem C67_unchanged {g h : Graph} (hg : Valid g) (hh : Valid h) (th : Tidy h) (zg : ZeroDiag g) (wg : Within INF g) :
    (g.size < h.size → ∀ g', g.merge h ≠ .ok (g', .unchanged)) ∧
    (h.size ≤ g.size → h.data.length ≤ g.size * g.size →
      (g.merge h = .ok (g, .unchanged) ↔ ∀ i j s t, i < h.size → j < h.size → g.timespan i j = .ok s →
        h.timespan i j = .ok t → t.lower ≤ s.lower ∧ s.upper ≤ t.upper)) := by
  constructor
  · intro c g' e
    unfold Graph.merge at e
    rw [if_pos c] at e
    simp only at e
    split at e
    · exact globalPropagation_ne e
    · rw [if_pos trivial] at e; cases e
  · intro c hl
    have em : g.merge h = .ok (g, .unchanged) ↔ (Graph.zipMax g.data h.data).2 = false := by
      unfold Graph.merge
      rw [if_neg (by omega)]
      simp only
      constructor
      · intro e
        cases hp : (Graph.zipMax g.data h.data).2 with
        | false => rfl
        | true =>
          rw [hp, if_pos rfl] at e
          exact absurd e globalPropagation_ne
      · intro e
        rw [e, if_neg (by decide), if_neg (by decide), (zipMax_same g.data h.data e).1]
        rfl
    have cellg : ∀ {a b : Nat}, a < g.size → b < g.size → g.data[ix a b]? = some (mat g a b) := fun ha hb => by
      have := hg.ix_lt ha hb
      unfold mat
      rw [List.getD_eq_getElem?_getD, List.getElem?_eq_getElem this]
      rfl
    have cellh : ∀ {a b : Nat}, a < h.size → b < h.size → h.data[ix a b]? = some (mat h a b) := fun ha hb => by
      have := hh.ix_lt ha hb
      unfold mat
      rw [List.getD_eq_getElem?_getD, List.getElem?_eq_getElem this]
      rfl
    rw [em, zipMax_unchanged]
    constructor
    · intro H i j s t hi hj hs ht
      rw [timespan_eq hg (by omega) (by omega)] at hs
      rw [timespan_eq hh hi hj] at ht
      cases hs
      cases ht
      have h1 := H _ _ _ (cellg (a := i) (b := j) (by omega) (by omega)) (cellh hi hj)
      have h2 := H _ _ _ (cellg (a := j) (b := i) (by omega) (by omega)) (cellh hj hi)
      exact ⟨h1, by simp only; omega⟩
    · intro H x u v hu hv
      have hx : x < h.data.length := (List.getElem?_eq_some_iff.1 hv).1
      obtain ⟨i, j, hi, hj, rfl⟩ := ix_surj (show x < g.size * g.size by omega)
      rw [cellg hi hj] at hu
      cases hu
      by_cases ch : i < h.size ∧ j < h.size
      · rw [cellh ch.1 ch.2] at hv
        cases hv
        exact (H i j _ _ ch.1 ch.2 (timespan_eq hg hi hj) (timespan_eq hh ch.1 ch.2)).1
      · rcases th _ v (ix_ge_sq (by omega)) hv with rfl | ⟨rfl, a, ha⟩
        · have := (wg i j hi hj _ (timespan_eq hg hi hj)).1
          simp only at this
          omega
        · have ha' : ix i j = ix a a := by rw [ha, ix_ge (Nat.le_refl a)]
          obtain ⟨rfl, rfl⟩ := ix_inj ha'
          rw [(zeroDiag_iff hg).1 zg _ hi]
          exact Int.le_refl 0

/-- C67: merging is symmetric. -/
theorem C67_symmetric {g h : Graph} (hg : Valid g) (hh : Valid h) (tg : Tidy g) (th : Tidy h) (mg : Minimal g)
    (mh : Minimal h) {W : Int} (hW : 0 ≤ W) (wg : Within W g) (wh : Within W h)
    (hB : 3 * ((max g.size h.size : Nat) : Int) * W < INF) :
    ∃ g1 o1 g2 o2, g.merge h = .ok (g1, o1) ∧ h.merge g = .ok (g2, o2) ∧ (o1 = .fatal ↔ o2 = .fatal) ∧
      SameGraph g1 g2 := by
  have zg := ((minimal_iff hg).1 mg).zeroDiag hg
  have zh := ((minimal_iff hh).1 mh).zeroDiag hh
  obtain ⟨g1, o1, a1, a2, a3, a4, a5, a6⟩ := C67_merge hg hh tg th zg zh mg.1 mh.1 hW wg wh hB
  obtain ⟨g2, o2, b1, b2, b3, b4, b5, b6⟩ := C67_merge hh hg th tg zh zg mh.1 mg.1 hW wh wg (by
    rw [Nat.max_comm]; exact hB)
  have e : o1 = .fatal ↔ o2 = .fatal := by
    rw [a3, b3]
    exact ⟨fun h ⟨τ, t⟩ => h ⟨τ, t.2, t.1⟩, fun h ⟨τ, t⟩ => h ⟨τ, t.2, t.1⟩⟩
  refine ⟨g1, o1, g2, o2, a1, b1, e, ?_⟩
  by_cases c : o1 = .fatal
  · have s1 := a4 c
    have s2 := b4 (e.1 c)
    refine ⟨by omega, fun i j => by rw [timespan_out (by omega), timespan_out (by omega)]⟩
  · obtain ⟨l1, l2, l3, l4, l5⟩ := a6 c
    obtain ⟨r1, r2, r3, r4, r5⟩ := b6 (fun h => c (e.2 h))
    refine same_of_sat l2 r2 (by omega) ((minimal_iff l2).1 (l5 mg mh)) ((minimal_iff r2).1 (r5 mh mg)) (fun τ => ?_)
    rw [← sat_iff l2, ← sat_iff r2, l4, r4]
    exact and_comm

/-- a second graph: `0 →[15,30] 1`, of 2 instants -/
def exGraph2 : Graph := ⟨2, [0, -30, 0, 15]⟩

example : Valid exGraph ∧ Valid exGraph2 ∧ Within 30 exGraph ∧ Tidy exGraph ∧ Tidy exGraph2 ∧ Minimal exGraph ∧
    exGraph.merge exGraph2 = exGraph2.merge exGraph ∧
    exGraph.merge exGraph2 = .ok (⟨3, [0, -20, 0, 15, -26, -6, 0, 5, 20]⟩, .propagated) ∧
    exGraph2.merge ⟨1, [0]⟩ = .ok (exGraph2, .unchanged) ∧
    (exGraph.merge ⟨2, [0, -9, 0, 8]⟩).map Prod.snd = .ok .fatal :=
  ⟨exGraph_valid, by decide, fun i j hi hj s hs => by
      obtain ⟨⟨h1, h2⟩, h3⟩ := And.intro (exGraph_within i j hi hj s hs) trivial
      exact ⟨by omega, by omega⟩,
    tidy_of_len (by decide), tidy_of_len (by decide), exGraph_minimal, by decide, by decide, by decide, by decide⟩

/-! ## C68: order and batching -/

/-- C68: if all the constraints of a list are accepted in some order, they are all accepted in any order, and by
`extend`; the graphs obtained are the same. -/
theorem C68_order {n : Nat} (hn : n ≤ 65535) {W : Int} (hW : 0 ≤ W) (hB : 3 * (n : Int) * W < INF)
    {g : Graph} (hv : Valid g) (hc : Clean g) (hm : Minimal g) (hg : Within W g) (hs : g.size = n)
    {ks ks' : List Constr} (hp : ks.Perm ks') (hks : ∀ k ∈ ks, Usable n W k) {g1 : Graph}
    (h : propagateAll g ks = .ok (g1, ks)) :
    (∃ g2, propagateAll g ks' = .ok (g2, ks') ∧ SameGraph g1 g2) ∧
    (∀ hint, hint ≠ some 0 → hint ≠ some 1 → ∃ g3, g.extend hint ks' = .ok (g3, .propagated) ∧ SameGraph g1 g3) := by
  subst hs
  have hks' : ∀ k ∈ ks', Usable g.size W k := fun k hk => hks k (hp.mem_iff.2 hk)
  obtain ⟨x, acc, e, -, sz, v, m, -, -, s, -⟩ := C63_from_minimal hv hm hW hg hB hks
  rw [h] at e
  cases e
  have hsol : ∀ τ, Sat τ g1 ↔ Sat τ g ∧ ∀ k ∈ ks', Holds τ k := by
    intro τ
    rw [s]
    exact ⟨fun t => ⟨t.1, fun k hk => t.2 k (hp.mem_iff.2 hk)⟩, fun t => ⟨t.1, fun k hk => t.2 k (hp.mem_iff.1 hk)⟩⟩
  constructor
  · obtain ⟨g2, acc2, e2, -, sz2, v2, m2, -, -, s2, all2⟩ := C63_from_minimal hv hm hW hg hB hks'
    have ea : acc2 = ks' := by
      obtain ⟨τ, t⟩ := m.1
      exact all2 ⟨τ, (hsol τ).1 t⟩
    subst ea
    refine ⟨g2, e2, same_of_sat v v2 (by omega) ((minimal_iff v).1 m) ((minimal_iff v2).1 m2) (fun τ => ?_)⟩
    rw [← sat_iff v, ← sat_iff v2, hsol, s2]
  · intro hint h0 h1
    have hne : ∀ k ∈ ks', k.isEmpty = false := by
      intro k hk
      obtain ⟨τ, t⟩ := m.1
      exact (((hsol τ).1 t).2 k hk).1
    by_cases n0 : g.size = 0
    · -- no instant: no constraint
      have hnil : ks' = [] := by
        cases ks' with
        | nil => rfl
        | cons k l =>
          have := (hks' k (by simp)).1
          omega
      subst hnil
      refine ⟨g, ?_, ?_⟩
      · unfold Graph.extend
        rw [if_neg h0, if_neg h1]
        show g.globalPropagation = _
        rw [globalPropagation_def, n0]; rfl
      · exact ⟨by omega, fun i j => by rw [timespan_out (by omega), timespan_out (by omega)]⟩
    · obtain ⟨g3, o, e3, -, k1, k2, -⟩ := C65_extend hv hc (((minimal_iff hv).1 hm).zeroDiag hv) hW hg (n := g.size)
        (by omega) (Nat.le_refl _) hn hB (ks := ks') (fun k hk => by
          obtain ⟨u1, u2, u3⟩ := hks' k hk
          refine ⟨u1, u2, (u3 (hne k hk)).2, fun h => ?_⟩
          rw [hne k hk] at h; cases h) h0 h1
      have ho : o = .propagated := by
        rw [k1]
        obtain ⟨τ, t⟩ := m.1
        exact ⟨τ, (hsol τ).1 t⟩
      obtain ⟨v3, -, m3, s3, l1, l2, -⟩ := k2 ho
      subst ho
      refine ⟨g3, e3, same_of_sat v v3 (by omega) ((minimal_iff v).1 m) ((minimal_iff v3).1 m3) (fun τ => ?_)⟩
      rw [← sat_iff v, ← sat_iff v3, hsol, s3]

/-- C68: the result of `extend` does not depend on the order of the constraints either, whether they are accepted or not. -/
theorem C68_extend_order {g : Graph} (hv : Valid g) (hc : Clean g) (hz : ZeroDiag g) {W : Int} (hW : 0 ≤ W)
    (hg : Within W g) {n : Nat} (hn0 : 0 < n) (hn : g.size ≤ n) (hn2 : n ≤ 65535) (hB : 3 * (n : Int) * W < INF)
    {ks ks' : List Constr} (hp : ks.Perm ks') (hks : ∀ k ∈ ks, Batchable n W k) {hint : Option Nat} (h0 : hint ≠ some 0)
    (h1 : hint ≠ some 1) :
    ∃ g1 g2 o, g.extend hint ks = .ok (g1, o) ∧ g.extend hint ks' = .ok (g2, o) ∧ SameGraph g1 g2 := by
  have hz' := (zeroDiag_iff hv).1 hz
  have hS := small_of_within hv hg
  have hks' : ∀ k ∈ ks', Batchable n W k := fun k hk => hks k (hp.mem_iff.2 hk)
  have hnd : needed ks = needed ks' := by
    clear hks hks'
    induction hp with
    | nil => rfl
    | cons x _ ih => simp only [needed]; rw [ih]
    | swap x y l => simp only [needed]; omega
    | trans _ _ ih1 ih2 => rw [ih1, ih2]
  have hiff : ∀ τ, (∀ k ∈ ks, Holds τ k) ↔ ∀ k ∈ ks', Holds τ k := fun τ =>
    ⟨fun t k hk => t k (hp.mem_iff.2 hk), fun t k hk => t k (hp.mem_iff.1 hk)⟩
  rcases extend_spec hv (clean_iff.1 hc) hz' hW hS hn0 hn hn2 hB hks h0 h1 with
    ⟨g1, e, sz, v, cl, C, -, s⟩ | ⟨g1, e, sz, s⟩ <;>
  rcases extend_spec hv (clean_iff.1 hc) hz' hW hS hn0 hn hn2 hB hks' h0 h1 with
    ⟨g2, e', sz', v', cl', C', -, s'⟩ | ⟨g2, e', sz', s'⟩
  · exact ⟨g1, g2, _, e, e', same_of_sat v v' (by omega) C C' (fun τ => by rw [s, s', hiff])⟩
  · obtain ⟨τ, t⟩ := C.sat
    rw [s, hiff] at t
    exact absurd t (s' τ)
  · obtain ⟨τ, t⟩ := C'.sat
    rw [s', ← hiff] at t
    exact absurd t (s τ)
  · exact ⟨g1, g2, _, e, e', by omega, fun i j => by rw [timespan_out (by omega), timespan_out (by omega)]⟩

example : (Graph.withSize 3 >>= fun g => propagateAll g [⟨0, 1, false, 10, 20⟩, ⟨1, 2, false, 5, 6⟩]) =
      .ok (exGraph, [⟨0, 1, false, 10, 20⟩, ⟨1, 2, false, 5, 6⟩]) ∧
    (Graph.withSize 3 >>= fun g => g.extend (some 2) [⟨1, 2, false, 5, 6⟩, ⟨0, 1, false, 10, 20⟩]) =
      .ok (exGraph, .propagated) := by
  refine ⟨?_, ?_⟩ <;> decide

end Chrono
