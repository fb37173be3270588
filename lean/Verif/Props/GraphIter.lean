import Verif.Lemmas.GraphIter
import Verif.Props.GraphBatch

/-!
# C71–C73, C84: the iterators over the constraints
-/

set_option linter.unusedSimpArgs false

namespace Chrono
open Spec

theorem rel_iff {g : Graph} (hv : Valid g) {i j : Nat} (hi : i < g.size) (hj : j < g.size) {s : Iv}
    (h : g.timespan i j = .ok s) : Rel g i j ↔ s ≠ ⟨-INF, INF⟩ := by
  rw [timespan_eq hv hi hj] at h
  cases h
  unfold Rel
  constructor
  · intro h e
    have e1 := congrArg Iv.lower e
    have e2 := congrArg Iv.upper e
    simp only at e1 e2
    omega
  · intro h
    by_cases c : mat g i j ≠ -INF ∨ mat g j i ≠ -INF
    · exact c
    · refine absurd ?_ h
      have e1 : mat g i j = -INF := by omega
      have e2 : -mat g j i = INF := by omega
      rw [e1, e2]

/-- C71: `iter` terminates and enumerates the pairs `i < j` which are constrained, each exactly once, in lexicographic
order, with the bounds announced by `timespan`. -/
theorem C71_iter {g : Graph} (hv : Valid g) :
    ∃ ks, g.iterAll = .ok ks ∧
      ks.Pairwise (fun k l => k.src < l.src ∨ (k.src = l.src ∧ k.dst < l.dst)) ∧
      (∀ k ∈ ks, k.src < k.dst ∧ k.dst < g.size ∧ k.isEmpty = false ∧ g.timespan k.src k.dst = .ok k.span ∧
        k.span ≠ ⟨-INF, INF⟩) ∧
      (∀ i j, i < j → j < g.size → ∀ s, g.timespan i j = .ok s → s ≠ ⟨-INF, INF⟩ →
        ∃ k ∈ ks, k.src = i ∧ k.dst = j) := by
  obtain ⟨ks, h1, h2, h3, h4⟩ := iterAll_spec hv
  refine ⟨ks, h1, h2, fun k hk => ?_, fun i j hij hj s hs hne => ?_⟩
  · obtain ⟨e, a, b, c⟩ := h3 k hk
    have ht : g.timespan k.src k.dst = .ok k.span := by
      rw [timespan_eq hv (by omega) b, e]; rfl
    exact ⟨a, b, by rw [e]; rfl, ht, (rel_iff hv (by omega) b ht).1 c⟩
  · exact ⟨_, h4 i j hij hj ((rel_iff hv (by omega) hj hs).2 hne), rfl, rfl⟩

theorem exGraph_iter : exGraph.iterAll =
    .ok [⟨0, 1, false, 10, 20⟩, ⟨0, 2, false, 15, 26⟩, ⟨1, 2, false, 5, 6⟩] := by
  have h1 : exGraph.iterLoop 0 0 = .ok (some ⟨0, 1, false, 10, 20⟩, (0, 1)) := by rw [Graph.iterLoop]; decide
  have h2 : exGraph.iterLoop 0 1 = .ok (some ⟨0, 2, false, 15, 26⟩, (0, 2)) := by rw [Graph.iterLoop]; decide
  have h3 : exGraph.iterLoop 0 2 = .ok (some ⟨1, 2, false, 5, 6⟩, (1, 2)) := by
    have e : exGraph.iterLoop 1 1 = .ok (some ⟨1, 2, false, 5, 6⟩, (1, 2)) := by rw [Graph.iterLoop]; decide
    rw [Graph.iterLoop, e]; decide
  have h4 : exGraph.iterLoop 1 2 = .ok (none, (3, 3)) := by
    have e : exGraph.iterLoop 2 2 = .ok (none, (3, 3)) := by rw [Graph.iterLoop]; rfl
    rw [Graph.iterLoop, e]; rfl
  have n : ∀ i j, i < 3 → exGraph.iterNext (i, j) = exGraph.iterLoop i j := by
    intro i j h
    unfold Graph.iterNext
    rw [if_neg (by show ¬ i = 3; omega)]
  unfold Graph.iterAll Graph.iterInit
  show Graph.runIter exGraph.iterNext 10 (0, 0) = _
  simp only [Graph.runIter, n _ _ (show 0 < 3 by omega), n _ _ (show 1 < 3 by omega), h1, h2, h3, h4, ok_bind]
  rfl

example : Valid exGraph ∧ exGraph.timespan 0 2 = .ok ⟨15, 26⟩ ∧ (⟨15, 26⟩ : Iv) ≠ ⟨-INF, INF⟩ :=
  ⟨exGraph_valid, by decide, by decide⟩

/-! ## C72 -/

/-- C72, partial: `constraints_from(i)` terminates and yields each constrained pair `(i,j)`, `j ≠ i`, exactly once,
with the bounds announced by `timespan`; anything else it yields is the pair `(i,0)`. Missing: that the
pair `(i,0)` is yielded only if it is constrained, which fails (below). -/
theorem C72_from_partial {g : Graph} (hv : Valid g) {i : Nat} (hi : i < g.size) :
    ∃ ks, g.constraintsFrom i = .ok ks ∧ ks.Pairwise (fun k l => k.dst < l.dst) ∧
      (∀ k ∈ ks, k.src = i ∧ k.dst < g.size ∧ k.isEmpty = false ∧ g.timespan i k.dst = .ok k.span ∧
        (k.dst ≠ 0 → k.dst ≠ i ∧ k.span ≠ ⟨-INF, INF⟩)) ∧
      (∀ j, j < g.size → j ≠ i → ∀ s, g.timespan i j = .ok s → s ≠ ⟨-INF, INF⟩ → ∃ k ∈ ks, k.dst = j) := by
  obtain ⟨ks, h1, h2, h3, h4⟩ := runFrom_spec hv hi (g.size + 1) 0 (by omega) (by omega)
  refine ⟨_, h1, List.Pairwise.cons (fun k hk => (h3 k hk).2.1) h2, ?_, ?_⟩
  · intro k hk
    rcases List.mem_cons.1 hk with rfl | hk
    · exact ⟨rfl, (by show 0 < _; omega), rfl, timespan_eq hv hi (by show 0 < _; omega), fun h => absurd rfl h⟩
    · obtain ⟨e, a, b, c, d⟩ := h3 k hk
      have ht : g.timespan i k.dst = .ok k.span := by
        rw [timespan_eq hv hi b, e]; rfl
      exact ⟨by rw [e]; rfl, b, by rw [e]; rfl, ht, fun _ => ⟨c, (rel_iff hv hi b ht).1 d⟩⟩
  · intro j hj hne s hs hn
    rcases Nat.eq_zero_or_pos j with h0 | h0
    · exact ⟨viewOf g i 0, by simp, by rw [h0]; rfl⟩
    · exact ⟨viewOf g i j, List.mem_cons_of_mem _ (h4 j h0 hj hne ((rel_iff hv hi hj hs).2 hn)), rfl⟩

/-- C72: nothing is yielded for an instant which is not in the graph. -/
theorem C72_out_of_range (g : Graph) {i : Nat} (hi : g.size ≤ i) :
    g.constraintsFrom i = .ok [] ∧ g.constraintsTo i = .ok [] := by
  have : g.constraintsFrom i = .ok [] := by
    unfold Graph.constraintsFrom Graph.runIter Graph.fromNext
    rw [if_pos hi]; rfl
  refine ⟨this, ?_⟩
  unfold Graph.constraintsTo
  rw [this]; rfl

/-- C72: `constraints_to(i)` yields the pairs of `constraints_from(i)`, reversed. -/
theorem C72_to {g : Graph} (hv : Valid g) {i : Nat} (hi : i < g.size) {ks : List Constr}
    (h : g.constraintsFrom i = .ok ks) :
    g.constraintsTo i = .ok (ks.map (fun k => ⟨k.dst, k.src, false, -k.upper, -k.lower⟩)) := by
  obtain ⟨ks', h1, -, h3, -⟩ := runFrom_spec hv hi (g.size + 1) 0 (by omega) (by omega)
  have h1' : g.constraintsFrom i = .ok (viewOf g i 0 :: ks') := h1
  have hall : ∀ k ∈ ks, k = viewOf g i k.dst ∧ k.dst < g.size := by
    rw [h] at h1'
    cases h1'
    intro k hk
    rcases List.mem_cons.1 hk with rfl | hk
    · exact ⟨rfl, by show 0 < _; omega⟩
    · exact ⟨(h3 k hk).1, (h3 k hk).2.2.1⟩
  unfold Graph.constraintsTo
  rw [h, ok_bind]
  clear h h1 h1' h3
  induction ks with
  | nil => rfl
  | cons k l ih =>
    obtain ⟨e, b⟩ := hall k (by simp)
    have es : k.src = i := by rw [e]; rfl
    rw [List.mapM_cons, es, view_eq hv b hi, ok_bind, ih (fun k' hk' => hall k' (by simp [hk'])), ok_bind]
    have : viewOf g k.dst i = ⟨k.dst, k.src, false, -k.upper, -k.lower⟩ := by
      have e1 : k.lower = mat g i k.dst := congrArg Constr.lower e
      have e2 : k.upper = -mat g k.dst i := congrArg Constr.upper e
      unfold viewOf
      rw [e1, e2, es]
      simp only [Int.neg_neg]
    rw [this]; rfl

/-- C72 is violated: the first item is always the pair `(i,0)`, even if these instants are not constrained, or if `i` is 0
itself. -/
theorem C72_first_violated :
    (∀ g : Graph, Valid g → ∀ i, i < g.size → ∃ k ks, g.constraintsFrom i = .ok (k :: ks) ∧ k.src = i ∧ k.dst = 0) ∧
    (∃ g ks k, Graph.withSize 2 = .ok g ∧ g.constraintsFrom 1 = .ok ks ∧ k ∈ ks ∧ k.span = ⟨-INF, INF⟩) := by
  constructor
  · intro g hv i hi
    obtain ⟨ks, h1, -⟩ := runFrom_spec hv hi (g.size + 1) 0 (by omega) (by omega)
    exact ⟨_, ks, h1, rfl, rfl⟩
  · obtain ⟨ks, h1, -⟩ := runFrom_spec (g := ⟨2, [0, -INF, 0, -INF]⟩) (by decide) (i := 1) (by decide) 3 0 (by decide)
      (by decide)
    exact ⟨⟨2, [0, -INF, 0, -INF]⟩, _, viewOf ⟨2, [0, -INF, 0, -INF]⟩ 1 0, by decide, h1, List.mem_cons_self, by decide⟩

example : Valid exGraph ∧ 1 < exGraph.size ∧ exGraph.timespan 1 2 = .ok ⟨5, 6⟩ := ⟨exGraph_valid, by decide, by decide⟩

/-! ## C73 -/

theorem iter_batchable {g : Graph} (hv : Valid g) {W : Int} (hg : Within W g) {ks : List Constr}
    (h : g.iterAll = .ok ks) : ∀ k ∈ ks, Batchable g.size W k := by
  obtain ⟨ks', h1, -, h3, -⟩ := iterAll_spec hv
  rw [h] at h1
  cases h1
  intro k hk
  obtain ⟨e, a, b, -⟩ := h3 k hk
  have := hg k.src k.dst (by omega) b _ (timespan_eq hv (by omega) b)
  refine ⟨by omega, b, ?_, fun he => ?_⟩
  · rw [e]; exact this
  · rw [e] at he; cases he

theorem iter_holds {g : Graph} (hv : Valid g) (hz : ∀ i, i < g.size → mat g i i = 0) {ks : List Constr}
    (h : g.iterAll = .ok ks) (τ : Nat → Int) : (∀ k ∈ ks, Holds τ k) ↔ MSat g.size (mat g) τ := by
  obtain ⟨ks', h1, -, h3, h4⟩ := iterAll_spec hv
  rw [h] at h1
  cases h1
  constructor
  · intro t
    have key : ∀ i j, i < j → j < g.size → (mat g i j = -INF ∨ mat g i j ≤ τ j - τ i) ∧
        (mat g j i = -INF ∨ mat g j i ≤ τ i - τ j) := by
      intro i j hij hj
      by_cases c : Rel g i j
      · have := t _ (h4 i j hij hj c)
        rw [holds_iff rfl] at this
        simp only [viewOf] at this
        omega
      · unfold Rel at c
        omega
    intro i hi j hj
    rcases Nat.lt_trichotomy i j with c | c | c
    · exact (key i j c hj).1
    · subst c; right; rw [hz i hi]; omega
    · exact (key j i c hi).2
  · intro t k hk
    obtain ⟨e, a, b, -⟩ := h3 k hk
    have x := t k.src (by omega) k.dst b
    have y := t k.dst b k.src (by omega)
    rw [e, holds_iff rfl]
    simp only [viewOf]
    omega

theorem iter_hint {g : Graph} (hv : Valid g) {h : Nat} (hh : g.graphSizeHint Graph.iterInit = .ok h) (hn : 2 ≤ g.size) :
    some h ≠ some 0 ∧ some h ≠ some 1 := by
  obtain ⟨h', e, -, b⟩ := graphSizeHint_eq hv (i := 0) (j := 0) (by omega) (by omega)
  rw [show Graph.iterInit = (0, 0) from rfl, e] at hh
  cases hh
  constructor
  · intro h; cases h; omega
  · intro h; cases h; omega

/-- C73: extending an unconstrained graph of the same size with `g.iter()` gives the same graph, and so does collecting
`g.iter()` into a new graph, except for the last instants if they are not constrained: they are then missing. -/
theorem C73_rebuild {g : Graph} (hv : Valid g) (hm : Minimal g) {W : Int} (hW : 0 ≤ W) (hg : Within W g)
    (hB : 3 * (g.size : Int) * W < INF) :
    ∃ ks h g0 g1 g2 o, g.iterAll = .ok ks ∧ g.graphSizeHint Graph.iterInit = .ok h ∧
      Graph.withSize g.size = .ok g0 ∧ g0.extend (some h) ks = .ok (g1, o) ∧ SameGraph g1 g ∧
      Graph.fromConstraints (some h) ks = .ok g2 ∧ g2.size ≤ g.size ∧
      ∀ i j, i ≠ j → g2.timespan i j = g.timespan i j := by
  have hC := (minimal_iff hv).1 hm
  have hz := hC.diag
  obtain ⟨ks, i1, -, i3, i4⟩ := iterAll_spec hv
  obtain ⟨g0, e0, n0, v0, c0, m0⟩ := withSize_eq hv.1
  have hk := iter_batchable hv hg i1
  have hh := iter_holds hv hz i1
  rcases Nat.lt_or_ge g.size 2 with hs | hs
  · -- no constraint
    have hnil : ks = [] := by
      cases ks with
      | nil => rfl
      | cons k l =>
        have := i3 k (by simp)
        omega
    subst hnil
    have hint : g.graphSizeHint Graph.iterInit = .ok 1 := by
      have : g.size = 0 ∨ g.size = 1 := by omega
      unfold Graph.graphSizeHint
      rcases this with e | e <;> rw [e] <;> decide
    refine ⟨[], 1, g0, g0, Graph.default, .unchanged, i1, hint, e0, rfl, ?_, rfl, Nat.zero_le _, ?_⟩
    · refine same_of_sat v0 hv n0 (by rw [n0]; exact unconstrained_closed m0) hC (fun τ => ?_)
      rw [n0]
      exact ⟨fun _ => (hh τ).1 (fun k hk => (nomatch hk)), fun _ => unconstrained_sat m0 τ⟩
    · intro i j hij
      rw [timespan_out (by show 0 ≤ i ∨ _; omega), timespan_out (by omega)]
  · obtain ⟨h, e1, -, -⟩ := graphSizeHint_eq hv (i := 0) (j := 0) (by omega) (by omega)
    obtain ⟨p1, p2⟩ := iter_hint hv e1 hs
    obtain ⟨τ0, t0⟩ := hC.sat
    refine ⟨ks, h, g0, ?_⟩
    rcases extend_spec v0 c0 (fun i hi => by rw [m0 i i (by omega) (by omega), if_pos rfl]) hW
        (unconstrained_small (by rw [n0]; exact m0) hW) (n := g.size) (by omega) (by omega) hv.1 hB hk p1 p2 with
      ⟨g1, x1, x2, x3, x4, x5, -, x6⟩ | ⟨g1, x1, x2, x3⟩
    · rcases extend_spec default_valid default_clean (fun i hi => by cases hi) hW
          (fun i hi => by cases hi) (n := g.size) (by omega) (Nat.zero_le _) hv.1 hB hk p1 p2 with
        ⟨g2, y1, y2, y3, y4, y5, -, y6⟩ | ⟨g2, y1, y2, y3⟩
      · have nd := needed_le (n := g.size) (ks := ks) (fun k hk' => ⟨(hk k hk').1, (hk k hk').2.1⟩)
        have sz2 : g2.size ≤ g.size := by
          have : Graph.default.size = 0 := rfl
          omega
        refine ⟨g1, g2, .propagated, i1, e1, e0, x1, ?_, ?_, sz2, ?_⟩
        · refine same_of_sat x3 hv (by omega) x5 hC (fun τ => ?_)
          rw [x6, hh, n0]
          exact ⟨fun t => t.2, fun t => ⟨unconstrained_sat m0 τ, t⟩⟩
        · unfold Graph.fromConstraints
          rw [y1, ok_bind]; rfl
        · intro i j hij
          -- grow the collected graph to the size of the first one
          obtain ⟨g3, z1, z2, z3, z4, z5⟩ := grow y4 (n := g.size) hv.1
          have same : SameGraph g3 g := by
            refine same_of_sat z3 hv z2 (by rw [z2]; exact grow_closed z5 y5) hC (fun τ => ?_)
            rw [z2, grow_sat sz2 z5, y6, hh]
            exact ⟨fun t => t.2, fun t => ⟨fun i hi => (nomatch hi), t⟩⟩
          rw [← same.2 i j]
          by_cases c : i < g2.size ∧ j < g2.size
          · rw [timespan_eq y3 c.1 c.2, timespan_eq z3 (by omega) (by omega), z5 i j (by omega) (by omega),
              z5 j i (by omega) (by omega), if_pos c, if_pos ⟨c.2, c.1⟩]
          · rw [timespan_out (g := g2) (by omega)]
            by_cases d : i < g.size ∧ j < g.size
            · rw [timespan_eq z3 (by omega) (by omega), z5 i j d.1 d.2, z5 j i d.2 d.1, if_neg c,
                if_neg hij, if_neg (fun h : j < g2.size ∧ i < g2.size => c ⟨h.2, h.1⟩), if_neg (Ne.symm hij)]
              decide
            · rw [timespan_out (by omega)]
      · exact absurd ⟨fun i hi => (by cases hi), (hh τ0).2 t0⟩ (y3 τ0)
    · exact absurd ⟨unconstrained_sat (by rw [n0]; exact m0) τ0, (hh τ0).2 t0⟩ (x3 τ0)

example : Valid exGraph ∧ Minimal exGraph ∧ Within 26 exGraph ∧ 3 * (exGraph.size : Int) * 26 < INF :=
  ⟨exGraph_valid, exGraph_minimal, exGraph_within, by decide⟩

/-! ## C84: size_hint -/

theorem iter_inv {g : Graph} (hv : Valid g) : ∀ (s : Nat × Nat) (k : Constr) (s' : Nat × Nat),
    (s.1 < g.size ∧ s.2 < g.size ∧ s.1 ≤ s.2) → g.iterNext s = .ok (some k, s') →
    (s'.1 < g.size ∧ s'.2 < g.size ∧ s'.1 ≤ s'.2) := by
  rintro ⟨i, j⟩ k s' ⟨i1, i2, i3⟩ h
  unfold Graph.iterNext at h
  rw [if_neg (by show ¬ i = _; simp only at i1; omega)] at h
  rcases iterLoop_spec hv i j i1 i2 i3 with ⟨e, -⟩ | ⟨a, b, e, -, a1, a2, -⟩
  · rw [e] at h; cases h
  · rw [e] at h; cases h
    exact ⟨by show a < _; omega, a2, by show a ≤ b; omega⟩

theorem from_inv {g : Graph} (hv : Valid g) {i : Nat} (hi : i < g.size) : ∀ (s : Nat × Nat) (k : Constr) (s' : Nat × Nat),
    ((s.1 = i ∧ s.2 < g.size) ∨ s = (g.size, g.size)) → g.fromNext s = .ok (some k, s') →
    ((s'.1 = i ∧ s'.2 < g.size) ∨ s' = (g.size, g.size)) := by
  rintro ⟨a, j⟩ k s' hinv h
  unfold Graph.fromNext at h
  rcases hinv with ⟨h1, h2⟩ | h1
  · simp only at h1 h2
    subst h1
    rw [if_neg (by show ¬ g.size ≤ a; omega), view_eq hv hi h2, ok_bind] at h
    rcases fromLoop_spec hv a j hi h2 with ⟨e, -⟩ | ⟨b, e, -, e2, -⟩
    · rw [e] at h; cases h; exact Or.inr rfl
    · rw [e] at h; cases h; exact Or.inl ⟨rfl, e2⟩
  · cases h1
    rw [if_pos (Nat.le_refl _)] at h
    cases h

theorem sorted_len {n : Nat} : ∀ (ks : List Constr) (a : Nat), ks.Pairwise (fun k l => k.dst < l.dst) →
    (∀ k ∈ ks, a < k.dst ∧ k.dst < n) → ks.length ≤ n - 1 - a
  | [], _, _, _ => Nat.zero_le _
  | k :: l, a, hp, hk => by
    have := sorted_len l k.dst (List.pairwise_cons.1 hp).2 (fun k' h => ⟨(List.pairwise_cons.1 hp).1 k' h,
      (hk k' (by simp [h])).2⟩)
    have := hk k (by simp)
    simp only [List.length_cons]
    omega

theorem runIter_fuel {next : Nat × Nat → Res (Option Constr × (Nat × Nat))} : ∀ (f f' : Nat) (s : Nat × Nat)
    (a b : List Constr), Graph.runIter next f s = .ok a → Graph.runIter next f' s = .ok b → a = b
  | 0, _, _, _, _, h, _ => by cases h
  | _ + 1, 0, _, _, _, _, h => by cases h
  | f + 1, f' + 1, s, a, b, h, h' => by
    unfold Graph.runIter at h h'
    cases hn : next s with
    | error e => rw [hn] at h; cases h
    | ok p =>
      obtain ⟨o, s'⟩ := p
      rw [hn, ok_bind] at h h'
      cases o with
      | none =>
        simp only at h h'
        cases h; cases h'; rfl
      | some k =>
        simp only at h h'
        cases hr : Graph.runIter next f s' with
        | error e => rw [hr] at h; cases h
        | ok l =>
          cases hr' : Graph.runIter next f' s' with
          | error e => rw [hr'] at h'; cases h'
          | ok l' =>
            rw [hr] at h; rw [hr'] at h'
            cases h; cases h'
            rw [runIter_fuel f f' s' l l' hr hr']

theorem runFrom_len {g : Graph} (hv : Valid g) {i : Nat} (hi : i < g.size) (f j : Nat) (ks : List Constr)
    (hj : j < g.size) (h : Graph.runIter g.fromNext f (i, j) = .ok ks) : ks.length ≤ g.size - j := by
  obtain ⟨ks', h1, h2, h3, -⟩ := runFrom_spec hv hi (f + g.size + 1) j hj (by omega)
  have e := runIter_fuel f (f + g.size + 1) (i, j) ks _ h h1
  subst e
  have := sorted_len ks' j h2 (fun k hk => ⟨(h3 k hk).2.1, (h3 k hk).2.2.1⟩)
  simp only [List.length_cons]
  omega

theorem advance_add {S α : Type} {next : S → Res (Option α × S)} : ∀ (m : Nat) (s : S) (n : Nat),
    advance next (m + n) s = (advance next m s >>= advance next n)
  | 0, s, n => by rw [Nat.zero_add]; rfl
  | m + 1, s, n => by
    rw [show m + 1 + n = (m + n) + 1 by omega]
    unfold advance
    cases h : next s with
    | error e => rfl
    | ok p => rw [ok_bind, ok_bind]; exact advance_add m p.2 n

/-- C84, partial: as long as `iter()` has not returned `None`, `size_hint` does not overflow and is an upper bound of the
number of constraints to come. Missing: after exhaustion, which fails (below). -/
theorem C84_iter_partial {g : Graph} (hv : Valid g) {ks : List Constr} (hk : g.iterAll = .ok ks)
    {m : Nat} (hm : m ≤ ks.length) :
    ∃ s h, advance g.iterNext m Graph.iterInit = .ok s ∧ g.graphSizeHint s = .ok h ∧ ks.length - m ≤ h := by
  rcases Nat.eq_zero_or_pos g.size with hs | hs
  · obtain ⟨ks', h1, -, h3, -⟩ := iterAll_spec hv
    rw [hk] at h1
    cases h1
    have hnil : ks = [] := by
      cases ks with
      | nil => rfl
      | cons k l =>
        have := h3 k (by simp)
        omega
    subst hnil
    have : m = 0 := by simpa using hm
    subst this
    refine ⟨_, 1, rfl, ?_, Nat.zero_le _⟩
    unfold Graph.graphSizeHint
    rw [hs]; decide
  obtain ⟨⟨i, j⟩, f, h1, h2, h3⟩ := advance_spec (next := g.iterNext)
    (Inv := fun s => s.1 < g.size ∧ s.2 < g.size ∧ s.1 ≤ s.2) (iter_inv hv) m _ Graph.iterInit ks hk hm
    ⟨hs, hs, Nat.le_refl _⟩
  obtain ⟨h, e, b, -⟩ := graphSizeHint_eq hv h3.1 h3.2.1
  refine ⟨(i, j), h, h1, e, ?_⟩
  have := runIter_len hv f i j _ h3.1 h3.2.1 h3.2.2 h2
  rw [List.length_drop] at this
  simp only at b
  omega

theorem chkU32_cases (x : Int) : chkU32 x = .error .overflow ∨ ∃ n : Nat, chkU32 x = .ok n ∧ (n : Int) = x := by
  unfold chkU32
  split
  · next h => exact Or.inr ⟨_, rfl, by omega⟩
  · exact Or.inl rfl

theorem hint_end {g : Graph} (hs : 2 ≤ g.size) {i : Nat} (hi : g.size ≤ i) {j : Nat}
    (h : i = g.size → 2 ≤ j) : g.graphSizeHint (i, j) = .error .overflow := by
  unfold Graph.graphSizeHint
  rcases chkU32_cases ((g.size : Int) * g.size) with e | ⟨n1, e, h1⟩
  · rw [e]; rfl
  rw [e, ok_bind]
  rcases chkU32_cases ((n1 : Int) - g.size) with e | ⟨n2, e, h2⟩
  · rw [e]; rfl
  rw [e, ok_bind]
  rcases chkU32_cases ((i : Int) * i) with e | ⟨n3, e, h3⟩
  · rw [e]; rfl
  rw [e, ok_bind]
  rcases chkU32_cases ((n3 : Int) - i) with e | ⟨n4, e, h4⟩
  · rw [e]; rfl
  rw [e, ok_bind]
  rcases chkU32_cases ((n2 / 2 : Nat) - ((n4 / 2 : Nat) : Int)) with e | ⟨n5, e, h5⟩
  · rw [e]; rfl
  rw [e, ok_bind]
  rcases chkU32_cases ((n5 : Int) + 1) with e | ⟨n6, e, h6⟩
  · rw [e]; rfl
  rw [e, ok_bind]
  rcases chkU32_cases ((n6 : Int) - j) with e | ⟨n7, e, h7⟩
  · exact e
  exfalso
  rw [← Int.natCast_mul] at h1 h3
  rcases Nat.eq_or_lt_of_le hi with c | c
  · subst c
    have := h rfl
    have : n1 = n3 := by omega
    have : n2 = n4 := by omega
    subst this
    omega
  · have p1 : (g.size + 1) * i ≤ i * i := Nat.mul_le_mul_right _ c
    have p2 : (g.size + 1) * (g.size + 1) ≤ (g.size + 1) * i := Nat.mul_le_mul_left _ c
    rw [Nat.add_mul] at p1
    rw [Nat.mul_add, Nat.add_mul] at p2
    have p3 : g.size * i ≥ g.size * (g.size + 1) := Nat.mul_le_mul_left _ c
    rw [Nat.mul_add] at p3
    omega

/-- C84 is violated: once `iter()` has returned `None`, `size_hint` overflows, for any graph of at least two instants. -/
theorem C84_exhausted_violated {g : Graph} (hv : Valid g) (hs : 2 ≤ g.size) {ks : List Constr}
    (hk : g.iterAll = .ok ks) :
    ∃ s, advance g.iterNext (ks.length + 1) Graph.iterInit = .ok s ∧ g.iterNext s = .ok (none, s) ∧
      g.graphSizeHint s = .error .overflow := by
  obtain ⟨⟨i, j⟩, f, h1, h2, h3⟩ := advance_spec (next := g.iterNext)
    (Inv := fun s => s.1 < g.size ∧ s.2 < g.size ∧ s.1 ≤ s.2) (iter_inv hv) ks.length _ Graph.iterInit ks hk
    (Nat.le_refl _) ⟨show 0 < _ by omega, show 0 < _ by omega, Nat.le_refl _⟩
  rw [List.drop_length] at h2
  have e : g.iterNext (i, j) = g.iterLoop i j := by
    unfold Graph.iterNext
    rw [if_neg (by have := h3.1; show ¬ i = _; simp only at this; omega)]
  refine ⟨(g.size, g.size), ?_, ?_, hint_end hs (Nat.le_refl _) (fun _ => hs)⟩
  · rw [advance_add, h1, ok_bind]
    rcases iterLoop_spec hv i j h3.1 h3.2.1 h3.2.2 with ⟨e1, -⟩ | ⟨a, b, e1, -⟩
    · unfold advance
      rw [e, e1, ok_bind]; rfl
    · cases f with
      | zero => cases h2
      | succ f =>
        unfold Graph.runIter at h2
        rw [e, e1, ok_bind] at h2
        simp only at h2
        cases hr : Graph.runIter g.iterNext f (a, b) with
        | error e => rw [hr] at h2; cases h2
        | ok l => rw [hr] at h2; cases h2
  · unfold Graph.iterNext
    rw [if_pos rfl]

/-- C84, partial: as long as `constraints_from(i)` has a constraint to yield, `size_hint` does not overflow and is an upper
bound of the number of constraints to come. Missing: when nothing is left, which fails (below). -/
theorem C84_from_partial {g : Graph} (hv : Valid g) {i : Nat} (hi : i < g.size) {ks : List Constr}
    (hk : g.constraintsFrom i = .ok ks) {m : Nat} (hm : m < ks.length) :
    ∃ s h, advance g.fromNext m (i, 0) = .ok s ∧ g.graphSizeHint s = .ok h ∧ ks.length - m ≤ h := by
  obtain ⟨⟨a, j⟩, f, h1, h2, h3⟩ := advance_spec (next := g.fromNext)
    (Inv := fun s => (s.1 = i ∧ s.2 < g.size) ∨ s = (g.size, g.size)) (from_inv hv hi) m _ (i, 0) ks hk
    (by omega) (Or.inl ⟨rfl, by show 0 < _; omega⟩)
  rcases h3 with ⟨rfl, h3⟩ | h3
  · obtain ⟨h, e, -, b⟩ := graphSizeHint_eq hv hi h3
    refine ⟨_, h, h1, e, ?_⟩
    have := runFrom_len hv hi f j _ h3 h2
    rw [List.length_drop] at this
    simp only at b
    omega
  · cases h3
    cases f with
    | zero => cases h2
    | succ f =>
      unfold Graph.runIter Graph.fromNext at h2
      rw [if_pos (Nat.le_refl _)] at h2
      have := Except.ok.inj h2
      have := congrArg List.length this
      rw [List.length_drop] at this
      simp at this
      omega

/-- C84 is violated: once `constraints_from(i)` has yielded its last constraint, `size_hint` overflows, for any graph of
at least two instants; so does it, from the beginning, for an instant `i` beyond the size. -/
theorem C84_from_exhausted_violated {g : Graph} (hv : Valid g) (hs : 2 ≤ g.size) :
    (∀ i ks, i < g.size → g.constraintsFrom i = .ok ks →
      ∃ s, advance g.fromNext ks.length (i, 0) = .ok s ∧ g.graphSizeHint s = .error .overflow) ∧
    (∀ i, g.size < i → g.graphSizeHint (i, 0) = .error .overflow) := by
  refine ⟨fun i ks hi hk => ?_, fun i hi => hint_end hs (by omega) (by omega)⟩
  obtain ⟨⟨a, j⟩, f, h1, h2, h3⟩ := advance_spec (next := g.fromNext)
    (Inv := fun s => (s.1 = i ∧ s.2 < g.size) ∨ s = (g.size, g.size)) (from_inv hv hi) ks.length _ (i, 0) ks hk
    (Nat.le_refl _) (Or.inl ⟨rfl, by show 0 < _; omega⟩)
  rw [List.drop_length] at h2
  refine ⟨_, h1, ?_⟩
  rcases h3 with ⟨rfl, h3⟩ | h3
  · cases f with
    | zero => cases h2
    | succ f =>
      unfold Graph.runIter at h2
      have e : g.fromNext (a, j) = (g.fromLoop a j >>= fun s' => .ok (some (viewOf g a j), s')) := by
        unfold Graph.fromNext
        rw [if_neg (by show ¬ g.size ≤ a; simp only at hi; omega), view_eq hv hi h3, ok_bind]; rfl
      rw [e] at h2
      cases hl : g.fromLoop a j with
      | error e => rw [hl] at h2; cases h2
      | ok s =>
        rw [hl] at h2
        simp only [ok_bind] at h2
        cases hr : Graph.runIter g.fromNext f s with
        | error e => rw [hr] at h2; cases h2
        | ok l => rw [hr] at h2; cases h2
  · cases h3
    exact hint_end hs (Nat.le_refl _) (fun _ => hs)

example : Valid exGraph ∧ 2 ≤ exGraph.size ∧ 1 < exGraph.size ∧
    exGraph.iterAll = .ok [⟨0, 1, false, 10, 20⟩, ⟨0, 2, false, 15, 26⟩, ⟨1, 2, false, 5, 6⟩] :=
  ⟨exGraph_valid, by decide, by decide, exGraph_iter⟩

end Chrono
