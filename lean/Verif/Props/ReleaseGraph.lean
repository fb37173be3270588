import Verif.Props.Release
import Verif.Props.GraphCollect
import Verif.Spec.Release

set_option linter.unusedSimpArgs false

/-!
# The operations of a graph in a release build (C118)
-/

namespace Chrono
open Spec

theorem agree_refl {α : Type} (a : Res α) : Agree a a := Or.inr rfl

theorem agree_bind {α β : Type} {a b : Res α} {f g : α → Res β} (h : Agree a b) (hf : ∀ x, Agree (f x) (g x)) :
    Agree (a >>= f) (b >>= g) := by
  rcases h with rfl | rfl
  · exact Or.inl rfl
  · cases b with
    | error e => exact Or.inr rfl
    | ok x => exact hf x

theorem agree_chk {x : Int} {β : Type} {f : Nat → Res β} {b : Res β} (h : Agree (f (wrapU32 x)) b) : Agree (chkU32 x >>= f) b := by
  cases e : chkU32 x with
  | error p =>
    left
    unfold chkU32 at e
    split at e
    · cases e
    · cases e; rfl
  | ok m => rw [ok_bind, ← chkU32_wrap e]; exact h

theorem agree_fold {α β : Type} {f g : β → α → Res β} (h : ∀ b a, Agree (f b a) (g b a)) :
    ∀ (l : List α) (b : β), Agree (l.foldlM f b) (l.foldlM g b)
  | [], b => agree_refl _
  | a :: l, b => by
    rw [List.foldlM_cons, List.foldlM_cons]
    exact agree_bind (h b a) fun b' => agree_fold h l b'

theorem agree_ite {α : Type} {c : Prop} [Decidable c] {a b a' b' : Res α} (h1 : Agree a a') (h2 : Agree b b') :
    Agree (if c then a else b) (if c then a' else b') := by
  split
  · exact h1
  · exact h2

theorem agree_cell {i j : Nat} {β : Type} (f : Nat → Res β) : Agree (Graph.cell i j >>= f) (f (Graph.cellR i j)) := by
  unfold Graph.cell Graph.cellR
  split
  · rw [bind_assoc]
    exact agree_chk (agree_chk (agree_refl _))
  · simp only [bind_assoc]
    exact agree_chk (agree_chk (agree_chk (agree_refl _)))

theorem lower_agree (g : Graph) (i j : Nat) : Agree (g.lower i j) (g.lowerR i j) := agree_cell _

theorem setLower_agree (g : Graph) (i j : Nat) (v : Int) : Agree (g.setLower i j v) (g.setLowerR i j v) :=
  agree_cell (β := Graph) (fun c => vset g.data c v >>= fun d => pure { g with data := d })

/-- prove that two programs of the same shape agree, from the agreement of their parts -/
syntax "agree" "[" term,* "]" : tactic
macro_rules
  | `(tactic| agree [$ts,*]) => `(tactic|
    repeat' first
      $[| with_reducible exact $ts]*
      | with_reducible exact agree_refl _
      | with_reducible refine agree_chk ?_
      | with_reducible refine agree_bind ?_ (fun _ => ?_)
      | with_reducible refine agree_ite ?_ ?_
      | with_reducible refine agree_fold (fun _ _ => ?_) _ _)

theorem resize_agree (g : Graph) (n : Nat) : Agree (g.resize n) (g.resizeR n) := by
  unfold Graph.resize Graph.resizeR
  agree [setLower_agree _ _ _ _]

theorem reset_agree (g : Graph) : Agree g.reset g.resetR := by
  unfold Graph.reset Graph.resetR
  agree [setLower_agree _ _ _ _]

theorem relax_agree (g : Graph) (i j : Nat) (v : Int) : Agree (g.relax i j v) (g.relaxR i j v) := by
  unfold Graph.relax Graph.relaxR
  agree [lower_agree _ _ _, setLower_agree _ _ _ _]

theorem plb_agree (g : Graph) (i j : Nat) : Agree (g.propagateLowerBound i j) (g.propagateLowerBoundR i j) := by
  unfold Graph.propagateLowerBound Graph.propagateLowerBoundR
  agree [lower_agree _ _ _, relax_agree _ _ _ _]

theorem propagate_agree (g : Graph) (k : Constr) : Agree (g.propagate k) (g.propagateR k) := by
  unfold Graph.propagate Graph.propagateR
  agree [lower_agree _ _ _, setLower_agree _ _ _ _, plb_agree _ _ _, resize_agree _ _]

theorem gpRow_agree (g : Graph) (k i : Nat) : Agree (g.gpRow k i) (g.gpRowR k i) := by
  unfold Graph.gpRow Graph.gpRowR
  agree [lower_agree _ _ _, relax_agree _ _ _ _]

theorem gp_agree (g : Graph) : Agree g.globalPropagation g.globalPropagationR := by
  unfold Graph.globalPropagation Graph.globalPropagationR
  agree [lower_agree _ _ _, gpRow_agree _ _ _]

theorem merge_agree (g h : Graph) : Agree (g.merge h) (g.mergeR h) := by
  unfold Graph.merge Graph.mergeR
  agree [gp_agree _]

theorem insert_agree (g : Graph) (k : Constr) : Agree (g.insert k) (g.insertR k) := by
  unfold Graph.insert Graph.insertR
  agree [lower_agree _ _ _, setLower_agree _ _ _ _, resize_agree _ _]

theorem extend_agree (g : Graph) (hint : Option Nat) (ks : List Constr) : Agree (g.extend hint ks) (g.extendR hint ks) := by
  unfold Graph.extend Graph.extendR
  refine agree_ite (agree_refl _) (agree_ite ?_ ?_)
  · cases ks with
    | nil => exact agree_refl _
    | cons k ks => exact propagate_agree g k
  · agree [insert_agree _ _, gp_agree _]

theorem view_agree (g : Graph) (i j : Nat) : Agree (g.view i j) (g.viewR i j) := by
  unfold Graph.view Graph.viewR
  agree [lower_agree _ _ _]

theorem constraint_agree (g : Graph) (i j : Nat) : Agree (g.constraint i j) (g.constraintR i j) := by
  unfold Graph.constraint Graph.constraintR
  agree [view_agree _ _ _]

theorem related_agree (g : Graph) (i j : Nat) : Agree (g.related i j) (g.relatedR i j) := by
  unfold Graph.related Graph.relatedR
  agree [lower_agree _ _ _]

theorem instantCmp_agree (g : Graph) (i j : Nat) : Agree (g.instantCmp i j) (g.instantCmpR i j) := by
  unfold Graph.instantCmp Graph.instantCmpR
  agree [lower_agree _ _ _]

theorem areDistinct_agree (g : Graph) (i j : Nat) : Agree (g.areDistinct i j) (g.areDistinctR i j) := by
  unfold Graph.areDistinct Graph.areDistinctR
  refine agree_bind (constraint_agree _ _ _) fun x => ?_
  cases x <;> exact agree_refl _

theorem timespan_agree (g : Graph) (i j : Nat) : Agree (g.timespan i j) (g.timespanR i j) := by
  unfold Graph.timespan Graph.timespanR
  agree []

theorem iterLoop_agree (g : Graph) (i j : Nat) : Agree (g.iterLoop i j) (g.iterLoopR i j) := by
  fun_induction Graph.iterLoop g i j with
  | case1 i j h => rw [Graph.iterLoopR, dif_pos h]; exact agree_refl _
  | case2 i j h h1 h2 => rw [Graph.iterLoopR, dif_neg h, if_pos h1, if_pos h2]; exact agree_refl _
  | case3 i j h h1 h2 ih => rw [Graph.iterLoopR, dif_neg h, if_pos h1, if_neg h2]; exact ih
  | case4 i j h h1 e he =>
    rw [Graph.iterLoopR, dif_neg h, if_neg h1]
    rcases related_agree g i (j + 1) with c | c
    · rw [he] at c; cases c; exact Or.inl rfl
    · rw [c, he]; exact agree_refl _
  | case5 i j h h1 he e hv =>
    rw [Graph.iterLoopR, dif_neg h, if_neg h1]
    rcases related_agree g i (j + 1) with c | c
    · rw [he] at c; cases c
    · rw [c, he]
      rcases view_agree g i (j + 1) with d | d
      · rw [hv] at d; cases d; exact Or.inl rfl
      · simp only [d, hv]; exact agree_refl _
  | case6 i j h h1 he k hv =>
    rw [Graph.iterLoopR, dif_neg h, if_neg h1]
    rcases related_agree g i (j + 1) with c | c
    · rw [he] at c; cases c
    · rw [c, he]
      rcases view_agree g i (j + 1) with d | d
      · rw [hv] at d; cases d
      · simp only [d, hv]; exact agree_refl _
  | case7 i j h h1 he ih =>
    rw [Graph.iterLoopR, dif_neg h, if_neg h1]
    rcases related_agree g i (j + 1) with c | c
    · rw [he] at c; cases c
    · rw [c, he]; exact ih

theorem fromLoop_agree (g : Graph) (i j : Nat) : Agree (g.fromLoop i j) (g.fromLoopR i j) := by
  fun_induction Graph.fromLoop g i j with
  | case1 j h => rw [Graph.fromLoopR, dif_pos h]; exact agree_refl _
  | case2 j h h1 => rw [Graph.fromLoopR, dif_neg h, if_pos h1]; exact agree_refl _
  | case3 j h h1 h2 e he =>
    rw [Graph.fromLoopR, dif_neg h, if_neg h1, if_pos h2]
    rcases related_agree g i (j + 1) with c | c
    · rw [he] at c; cases c; exact Or.inl rfl
    · rw [c, he]; exact agree_refl _
  | case4 j h h1 h2 he =>
    rw [Graph.fromLoopR, dif_neg h, if_neg h1, if_pos h2]
    rcases related_agree g i (j + 1) with c | c
    · rw [he] at c; cases c
    · rw [c, he]; exact agree_refl _
  | case5 j h h1 h2 he ih =>
    rw [Graph.fromLoopR, dif_neg h, if_neg h1, if_pos h2]
    rcases related_agree g i (j + 1) with c | c
    · rw [he] at c; cases c
    · rw [c, he]; exact ih
  | case6 j h h1 h2 ih => rw [Graph.fromLoopR, dif_neg h, if_neg h1, if_neg h2]; exact ih

theorem runIter_agree {n n' : Nat × Nat → Res (Option Constr × (Nat × Nat))} (h : ∀ s, Agree (n s) (n' s)) :
    ∀ (f : Nat) (s : Nat × Nat), Agree (Graph.runIter n f s) (Graph.runIter n' f s)
  | 0, s => agree_refl _
  | f + 1, s => by
    unfold Graph.runIter
    refine agree_bind (h s) fun p => ?_
    rcases p with ⟨_ | k, s'⟩
    · exact agree_refl _
    · exact agree_bind (runIter_agree h f s') fun _ => agree_refl _

theorem iterNext_agree (g : Graph) (s : Nat × Nat) : Agree (g.iterNext s) (g.iterNextR s) := by
  unfold Graph.iterNext Graph.iterNextR
  agree [iterLoop_agree _ _ _]

theorem fromNext_agree (g : Graph) (s : Nat × Nat) : Agree (g.fromNext s) (g.fromNextR s) := by
  unfold Graph.fromNext Graph.fromNextR
  agree [fromLoop_agree _ _ _, view_agree _ _ _]

theorem mapM_agree {α β : Type} {f g : α → Res β} (h : ∀ a, Agree (f a) (g a)) : ∀ l : List α, Agree (l.mapM f) (l.mapM g)
  | [] => agree_refl _
  | a :: l => by
    rw [List.mapM_cons, List.mapM_cons]
    exact agree_bind (h a) fun _ => agree_bind (mapM_agree h l) fun _ => agree_refl _

theorem constraintsFrom_agree (g : Graph) (i : Nat) : Agree (g.constraintsFrom i) (g.constraintsFromR i) :=
  runIter_agree (fromNext_agree g) _ _

theorem constraintsTo_agree (g : Graph) (i : Nat) : Agree (g.constraintsTo i) (g.constraintsToR i) :=
  agree_bind (constraintsFrom_agree g i) fun l => mapM_agree (fun _ => view_agree _ _ _) l

theorem smaller_agree (g : Graph) (i : Nat) : Agree (g.constrainedWithSmaller i) (g.constrainedWithSmallerR i) := by
  unfold Graph.constrainedWithSmaller Graph.constrainedWithSmallerR
  have sq : ((i : Int) * i) = ((i * i : Nat) : Int) := (Int.natCast_mul i i).symm
  rw [sq]
  generalize i * i = q
  by_cases h : q + 2 * i ≤ 4294967295
  · have w1 : wrapU32 (q : Int) = q := by unfold wrapU32; omega
    have w2 : wrapU32 (2 * (i : Int)) = 2 * i := by unfold wrapU32; omega
    have w3 : wrapU32 ((q : Int) + ((2 * i : Nat) : Int)) = q + 2 * i := by unfold wrapU32; omega
    have w4 : wrapU32 ((q : Int) + (i : Int)) = q + i := by unfold wrapU32; omega
    have w5 : q + 2 * i + 1 - q = 2 * i + 1 := by omega
    refine agree_chk (agree_chk ?_)
    simp only [w1, w2, w3, w4, w5]
    exact agree_refl _
  · left
    unfold chkU32
    by_cases h2 : q ≤ 4294967295
    · rw [if_pos (by omega), ok_bind, if_neg (by omega)]
      rfl
    · rw [if_neg (by omega)]
      rfl

theorem shrunk_agree (g : Graph) : ∀ n, Agree (g.shrunkSize n) (g.shrunkSizeR n)
  | 0 => agree_refl _
  | n + 1 => by
    unfold Graph.shrunkSize Graph.shrunkSizeR
    refine agree_bind (smaller_agree g n) fun b => ?_
    have := shrunk_agree g n
    agree [this]

theorem shrink_agree (g : Graph) : Agree g.shrinkToFit g.shrinkToFitR := by
  unfold Graph.shrinkToFit Graph.shrinkToFitR
  agree [shrunk_agree _ _]

theorem op_agree (g : Graph) (op : Op) : Agree (op.run g) (op.runR g) := by
  cases op with
  | propagate k => exact propagate_agree g k
  | extend hint ks => exact extend_agree g hint ks
  | merge h => exact merge_agree g h
  | resize n => exact agree_bind (resize_agree g n) fun _ => agree_refl _
  | reset => exact agree_bind (reset_agree g) fun _ => agree_refl _
  | shrinkToFit => exact agree_bind (shrink_agree g) fun _ => agree_refl _

theorem hint_agree (g : Graph) (s : Nat × Nat) : Agree (g.graphSizeHint s) (.ok (g.graphSizeHintR s)) := by
  unfold Graph.graphSizeHint Graph.graphSizeHintR
  refine agree_chk (agree_chk (agree_chk (agree_chk (agree_chk (agree_chk ?_)))))
  simp only
  rcases chkU32_cases ((wrapU32 ((wrapU32 (((wrapU32 ((wrapU32 ((g.size : Int) * g.size) : Int) - g.size) / 2 : Nat) : Int) -
    ((wrapU32 ((wrapU32 ((s.1 : Int) * s.1) : Int) - s.1) / 2 : Nat) : Int)) : Int) + 1) : Int) - s.2) with e | ⟨m, e, -⟩
  · exact Or.inl e
  · rw [e, chkU32_wrap e]
    exact agree_refl _

theorem agree_ok {α : Type} {a b : Res α} {x : α} (h : Agree a b) (e : a = .ok x) : b = .ok x := by
  rcases h with h | h
  · rw [e] at h; cases h
  · rw [h, e]

/-! ## C118 -/

/-- C118. Whatever an operation on a graph does in a debug build, other than panicking on an overflow, it does in a release build: the same
answer and the same graph, or the same panic. Any graph, any constraints. -/
theorem C118_operation (g : Graph) (op : Op) (h : op.run g ≠ .error .overflow) : op.runR g = op.run g :=
  (op_agree g op).resolve_left h

/-- C118. On graphs of at most 65535 instants, any history of operations of any length gives the same graph in both builds, within its
memory, or the same panic. -/
theorem C118_history {g : Graph} (hv : Valid g) {ops : List Op} (hops : ∀ op ∈ ops, op.InRange) : runOpsR g ops = runOps g ops := by
  have key : ∀ (ops : List Op) (g : Graph), Agree (runOps g ops) (runOpsR g ops) := fun ops g =>
    agree_fold (fun g op => agree_bind (op_agree g op) fun _ => agree_refl _) ops g
  rcases key ops g with h | h
  · rcases C59_history hv hops with ⟨g', e, -⟩ | e <;> (rw [h] at e; cases e)
  · exact h

/-- C118. On an allocated graph, all the queries answer the same in both builds, whatever the instants are. -/
theorem C118_queries {g : Graph} (hv : Valid g) (i j : Nat) :
    g.timespanR i j = g.timespan i j ∧ g.constraintR i j = g.constraint i j ∧ g.instantCmpR i j = g.instantCmp i j ∧
    g.areDistinctR i j = g.areDistinct i j ∧ g.iterAllR = g.iterAll ∧ g.constraintsFromR i = g.constraintsFrom i ∧
    g.constraintsToR i = g.constraintsTo i := by
  obtain ⟨⟨_, h1⟩, ⟨_, h2⟩, ⟨_, h3⟩, ⟨_, h4⟩, ⟨_, h5⟩, ⟨_, h6⟩, ⟨_, h7⟩⟩ := C59_queries hv i j
  have it : Agree g.iterAll g.iterAllR := runIter_agree (iterNext_agree g) _ _
  exact ⟨(agree_ok (timespan_agree g i j) h1).trans h1.symm, (agree_ok (constraint_agree g i j) h2).trans h2.symm,
    (agree_ok (instantCmp_agree g i j) h3).trans h3.symm, (agree_ok (areDistinct_agree g i j) h4).trans h4.symm,
    (agree_ok it h5).trans h5.symm, (agree_ok (constraintsFrom_agree g i) h6).trans h6.symm,
    (agree_ok (constraintsTo_agree g i) h7).trans h7.symm⟩

/-- C118. Collecting constraints between instants below 65535 gives the same graph in both builds, or the same panic. -/
theorem C118_collect (hint : Option Nat) (ks : List Constr) (hk : ∀ k ∈ ks, k.src < 65535 ∧ k.dst < 65535) :
    Graph.fromConstraintsR hint ks = Graph.fromConstraints hint ks := by
  have h := C118_operation Graph.default (.extend hint ks) (by
    rcases C59_operation C59_start.1 (op := .extend hint ks) hk with ⟨g', o, e, -⟩ | e <;> rw [e] <;> nofun)
  have h' : Graph.default.extendR hint ks = Graph.default.extend hint ks := h
  unfold Graph.fromConstraintsR Graph.fromConstraints
  rw [h']
  rfl

/-- C118 fails beyond: a constraint on the last instant, 2^32 - 1, makes a debug build panic, but a release build writes out of the memory
of the graph, whatever the graph is. -/
theorem C118_last_instant_violated {g : Graph} (hv : Valid g) {k : Constr} (hk : k.isEmpty = false)
    (hm : max k.src k.dst = 4294967295) : g.propagate k = .error .overflow ∧ g.propagateR k = .error .outOfBounds := by
  refine ⟨(C59_limit hv).2 k hk (by omega), ?_⟩
  have hv1 := hv.1
  unfold Graph.propagateR
  have w : wrapU32 ((4294967295 : Nat) + 1 : Int) = 0 := by decide
  have r : g.resizeR 0 = .ok ⟨0, []⟩ := by
    unfold Graph.resizeR
    have : wrapU32 (((0 : Nat) : Int) * ((0 : Nat) : Int)) = 0 := by decide
    simp only [this, Nat.zero_sub, List.range'_zero, List.foldlM_nil, Graph.vresize, List.take_zero, List.replicate_zero,
      List.append_nil]
    rfl
  rw [if_neg (by rw [hk]; decide)]
  simp only [hm, w]
  rw [if_pos (by omega), r, ok_bind]
  rfl

/-- a history which grows, rejects, deduces, shrinks and merges, in a release build -/
example : Valid ⟨2, [0, -5, 0, 2]⟩ ∧
    (∀ op ∈ [Op.propagate ⟨1, 2, false, 1, 4⟩, .propagate ⟨0, 1, false, 9, 10⟩, .extend none [⟨2, 0, false, -7, INF⟩], .resize 5,
      .shrinkToFit, .merge ⟨2, [0, -4, 0, 2]⟩], op.InRange) ∧
    runOpsR ⟨2, [0, -5, 0, 2]⟩ [.propagate ⟨1, 2, false, 1, 4⟩, .propagate ⟨0, 1, false, 9, 10⟩, .extend none [⟨2, 0, false, -7, INF⟩],
      .resize 5, .shrinkToFit, .merge ⟨2, [0, -4, 0, 2]⟩] =
    runOps ⟨2, [0, -5, 0, 2]⟩ [.propagate ⟨1, 2, false, 1, 4⟩, .propagate ⟨0, 1, false, 9, 10⟩, .extend none [⟨2, 0, false, -7, INF⟩],
      .resize 5, .shrinkToFit, .merge ⟨2, [0, -4, 0, 2]⟩] ∧
    Except.map Graph.size (runOpsR ⟨2, [0, -5, 0, 2]⟩ [.propagate ⟨1, 2, false, 1, 4⟩, .propagate ⟨0, 1, false, 9, 10⟩,
      .extend none [⟨2, 0, false, -7, INF⟩], .resize 5, .shrinkToFit, .merge ⟨2, [0, -4, 0, 2]⟩]) = .ok 3 := by
  have hr : ∀ op ∈ [Op.propagate ⟨1, 2, false, 1, 4⟩, .propagate ⟨0, 1, false, 9, 10⟩, .extend none [⟨2, 0, false, -7, INF⟩],
      .resize 5, .shrinkToFit, .merge ⟨2, [0, -4, 0, 2]⟩], op.InRange := by
    simp only [List.mem_cons, List.not_mem_nil, or_false]
    rintro op (rfl | rfl | rfl | rfl | rfl | rfl) <;> simp only [Op.InRange] <;> decide
  exact ⟨by decide, hr, C118_history (by decide) hr, by decide +kernel⟩

example : Valid ⟨1, [0]⟩ ∧ (⟨0, 4294967295, false, 1, 2⟩ : Constr).isEmpty = false ∧ max 0 4294967295 = 4294967295 ∧
    (⟨1, [0]⟩ : Graph).propagateR ⟨0, 4294967295, false, 1, 2⟩ = .error .outOfBounds :=
  ⟨by decide, by decide, rfl, (C118_last_instant_violated (by decide) (by decide) rfl).2⟩

/-! ## C84 in a release build -/

/-- C84 holds in a release build: at any point of `iter()` and of `constraints_from(i)`, even after the end, the announced upper bound is
not exceeded by the number of constraints to come. -/
theorem C84_release {g : Graph} (hv : Valid g) :
    (∀ ks, g.iterAll = .ok ks → ∀ m s, advance g.iterNext m Graph.iterInit = .ok s → ks.length - m ≤ g.graphSizeHintR s) ∧
    (∀ i ks, i < g.size → g.constraintsFrom i = .ok ks → ∀ m s, advance g.fromNext m (i, 0) = .ok s →
      ks.length - m ≤ g.graphSizeHintR s) := by
  constructor
  · intro ks hk m s hs
    by_cases c : m ≤ ks.length
    · obtain ⟨s', h, e1, e2, e3⟩ := C84_iter_partial hv hk c
      rw [hs] at e1
      cases e1
      have := agree_ok (hint_agree g s) e2
      injection this with this
      omega
    · omega
  · intro i ks hi hk m s hs
    by_cases c : m < ks.length
    · obtain ⟨s', h, e1, e2, e3⟩ := C84_from_partial hv hi hk c
      rw [hs] at e1
      cases e1
      have := agree_ok (hint_agree g s) e2
      injection this with this
      omega
    · omega

/-- C84. After its end, in a release build, `iter()` on a graph of at least two instants announces at most `2^32 + 1 - size` constraints,
although there is none. -/
theorem C84_release_exhausted {g : Graph} (hv : Valid g) (hs : 2 ≤ g.size) :
    g.graphSizeHintR (g.size, g.size) = 4294967297 - g.size := by
  have := hv.1
  unfold Graph.graphSizeHintR
  simp only
  generalize wrapU32 ((wrapU32 ((g.size : Int) * g.size) : Int) - g.size) / 2 = q
  have e : ((q : Int) - (q : Int)) = 0 := by omega
  rw [e]
  unfold wrapU32
  omega

/-! ## C05 in a release build -/

theorem fromFractR_run {n u : Int} (hn : I64_MIN ≤ n ∧ n ≤ I64_MAX) (hu : u = 1000 ∨ u = 1000000 ∨ u = 1000000000) :
    fromFractR n u = if n.tdiv u > MAX_SEC then .ok INF else
      .ok (asI64 (shl30 (n.tdiv u) + ((n - n.tdiv u * u) * TICKS).tdiv u)) := by
  have hdv : ∀ a : Int, I64_MIN ≤ a → a ≤ I64_MAX → div64 a u = .ok (a.tdiv u) := by
    intro a h1 h2
    have hu0 : u ≠ 0 := by omega
    have : (a.tdiv u) ≥ I64_MIN ∧ (a.tdiv u) ≤ I64_MAX := by
      rcases hu with rfl | rfl | rfl <;> rcases Int.le_total 0 a with h | h <;>
        (first | rw [tdiv_of_nonneg h] | rw [tdiv_of_nonpos h]) <;> ticks
    rw [div64, if_neg hu0, chk64, if_pos ⟨this.1, this.2⟩]
  obtain ⟨-, f1, f2, -, -⟩ := fromFract_run hn hu
  have hqb : I64_MIN ≤ n.tdiv u * u ∧ n.tdiv u * u ≤ I64_MAX := by
    rcases hu with rfl | rfl | rfl <;> rcases Int.le_total 0 n with h | h <;>
      (first | rw [tdiv_of_nonneg h] | rw [tdiv_of_nonpos h]) <;> ticks
  unfold fromFractR
  rw [hdv n hn.1 hn.2, ok_bind]
  simp only
  rw [asI64_id hqb.1 hqb.2, asI64_id (by ticks) (by ticks)]
  split
  · rfl
  · rw [shl30_exact (n := n - n.tdiv u * u) (by omega) (by omega), hdv _ (by ticks) (by ticks)]
    rfl

/-- C05 in a release build: `from_millis`, `from_micros` and `from_nanos` give what they give in a debug build; where it panics they give
the duration of a negative count as a positive one, less than a second below +oo. -/
theorem C05_fract_release_partial (f fR : Int → Res Int)
    (hf : (f, fR) ∈ [(fromMillis, fromMillisR), (fromMicros, fromMicrosR), (fromNanos, fromNanosR)]) (n : Int)
    (hn : I64_MIN ≤ n ∧ n ≤ I64_MAX) :
    (∀ x, f n = .ok x → fR n = .ok x) ∧
    (f n = .error .overflow → n < 0 ∧ ∃ x, fR n = .ok x ∧ INF - TICKS < x ∧ x ≤ INF) := by
  simp only [List.mem_cons, Prod.mk.injEq, List.not_mem_nil, or_false] at hf
  obtain ⟨u, hu, e, eR⟩ : ∃ u, (u = 1000 ∨ u = 1000000 ∨ u = 1000000000) ∧ f n = fromFract n u ∧ fR n = fromFractR n u := by
    rcases hf with h | h | h
    · exact ⟨1000, by omega, by rw [h.1]; rfl, by rw [h.2]; rfl⟩
    · exact ⟨1000000, by omega, by rw [h.1]; rfl, by rw [h.2]; rfl⟩
    · exact ⟨1000000000, by omega, by rw [h.1]; rfl, by rw [h.2]; rfl⟩
  obtain ⟨r, f1, f2, f3, f4⟩ := fromFract_run hn hu
  rw [e, eR, r, fromFractR_run hn hu]
  have hs : n.tdiv u < 0 → n < 0 := by
    intro h
    rcases Int.lt_or_le n 0 with c | c
    · exact c
    · rw [tdiv_of_nonneg c] at h
      have := Int.ediv_nonneg c (by omega : 0 ≤ u)
      omega
  generalize n.tdiv u = q at *
  generalize n - q * u = d at *
  have g : -TICKS < (d * TICKS).tdiv u ∧ (d * TICKS).tdiv u < TICKS ∧ (0 ≤ d → 0 ≤ (d * TICKS).tdiv u) ∧
      (d ≤ 0 → (d * TICKS).tdiv u ≤ 0) := by
    simp only [TICKS]
    rcases hu with rfl | rfl | rfl <;> rcases Int.le_total 0 d with h | h
    all_goals
      first
        | (rw [tdiv_of_nonneg (by omega)]; omega)
        | (rw [tdiv_of_nonpos (by omega)]; omega)
  obtain ⟨g1, g2, g3, g4⟩ := g
  generalize (d * TICKS).tdiv u = v at *
  by_cases c : q > MAX_SEC
  · rw [if_pos c, if_pos c]
    exact ⟨fun x h => h, nofun⟩
  · rw [if_neg c, if_neg c]
    have w : -9223372036854775808 ≤ shl30 q ∧ shl30 q ≤ 9223372035781033984 ∧ shl30 q % 1073741824 = 0 ∧
        (shl30 q < 0 → 0 ≤ q → False) := by
      simp only [shl30, Int.bmod, TICKS, MAX_SEC] at *
      omega
    obtain ⟨w1, w2, w3, w4⟩ := w
    generalize shl30 q = z at *
    refine ⟨fun x h => by rw [chk64_wrap h], fun h => ?_⟩
    unfold chk64 at h
    split at h
    · cases h
    · rename_i hc
      have h1 : z + v < -9223372036854775808 := by simp only [I64_MIN, I64_MAX, TICKS] at *; omega
      have zq : q < 0 := by
        rcases Int.lt_or_le q 0 with c' | c'
        · exact c'
        · exact (w4 (by simp only [TICKS] at *; omega) c').elim
      refine ⟨hs zq, _, rfl, ?_⟩
      simp only [asI64, Int.bmod, INF, TICKS] at *
      omega

example : fromMillis (-8589934592001) = .error .overflow ∧ fromMillisR (-8589934592001) = .ok 9223372036853702067 := by decide

end Chrono
