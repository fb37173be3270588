import Verif.Lemmas.CrashInv
import Verif.Lemmas.CrashWrites
import Verif.Props.SchedConvex

/-!
# What an interrupted operation leaves behind (C136, C137)
-/

set_option linter.unusedSimpArgs false

namespace Chrono
open Spec

theorem survived_mid {N : Nat} (hN : N ≤ 65535) {g : Graph} {P Q : (Nat → Int) → Prop} (h : Survived N g P Q) : Mid N P Q g := by
  induction h with
  | new hn e => exact ⟨_, hinv_new hN hn e, fun τ _ => ⟨id, id⟩⟩
  | accepted _ hk e ho ih =>
    obtain ⟨R, i, m⟩ := ih
    rcases (hinv_propagate hN i hk).1 _ _ e with a | a
    · exact ⟨_, a.2, fun τ r => ⟨fun b => ⟨(m τ r).1 b.1, b.2⟩, fun b => ⟨(m τ r).2 b.1, b.2⟩⟩⟩
    · rw [a.1] at ho; rcases ho with ho | ho <;> cases ho
  | rejected _ hk e ho ih =>
    obtain ⟨R, i, m⟩ := ih
    rcases (hinv_propagate hN i hk).1 _ _ e with a | a
    · rcases a.1 with b | b <;> rw [b] at ho <;> rcases ho with ho | ho <;> cases ho
    · rw [a.2.1]; exact ⟨R, i, m⟩
  | extended _ hk h0 h1 e ho ih =>
    obtain ⟨R, i, m⟩ := ih
    rcases (hinv_extend hN i hk h0 h1).1 _ _ e with a | a
    · exact ⟨_, a.2, fun τ r => ⟨fun b => ⟨(m τ r).1 b.1, b.2⟩, fun b => ⟨(m τ r).2 b.1, b.2⟩⟩⟩
    · exact absurd a.1 ho
  | merged _ _ e ho ih1 ih2 =>
    obtain ⟨R, i, m⟩ := ih1
    obtain ⟨R', i', m'⟩ := ih2
    rcases (hinv_merge i i').1 _ _ e with a | a
    · exact ⟨_, a.2.2, fun τ r => ⟨fun b => ⟨(m τ r).1 b.1, (m' τ r).1 b.2⟩, fun b => ⟨(m τ r).2 b.1, (m' τ r).2 b.2⟩⟩⟩
    · exact absurd a.1 ho
  | reset _ e ih =>
    obtain ⟨R, i, -⟩ := ih
    exact ⟨_, hinv_reset i.valid i.size e, fun τ _ => ⟨id, id⟩⟩
  | grown _ hs hn e ih =>
    obtain ⟨R, i, m⟩ := ih
    exact ⟨R, hinv_grow hN i hs hn e, m⟩
  | shrunk _ hs e ih =>
    obtain ⟨R, i, m⟩ := ih
    exact ⟨R, hinv_shrink i (hs.imp fun τ a => ⟨a.1, (m τ a.1).1 a.2⟩) e, m⟩
  | cutPropagate _ hk hx ih =>
    obtain ⟨R, i, m⟩ := ih
    obtain ⟨R', i', m'⟩ := propagateT_mid hN i hk _ hx
    exact ⟨R', i', fun τ r => ⟨fun b => (m' τ r).1 ⟨(m τ r).1 b.1, b.2⟩, fun b => (m τ r).2 ((m' τ r).2 b)⟩⟩
  | cutExtend _ hk hx ih =>
    obtain ⟨R, i, m⟩ := ih
    obtain ⟨R', i', m'⟩ := extendT_mid hN i hk _ _ hx
    exact ⟨R', i', fun τ r => ⟨fun b => (m' τ r).1 ⟨(m τ r).1 b.1, b.2⟩, fun b => (m τ r).2 ((m' τ r).2 b)⟩⟩
  | cutIterator _ hk e ih =>
    obtain ⟨R, i, m⟩ := ih
    obtain ⟨y, e', i'⟩ := extendCut_mid hN i hk
    obtain rfl := Except.ok.inj (e.symm.trans e')
    exact ⟨_, i', fun τ r => ⟨fun b => ⟨(m τ r).1 b.1, b.2⟩, fun b => ⟨(m τ r).2 b.1, b.2⟩⟩⟩
  | cutMerge _ _ hx ih1 ih2 =>
    obtain ⟨R, i, m⟩ := ih1
    obtain ⟨R', i', m'⟩ := ih2
    exact ⟨_, mergeT_mid i i' _ hx, fun τ r => ⟨fun b => ⟨(m τ r).1 b.1, (m' τ r).1 b.2⟩, fun b => ⟨(m τ r).2 b.1, (m' τ r).2 b.2⟩⟩⟩

theorem endured_mid {dbg : Bool} {g : Graph} (hv : Valid g) (hs : Spanned g) {s : Sched} {P Q : (Nat → Int) → Prop}
    (h : Endured dbg g s P Q) : s.graph = g ∧ LooseSched s ∧
      ∀ τ, FiniteDates g.size τ → (Sat τ g ∧ Q τ → Feasible τ s) ∧ (Feasible τ s → Sat τ g ∧ P τ) := by
  induction h with
  | new => exact ⟨rfl, new_loose g, fun τ _ => by rw [new_feasible]; exact ⟨fun a => a.1, fun a => ⟨a, trivial⟩⟩⟩
  | @accepted s P Q r s' o _ hr e ho ih =>
    obtain ⟨e0, hl, h⟩ := ih
    subst e0
    rcases req_any dbg hv hs hl hr with ⟨s1, o1, e1, S⟩ | ⟨e1, -⟩ | ⟨-, e1⟩ <;> rw [e] at e1 <;> cases e1
    refine ⟨S.graph, S.loose, fun τ hf => ?_⟩
    rw [S.exact (by rintro rfl; rcases ho with ho | ho <;> cases ho) τ hf]
    exact ⟨fun a => ⟨(h τ hf).1 ⟨a.1, a.2.1⟩, a.2.2⟩, fun a => ⟨((h τ hf).2 a.1).1, ((h τ hf).2 a.1).2, a.2⟩⟩
  | @refused s P Q r s' o _ hr e ho ih =>
    obtain ⟨e0, hl, h⟩ := ih
    subst e0
    rcases req_any dbg hv hs hl hr with ⟨s1, o1, e1, S⟩ | ⟨e1, -⟩ | ⟨-, e1⟩ <;> rw [e] at e1 <;> cases e1
    have := S.refused (ho.resolve_right S.fatal)
    rw [this.1]
    exact ⟨rfl, hl, h⟩
  | @cut s P Q r x _ hr hx ih =>
    obtain ⟨e0, hl, h⟩ := ih
    subst e0
    have m := runT_mid dbg hv hs hl hr x hx
    refine ⟨m.graph, m.loose, fun τ hf => ⟨fun a => m.keep τ hf ((h τ hf).1 ⟨a.1, a.2.1⟩) a.2.2, fun a => ?_⟩⟩
    obtain ⟨a1, a2⟩ := a
    rw [m.graph] at a1 a2
    exact (h τ hf).2 ⟨a1, fun j hj => m.sub j _ (a2 j hj)⟩

/-! ## C136 -/

/-- The step by step versions of the operations compute what the operations compute. -/
theorem crash_results (g h : Graph) (k : Constr) (hint : Option Nat) (ks : List Constr) (dbg : Bool) (s : Sched) (r : Req) :
    (g.propagateT k).res = g.propagate k ∧ (g.extendT hint ks).res = g.extend hint ks ∧ (g.mergeT h).res = g.merge h ∧
      (r.runT dbg s).res = r.run dbg s :=
  ⟨Graph.propagateT_res g k, Graph.extendT_res g hint ks, Graph.mergeT_res g h, Sched.runT_res dbg s r⟩

/-- No write is left out of the step by step versions: from the content before the call, each content differs from the former one by one
write, and the content after the call is the last one, but for the loss of the instants after a fatal error. -/
theorem crash_writes (g : Graph) (k : Constr) (hint : Option Nat) (ks : List Constr) (dbg : Bool) (s : Sched) (r : Req) :
    (Linked GraphWrite g (g.propagateT k).steps ∧
      ∀ g' o, g.propagate k = .ok (g', o) → g' = (g :: (g.propagateT k).steps).getLast (by simp)) ∧
    (Linked GraphWrite g (g.extendT hint ks).steps ∧
      ∀ g' o, g.extend hint ks = .ok (g', o) → o ≠ .fatal → g' = (g :: (g.extendT hint ks).steps).getLast (by simp)) ∧
    (Linked SchedWrite s (r.runT dbg s).steps ∧
      ∀ s' o, r.run dbg s = .ok (s', o) → s' = (s :: (r.runT dbg s).steps).getLast (by simp)) := by
  obtain ⟨e1, e2, _, e4⟩ := crash_results g g k hint ks dbg s r
  obtain ⟨a1, a2⟩ := propagateT_traced g k
  obtain ⟨b1, b2⟩ := extendT_traced g hint ks
  obtain ⟨c1, c2⟩ := runT_traced dbg s r
  exact ⟨⟨a1, fun _ _ e => a2 _ (e1.trans e)⟩, ⟨b1, fun _ _ e f => (b2 _ (e2.trans e)).resolve_left f⟩,
    ⟨c1, fun _ _ e => c2 _ (e4.trans e)⟩⟩

/-- The same for `merge`, whose first loop cannot be interrupted: the largest bounds are written first, then one at a time. -/
theorem crash_writes_merge (g h : Graph) : ∃ m l, (g.mergeT h).steps = m :: l ∧ Linked GraphWrite m l ∧
    (g.size < h.size → m = { h with data := (Graph.zipMax h.data g.data).1 }) ∧
    (h.size ≤ g.size → m = { g with data := (Graph.zipMax g.data h.data).1 }) ∧
    ∀ g' o, g.merge h = .ok (g', o) → o ≠ .fatal → g' = (m :: l).getLast (by simp) := by
  rw [← (crash_results g h ⟨0, 0, false, 0, 0⟩ none [] false ⟨g, []⟩ (.deadline 0)).2.2.1]
  exact mergeT_traced g h

/-- C136. A call which is not interrupted computes what the operation computes, and the contents on the way, at each of which it may be
interrupted, differ by one write at a time and end with the content which it returns (but for the loss of the instants after a fatal error). -/
theorem C136_writes (g h : Graph) (k : Constr) (hint : Option Nat) (ks : List Constr) :
    ((g.propagateT k).res = g.propagate k ∧ Linked GraphWrite g (g.propagateT k).steps ∧
      ∀ g' o, g.propagate k = .ok (g', o) → g' = (g :: (g.propagateT k).steps).getLast (by simp)) ∧
    ((g.extendT hint ks).res = g.extend hint ks ∧ Linked GraphWrite g (g.extendT hint ks).steps ∧
      ∀ g' o, g.extend hint ks = .ok (g', o) → o ≠ .fatal → g' = (g :: (g.extendT hint ks).steps).getLast (by simp)) ∧
    ((g.mergeT h).res = g.merge h ∧ ∃ m l, (g.mergeT h).steps = m :: l ∧ Linked GraphWrite m l ∧
      (g.size < h.size → m = { h with data := (Graph.zipMax h.data g.data).1 }) ∧
      (h.size ≤ g.size → m = { g with data := (Graph.zipMax g.data h.data).1 }) ∧
      ∀ g' o, g.merge h = .ok (g', o) → o ≠ .fatal → g' = (m :: l).getLast (by simp)) := by
  obtain ⟨e1, e2, e3, -⟩ := crash_results g h k hint ks false ⟨g, []⟩ (.deadline 0)
  obtain ⟨w1, w2, -⟩ := crash_writes g k hint ks false ⟨g, []⟩ (.deadline 0)
  exact ⟨⟨e1, w1⟩, ⟨e2, w2⟩, e3, crash_writes_merge g h⟩

/-- C136. Wherever a call of `propagate` is interrupted, on a graph with any history, the graph can still be used, and its representable
solutions are between those of the former graph which satisfy the constraint and those of the former graph: nothing accepted is lost,
nothing else is forbidden. -/
theorem C136_propagate {N : Nat} (hN : N ≤ 65535) {g : Graph} {P : (Nat → Int) → Prop} (h : Built N g P) {k : Constr} (hk : Ordinary N k)
    {x : Graph} (hx : x ∈ (g.propagateT k).steps) :
    (∀ i j, i < x.size → j < x.size → ∃ s, x.timespan i j = .ok s) ∧
    ∀ τ, Representable N τ → (P τ ∧ Holds τ k → Sat τ x) ∧ (Sat τ x → P τ) := by
  obtain ⟨R, i, m⟩ := propagateT_mid hN (built_inv hN h) hk x hx
  exact ⟨fun a b ha hb => ⟨_, timespan_eq i.valid ha hb⟩,
    fun τ r => ⟨fun a => (i.sat τ r).2 ((m τ r).1 a), fun a => (m τ r).2 ((i.sat τ r).1 a)⟩⟩

/-- C136. The same for `extend`, whatever its iterator announces. -/
theorem C136_extend {N : Nat} (hN : N ≤ 65535) {g : Graph} {P : (Nat → Int) → Prop} (h : Built N g P) {ks : List Constr}
    (hk : ∀ k ∈ ks, Ordinary N k) {hint : Option Nat} {x : Graph} (hx : x ∈ (g.extendT hint ks).steps) :
    (∀ i j, i < x.size → j < x.size → ∃ s, x.timespan i j = .ok s) ∧
    ∀ τ, Representable N τ → (P τ ∧ (∀ k ∈ ks, Holds τ k) → Sat τ x) ∧ (Sat τ x → P τ) := by
  obtain ⟨R, i, m⟩ := extendT_mid hN (built_inv hN h) hk hint x hx
  exact ⟨fun a b ha hb => ⟨_, timespan_eq i.valid ha hb⟩,
    fun τ r => ⟨fun a => (i.sat τ r).2 ((m τ r).1 a), fun a => (m τ r).2 ((i.sat τ r).1 a)⟩⟩

/-- C136. An interrupted `merge` leaves a graph which has exactly the solutions of both graphs. -/
theorem C136_merge {N : Nat} (hN : N ≤ 65535) {g h : Graph} {P Q : (Nat → Int) → Prop} (hg : Built N g P) (hh : Built N h Q)
    {x : Graph} (hx : x ∈ (g.mergeT h).steps) :
    (∀ i j, i < x.size → j < x.size → ∃ s, x.timespan i j = .ok s) ∧ ∀ τ, Representable N τ → (Sat τ x ↔ P τ ∧ Q τ) := by
  have i := mergeT_mid (built_inv hN hg) (built_inv hN hh) x hx
  exact ⟨fun a b ha hb => ⟨_, timespan_eq i.valid ha hb⟩, i.sat⟩

/-- C136. When the iterator given to `extend` panics after some constraints, `extend` itself has not panicked before, and the graph it leaves
has exactly the solutions which satisfy what was accepted before and these constraints. -/
theorem C136_iterator {N : Nat} (hN : N ≤ 65535) {g : Graph} {P : (Nat → Int) → Prop} (h : Built N g P) {ks : List Constr}
    (hk : ∀ k ∈ ks, Ordinary N k) :
    ∃ x, g.extendCut ks = .ok x ∧ ∀ τ, Representable N τ → (Sat τ x ↔ P τ ∧ ∀ k ∈ ks, Holds τ k) := by
  obtain ⟨x, e, i⟩ := extendCut_mid hN (built_inv hN h) hk
  exact ⟨x, e, i.sat⟩

/-- C136. To extend the graph left with the constraints which the iterator did not produce gives what the whole batch would have given. -/
theorem C136_resume {g x : Graph} {ks ls : List Constr} (e : g.extendCut ks = .ok x) {hint hint' : Option Nat} (h0 : hint ≠ some 0)
    (h1 : hint ≠ some 1) (h0' : hint' ≠ some 0) (h1' : hint' ≠ some 1) : x.extend hint ls = g.extend hint' (ks ++ ls) := by
  unfold Graph.extend
  rw [if_neg h0, if_neg h1, if_neg h0', if_neg h1', List.foldlM_append]
  unfold Graph.extendCut at e
  rw [e, ok_bind]

/-- C136. After any history with calls interrupted at any point, the graph can be used, and its representable solutions are between those
which satisfy all that was asked and those which satisfy all that was accepted. -/
theorem C136_history {N : Nat} (hN : N ≤ 65535) {g : Graph} {P Q : (Nat → Int) → Prop} (h : Survived N g P Q) :
    (∀ i j, i < g.size → j < g.size → ∃ s, g.timespan i j = .ok s) ∧
    ∀ τ, Representable N τ → (Q τ → Sat τ g) ∧ (Sat τ g → P τ) := by
  obtain ⟨R, i, m⟩ := survived_mid hN h
  exact ⟨fun a b ha hb => ⟨_, timespan_eq i.valid ha hb⟩,
    fun τ r => ⟨fun a => (i.sat τ r).2 ((m τ r).1 a), fun a => (m τ r).2 ((i.sat τ r).1 a)⟩⟩

/-- C136. After such a history, a constraint or a batch compatible with all that was asked is accepted, without panic; one which is refused is
incompatible with it. -/
theorem C136_next {N : Nat} (hN : N ≤ 65535) {g : Graph} {P Q : (Nat → Int) → Prop} (h : Survived N g P Q) :
    (∀ k, Ordinary N k →
      ((∃ τ, Representable N τ ∧ Q τ ∧ Holds τ k) → ∃ g' o, g.propagate k = .ok (g', o) ∧ (o = .unchanged ∨ o = .propagated)) ∧
      (∀ g' o, g.propagate k = .ok (g', o) → o = .recovered ∨ o = .fatal → g' = g ∧ ¬ ∃ τ, Representable N τ ∧ Q τ ∧ Holds τ k)) ∧
    (∀ ks hint, (∀ k ∈ ks, Ordinary N k) → hint ≠ some 0 → hint ≠ some 1 →
      (∃ τ, Representable N τ ∧ Q τ ∧ ∀ k ∈ ks, Holds τ k) → ∃ g', g.extend hint ks = .ok (g', .propagated)) := by
  obtain ⟨R, i, m⟩ := survived_mid hN h
  refine ⟨fun k hk => ⟨fun ⟨τ, r, q, t⟩ => (hinv_propagate hN i hk).2 ⟨τ, r, (m τ r).1 q, t⟩, fun g' o e ho => ?_⟩,
    fun ks hint hk h0 h1 ⟨τ, r, q, t⟩ => (hinv_extend hN i hk h0 h1).2 ⟨τ, r, (m τ r).1 q, t⟩⟩
  rcases (hinv_propagate hN i hk).1 _ _ e with a | a
  · rcases a.1 with b | b <;> rw [b] at ho <;> rcases ho with ho | ho <;> cases ho
  · exact ⟨a.2.1, fun ⟨τ, r, q, t⟩ => a.2.2 ⟨τ, r, (m τ r).1 q, t⟩⟩

theorem insert_other {g g' : Graph} (hv : Valid g) {k : Constr} (hs : k.src < g.size) (hd : k.dst < g.size) (e : g.insert k = .ok g')
    (a b : Nat) (h1 : ¬ (a = k.src ∧ b = k.dst)) (h2 : ¬ (a = k.dst ∧ b = k.src)) :
    g'.size = g.size ∧ Valid g' ∧ mat g' a b = mat g a b := by
  obtain rfl := Except.ok.inj ((insert_eq_relax hv hs hd).symm.trans e)
  refine ⟨rfl, (hv.put _ _ _).put _ _ _, ?_⟩
  rw [mat_put _ ((hv.put _ _ _).ix_lt (i := k.dst) (j := k.src) hd hs), if_neg h2, mat_put _ (hv.ix_lt hs hd), if_neg h1]

/-- C136: what is left is not propagated. When the iterator given to `extend` panics after two constraints, from `a` to `b` and from `b` to
`c`, the graph announces the same delay from `a` to `c` as before, although in all its representable solutions this delay is at least
the sum of the lower bounds. -/
theorem C136_deduce_violated {N : Nat} (hN : N ≤ 65535) {g : Graph} {P : (Nat → Int) → Prop} (h : Built N g P) {a b c : Nat}
    (ha : a < g.size) (hb : b < g.size) (hc : c < g.size) (hab : a ≠ b) (hbc : b ≠ c) (hac : a ≠ c) {l1 u1 l2 u2 : Int}
    (h1 : Ordinary N ⟨a, b, false, l1, u1⟩) (h2 : Ordinary N ⟨b, c, false, l2, u2⟩) (f1 : l1 ≠ -INF) (f2 : l2 ≠ -INF) :
    ∃ x, g.extendCut [⟨a, b, false, l1, u1⟩, ⟨b, c, false, l2, u2⟩] = .ok x ∧ x.timespan a c = g.timespan a c ∧
      ∀ τ, Representable N τ → Sat τ x → l1 + l2 ≤ τ c - τ a := by
  have I := built_inv hN h
  obtain ⟨x, e, i⟩ := extendCut_mid hN I (ks := [⟨a, b, false, l1, u1⟩, ⟨b, c, false, l2, u2⟩])
    (fun k hk => by rcases List.mem_cons.1 hk with rfl | hk; exact h1; cases List.mem_singleton.1 hk; exact h2)
  refine ⟨x, e, ?_, fun τ r t => ?_⟩
  · unfold Graph.extendCut at e
    rw [List.foldlM_cons] at e
    obtain ⟨y, e1, e⟩ := bind_ok e
    rw [List.foldlM_cons] at e
    obtain ⟨z, e2, e⟩ := bind_ok e
    cases e
    have o1 := insert_other I.valid (k := ⟨a, b, false, l1, u1⟩) ha hb e1
    obtain ⟨y1, y2, y3⟩ := o1 a c (by simp only; omega) (by simp only; omega)
    obtain ⟨-, -, y4⟩ := o1 c a (by simp only; omega) (by simp only; omega)
    have o2 := insert_other y2 (k := ⟨b, c, false, l2, u2⟩) (by simp only; omega) (by simp only; omega) e2
    obtain ⟨z1, z2, z3⟩ := o2 a c (by simp only; omega) (by simp only; omega)
    obtain ⟨-, -, z4⟩ := o2 c a (by simp only; omega) (by simp only; omega)
    rw [timespan_eq z2 (by omega) (by omega), timespan_eq I.valid ha hc, z3, z4, y3, y4]
  · have t := ((i.sat τ r).1 t).2
    have t1 := (t ⟨a, b, false, l1, u1⟩ (by simp)).2
    have t2 := (t ⟨b, c, false, l2, u2⟩ (by simp)).2
    simp only [InExt, Constr.span] at t1 t2
    omega

/-- C136: and the next constraint may be accepted although it contradicts those left by the interrupted call. -/
theorem C136_contradiction_violated : ∃ g x y : Graph, Graph.withSize 3 = .ok g ∧
    g.extendCut [⟨0, 1, false, 2, 5⟩, ⟨1, 2, false, 3, 9⟩] = .ok x ∧ x.propagate ⟨2, 0, false, 0, 4⟩ = .ok (y, .propagated) ∧
    ¬ ∃ τ, Sat τ x ∧ Holds τ ⟨2, 0, false, 0, 4⟩ := by
  refine ⟨⟨3, [0, -INF, 0, -INF, -INF, -INF, 0, -INF, -INF]⟩, ⟨3, [0, -5, 0, 2, -INF, -9, 0, 3, -INF]⟩, ⟨3, [0, 3, 5, 2, 0, 2, 0, 3, -4]⟩,
    by decide +kernel, by decide +kernel, by decide +kernel, ?_⟩
  rintro ⟨τ, s, t⟩
  have v : Valid ⟨3, [0, -5, 0, 2, -INF, -9, 0, 3, -INF]⟩ := by decide
  have s := (sat_iff v τ).1 s
  have a := s 0 (by decide) 1 (by decide)
  have b := s 1 (by decide) 2 (by decide)
  have c := t.2
  rw [show mat ⟨3, [0, -5, 0, 2, -INF, -9, 0, 3, -INF]⟩ 0 1 = 2 by decide] at a
  rw [show mat ⟨3, [0, -5, 0, 2, -INF, -9, 0, 3, -INF]⟩ 1 2 = 3 by decide] at b
  simp only [InExt, Constr.span] at c
  ticks

/-! ## C137 -/

/-- C137. A request which is not interrupted computes what the request computes, and the schedules on the way differ by one write at a time and
end with the one which it leaves. -/
theorem C137_writes (dbg : Bool) (s : Sched) (r : Req) :
    (r.runT dbg s).res = r.run dbg s ∧ Linked SchedWrite s (r.runT dbg s).steps ∧
      ∀ s' o, r.run dbg s = .ok (s', o) → s' = (s :: (r.runT dbg s).steps).getLast (by simp) :=
  ⟨(crash_results s.graph s.graph ⟨0, 0, false, 0, 0⟩ none [] dbg s r).2.2.2, (crash_writes s.graph ⟨0, 0, false, 0, 0⟩ none [] dbg s r).2.2⟩

/-- C137. Wherever a request to a scheduler is interrupted, after any history, the schedule has its instants, its slots have lost only dates,
and the solutions which satisfy the request are still solutions. -/
theorem C137_request {dbg : Bool} {g : Graph} (hv : Valid g) (hs : Spanned g) {s : Sched} {P : (Nat → Int) → Prop}
    (h : Planned dbg g s P) {r : Req} (hr : r.Proper g.size) {x : Sched} (hx : x ∈ (r.runT dbg s).steps) :
    (∀ i, i < g.size → ∃ w, x.scheduling i = some w) ∧
    (∀ i t w, x.scheduling i = some w → InExtSet t w → ∃ v, s.scheduling i = some v ∧ InExtSet t v) ∧
    ∀ τ, FiniteDates g.size τ → Sat τ g → P τ → r.Allows g.size τ → ∀ i, i < g.size → ∃ w, x.scheduling i = some w ∧ InExtSet (τ i) w := by
  obtain ⟨e0, hl, hp⟩ := planned_inv hv hs h
  subst e0
  have m := runT_mid dbg hv hs hl hr x hx
  refine ⟨fun i hi => ?_, fun i t w e a => m.sub i t ⟨w, e, a⟩, fun τ f a p q i hi => ?_⟩
  · have : i < x.schedule.length := by rw [m.loose.1, m.graph]; exact hi
    exact ⟨_, List.getElem?_eq_getElem this⟩
  · exact (m.keep τ f ((hp τ f).2 ⟨a, p⟩) q).2 i (by rw [m.graph]; exact hi)

/-- C137. After any history with requests interrupted at any point, the solutions of the schedule in finite dates are between those of the
graph which satisfy all that was asked and those which satisfy all that was accepted. -/
theorem C137_history {dbg : Bool} {g : Graph} (hv : Valid g) (hs : Spanned g) {s : Sched} {P Q : (Nat → Int) → Prop}
    (h : Endured dbg g s P Q) {τ : Nat → Int} (hτ : FiniteDates g.size τ) (hg : Sat τ g) :
    (Q τ → ∀ i, i < g.size → ∃ w, s.scheduling i = some w ∧ InExtSet (τ i) w) ∧
    ((∀ i, i < g.size → ∃ w, s.scheduling i = some w ∧ InExtSet (τ i) w) → P τ) := by
  obtain ⟨e, -, m⟩ := endured_mid hv hs h
  subst e
  exact ⟨fun q => ((m τ hτ).1 ⟨hg, q⟩).2, fun a => ((m τ hτ).2 ⟨hg, a⟩).2⟩

/-- C137. After such a history, in a release build, a request compatible with the graph and all that was asked is accepted, without panic; in
any build, one which is refused is incompatible with it and changes nothing. -/
theorem C137_next {dbg : Bool} {g : Graph} (hv : Valid g) (hs : Spanned g) {s : Sched} {P Q : (Nat → Int) → Prop}
    (h : Endured dbg g s P Q) {r : Req} (hr : r.Proper g.size) :
    (dbg = false → (∃ τ, FiniteDates g.size τ ∧ Sat τ g ∧ Q τ ∧ r.Allows g.size τ) →
      ∃ s' o, r.run dbg s = .ok (s', o) ∧ (o = .unchanged ∨ o = .propagated)) ∧
    (∀ s' o, r.run dbg s = .ok (s', o) → o = .recovered ∨ o = .fatal →
      s' = s ∧ ¬ ∃ τ, FiniteDates g.size τ ∧ Sat τ g ∧ Q τ ∧ r.Allows g.size τ) := by
  obtain ⟨e0, hl, m⟩ := endured_mid hv hs h
  subst e0
  have tr : (∃ τ, FiniteDates s.graph.size τ ∧ Sat τ s.graph ∧ Q τ ∧ r.Allows s.graph.size τ) →
      ∃ τ, FiniteDates s.graph.size τ ∧ Feasible τ s ∧ r.Allows s.graph.size τ :=
    fun ⟨τ, a, b, c, d⟩ => ⟨τ, a, (m τ a).1 ⟨b, c⟩, d⟩
  rcases req_any dbg hv hs hl hr with ⟨s1, o1, e1, S⟩ | ⟨e1, n⟩ | ⟨d1, e1⟩
  · refine ⟨fun _ c => ⟨s1, o1, e1, ?_⟩, fun s' o e ho => ?_⟩
    · have f := S.fatal
      cases o1 with
      | unchanged => exact Or.inl rfl
      | propagated => exact Or.inr rfl
      | recovered => exact absurd (tr c) (S.refused rfl).2
      | fatal => exact absurd rfl f
    · rw [e1] at e
      cases e
      have := S.refused (ho.resolve_right S.fatal)
      exact ⟨this.1, fun c => this.2 (tr c)⟩
  · exact ⟨fun _ c => absurd (tr c) n, fun s' o e => by rw [e1] at e; cases e⟩
  · exact ⟨fun d => (by rw [d1] at d; cases d), fun s' o e => (by rw [e1] at e; cases e)⟩

/-- the dates −1, 2 and 5 -/
def crashDates : Nat → Int
  | 0 => -1
  | 1 => 2
  | _ => 5

/-- C137: a request which panics is not undone. On the schedule of `C90_violated`, the deadline 1 makes `set_deadline` panic, and the
dates −1, 2 and 5 of the three instants, which are a solution of the schedule before, are not a solution of the schedule it leaves. -/
theorem C137_undone_violated (dbg : Bool) : callAll dbg (Sched.new exDelays) exSets = .ok (exSetsAfter, exSets) ∧
    exSetsAfter.setDeadline dbg 1 = .error .unwrapNone ∧
    ∃ x, (exSetsAfter.setDeadlineT dbg 1).steps.getLast? = some x ∧ Feasible crashDates exSetsAfter ∧ ¬ Feasible crashDates x := by
  refine ⟨exSets_run dbg, by cases dbg <;> decide +kernel, ⟨exDelays, [[⟨-4, -1⟩], [⟨0, 1⟩], [⟨5, 5⟩]]⟩, by cases dbg <;> decide +kernel,
    ⟨(sat_iff exDelays_valid _).2 ?_, fun i hi => ?_⟩, fun h => ?_⟩
  · have : ∀ i j : Fin 3, mat exDelays i j = -INF ∨ mat exDelays i j ≤ crashDates j - crashDates i := by decide
    exact fun i hi j hj => this ⟨i, hi⟩ ⟨j, hj⟩
  · match i, hi with
    | 0, _ => exact ⟨_, rfl, by decide⟩
    | 1, _ => exact ⟨_, rfl, by decide⟩
    | 2, _ => exact ⟨_, rfl, by decide⟩
  · obtain ⟨w, e, h⟩ := h.2 1 (by decide)
    cases e
    revert h
    decide

/-! ## Examples -/

/-- an interrupted `propagate` with two writes behind it, then a batch whose iterator panics, then an interrupted batch -/
example : ∃ g P Q, Survived 3 g P Q ∧ g.size = 3 ∧ (∃ τ, Representable 3 τ ∧ Q τ) ∧ ¬ P (fun _ => 0) := by
  have a0 : Survived 3 ⟨2, [0, -INF, 0, -INF]⟩ _ _ := .new (n := 2) (by decide) (by decide +kernel)
  have a1 : Survived 3 ⟨2, [0, -5, 0, 2]⟩ _ _ := a0.accepted (k := ⟨0, 1, false, 2, 5⟩) (o := .propagated)
    (by unfold Ordinary Batchable WithinK; decide) (by decide +kernel) (Or.inr rfl)
  have a2 : Survived 3 ⟨3, [0, -5, 0, 2, -INF, -INF, 0, 1, -INF]⟩ _ _ := a1.cutPropagate (k := ⟨1, 2, false, 1, 4⟩)
    (by unfold Ordinary Batchable WithinK; decide) (by decide +kernel)
  have a3 : Survived 3 ⟨3, [0, -5, 0, 2, -9, -INF, 0, 1, -INF]⟩ _ _ := a2.cutIterator (ks := [⟨0, 2, false, -INF, 9⟩])
    (by unfold Ordinary Batchable WithinK; decide) (by decide +kernel)
  have a4 : Survived 3 ⟨3, [0, -5, 0, 3, -9, -6, 0, 1, 4]⟩ _ _ := a3.cutExtend (hint := none) (ks := [⟨0, 1, false, 3, 9⟩])
    (by unfold Ordinary Batchable WithinK; decide) (by decide +kernel)
  refine ⟨_, _, _, a4, rfl, ⟨fun i => (i : Int) * 4, ?_, ?_⟩, ?_⟩
  · have : ∀ i j : Fin 3, -INF < ((j : Nat) : Int) * 4 - ((i : Nat) : Int) * 4 ∧ ((j : Nat) : Int) * 4 - ((i : Nat) : Int) * 4 < INF := by
      decide
    exact fun i j hi hj => this ⟨i, hi⟩ ⟨j, hj⟩
  · refine ⟨⟨⟨⟨trivial, ?_⟩, ?_⟩, ?_⟩, ?_⟩
    · unfold Holds; decide
    · unfold Holds; decide
    · unfold Holds; decide
    · unfold Holds; decide
  · rintro ⟨⟨-, h⟩, -⟩
    revert h
    unfold Holds
    decide

/-- an interrupted window, then a deadline which panics, then a window -/
example : ∃ s P Q, Endured true exDelays s P Q ∧ Valid exDelays ∧ Spanned exDelays ∧ s.schedule.length = 3 := by
  have a0 := Endured.new (dbg := true) (g := exDelays)
  have a1 : Endured true exDelays ⟨exDelays, [[⟨0, 9⟩], [⟨2, 14⟩], [Iv.all]]⟩ _ _ := a0.cut (r := .retain 0 (.conv (.iv ⟨0, 9⟩)))
    (by unfold Req.Proper; decide) (by unfold Req.runT; decide +kernel)
  have a2 : Endured true exDelays ⟨exDelays, [[⟨0, 6⟩], [⟨2, 11⟩], [⟨5, 14⟩]]⟩ _ _ := a1.cut (r := .deadline 6)
    (by unfold Req.Proper; decide) (by unfold Req.runT; decide +kernel)
  exact ⟨_, _, _, a2, exDelays_valid, spanned_of_sat exDelays_minimal.1 (by decide) exDelays_within, rfl⟩

-- the hypotheses of C136 and C137 on single calls are met
example : ∃ g P k x, Built 3 g P ∧ Ordinary 3 k ∧ x ∈ (g.propagateT k).steps ∧ x ≠ g := by
  have a0 : Built 3 ⟨2, [0, -INF, 0, -INF]⟩ _ := .new (n := 2) (by decide) (by decide +kernel)
  exact ⟨_, _, ⟨0, 1, false, 2, 5⟩, ⟨2, [0, -INF, 0, 2]⟩, a0, by unfold Ordinary Batchable WithinK; decide, by decide +kernel, by decide⟩
example : ∃ g h P Q x, Built 3 g P ∧ Built 3 h Q ∧ x ∈ (g.mergeT h).steps ∧ x ≠ g ∧ x ≠ h := by
  have a0 : Built 3 ⟨2, [0, -INF, 0, -INF]⟩ _ := .new (n := 2) (by decide) (by decide +kernel)
  have a1 : Built 3 ⟨2, [0, -5, 0, 2]⟩ _ := a0.accepted (k := ⟨0, 1, false, 2, 5⟩) (o := .propagated)
    (by unfold Ordinary Batchable WithinK; decide) (by decide +kernel) (Or.inr rfl)
  have b1 : Built 3 ⟨2, [0, -4, 0, 1]⟩ _ := a0.accepted (k := ⟨0, 1, false, 1, 4⟩) (o := .propagated)
    (by unfold Ordinary Batchable WithinK; decide) (by decide +kernel) (Or.inr rfl)
  exact ⟨_, _, _, _, ⟨2, [0, -4, 0, 2]⟩, a1, b1, by decide +kernel, by decide, by decide⟩
example : ∃ g P, Built 3 g P ∧ Ordinary 3 ⟨0, 1, false, 2, 5⟩ ∧ Ordinary 3 ⟨1, 2, false, 3, 9⟩ ∧ g.size = 3 := by
  have a0 : Built 3 ⟨3, [0, -INF, 0, -INF, -INF, -INF, 0, -INF, -INF]⟩ _ := .new (n := 3) (by decide) (by decide +kernel)
  exact ⟨_, _, a0, by unfold Ordinary Batchable WithinK; decide, by unfold Ordinary Batchable WithinK; decide, rfl⟩
example := C137_request (dbg := false) exDelays_valid (spanned_of_sat exDelays_minimal.1 (by decide) exDelays_within)
  (Planned.new (dbg := false) (g := exDelays)) (r := .remove 1 (.iv ⟨3, 4⟩)) (by unfold Req.Proper; decide)
  (x := ⟨exDelays, [[Iv.all], [⟨-INF, 2⟩, ⟨5, INF⟩], [Iv.all]]⟩) (by unfold Req.runT; decide +kernel)

end Chrono
