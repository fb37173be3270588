import Verif.Lemmas.Steady
import Verif.Props.MirrorSched

/-!
# The way a graph has been built does not matter (C129)
-/

namespace Chrono
open Spec

theorem steady_grown {N : Nat} {W : Int} {g : Graph} {P : (Nat → Int) → Prop} (h : SInv N W g P) {n : Nat} (hn : g.size ≤ n) (hn' : n ≤ 65535) :
    ∃ M : Mat, Closed n M ∧ (∀ τ, MSat n M τ ↔ P τ) ∧ (∀ i j, i < g.size → j < g.size → M i j = mat g i j) ∧
      ∀ i j, i < n → j < n → i ≠ j → (g.size ≤ i ∨ g.size ≤ j) → M i j = -INF := by
  obtain ⟨x, -, -, -, -, a5⟩ := grow (tidy_clean h.tidy) (n := n) (by omega)
  refine ⟨mat x, grow_closed a5 h.closed, fun τ => by rw [grow_sat hn a5, h.sat], fun i j hi hj => ?_, fun i j hi hj hij ho => ?_⟩
  · rw [a5 i j (by omega) (by omega), if_pos ⟨hi, hj⟩]
  · rw [a5 i j hi hj, if_neg (by omega), if_neg hij]

theorem same_spans {N : Nat} {W : Int} {g g' : Graph} {P P' : (Nat → Int) → Prop} (h : SInv N W g P) (h' : SInv N W g' P')
    (he : ∀ τ, P τ ↔ P' τ) (hl : g.size ≤ g'.size) {i j : Nat} (hij : i ≠ j) : g.timespan i j = g'.timespan i j := by
  obtain ⟨M, c, s, a, b⟩ := steady_grown h hl h'.valid.1
  have u : ∀ {i j}, i < g'.size → j < g'.size → M i j = mat g' i j := fun hi hj =>
    c.unique h'.closed (fun τ => by rw [s, h'.sat, he]) hi hj
  by_cases c1 : i < g.size ∧ j < g.size
  · rw [timespan_eq h.valid c1.1 c1.2, timespan_eq h'.valid (by omega) (by omega), ← u (by omega) (by omega), ← u (by omega) (by omega),
      a i j c1.1 c1.2, a j i c1.2 c1.1]
  · rw [timespan_out (by omega)]
    by_cases c2 : i < g'.size ∧ j < g'.size
    · rw [timespan_eq h'.valid c2.1 c2.2, ← u c2.1 c2.2, ← u c2.2 c2.1, b i j c2.1 c2.2 hij (by omega), b j i c2.2 c2.1 (Ne.symm hij) (by omega)]
      rfl
    · rw [timespan_out (by omega)]

/-- C129: two histories leave graphs which announce the same delays if and only if they have the same solutions. (The delays to an instant which
only one of the graphs has are not constrained.) -/
theorem C129_graph_partial {N : Nat} (hN : 0 < N) (hN' : N ≤ 65535) {W : Int} (hW : 0 ≤ W) (hB : 3 * (N : Int) * (N * W) < INF)
    {g g' : Graph} {P P' : (Nat → Int) → Prop} (h : Steady N W g P) (h' : Steady N W g' P') :
    (∀ τ, P τ ↔ P' τ) ↔ ∀ i j, i ≠ j → g.timespan i j = g'.timespan i j := by
  have i1 := steady_inv hN' hN hW hB h
  have i2 := steady_inv hN' hN hW hB h'
  constructor
  · intro he i j hij
    rcases Nat.le_total g.size g'.size with c | c
    · exact same_spans i1 i2 he c hij
    · exact (same_spans i2 i1 (fun τ => (he τ).symm) c hij).symm
  · have key : ∀ {g g' : Graph} {P P' : (Nat → Int) → Prop}, SInv N W g P → SInv N W g' P' →
        (∀ i j, i ≠ j → g.timespan i j = g'.timespan i j) → ∀ τ, P τ → P' τ := by
      intro g g' P P' i1 i2 he τ p
      rw [← i2.sat]
      intro i hi j hj
      by_cases d : i = j
      · subst d
        right
        rw [i2.closed.diag i hi]
        omega
      · have e := he i j d
        rw [timespan_eq i2.valid hi hj] at e
        by_cases c : i < g.size ∧ j < g.size
        · rw [timespan_eq i1.valid c.1 c.2] at e
          have e : mat g i j = mat g' i j := congrArg Iv.lower (Except.ok.inj e)
          rw [← e]
          exact (i1.sat τ).2 p i c.1 j c.2
        · rw [timespan_out (by omega)] at e
          left
          exact (congrArg Iv.lower (Except.ok.inj e)).symm
    exact fun he τ => ⟨key i1 i2 he τ, key i2 i1 (fun i j d => (he i j d).symm) τ⟩

/-- C129: and then they answer alike to the next constraint (between instants of both), batch or merge, without a panic. -/
theorem C129_next_partial {N : Nat} (hN : 0 < N) (hN' : N ≤ 65535) {W : Int} (hW : 0 ≤ W) (hB : 3 * (N : Int) * (N * W) < INF)
    {g g' : Graph} {P P' : (Nat → Int) → Prop} (h : Steady N W g P) (h' : Steady N W g' P') (he : ∀ τ, P τ ↔ P' τ) :
    (∀ k, Usable g.size W k → Usable g'.size W k → ∃ x x' o, g.propagate k = .ok (x, o) ∧ g'.propagate k = .ok (x', o) ∧
      ∀ i j, i ≠ j → x.timespan i j = x'.timespan i j) ∧
    (∀ ks hint, (∀ k ∈ ks, Batchable N W k) → hint ≠ some 0 → hint ≠ some 1 →
      ∃ x x' o, g.extend hint ks = .ok (x, o) ∧ g'.extend hint ks = .ok (x', o) ∧ ∀ i j, i ≠ j → x.timespan i j = x'.timespan i j) ∧
    (∀ m Q, Steady N W m Q → ∃ x o x' o', g.merge m = .ok (x, o) ∧ g'.merge m = .ok (x', o') ∧ (o = .fatal ↔ o' = .fatal) ∧
      ∀ i j, i ≠ j → x.timespan i j = x'.timespan i j) := by
  have i1 := steady_inv hN' hN hW hB h
  have i2 := steady_inv hN' hN hW hB h'
  have same := (C129_graph_partial hN hN' hW hB h h').1 he
  have spans : ∀ {x x' : Graph} {P P' : (Nat → Int) → Prop}, SInv N W x P → SInv N W x' P' → (∀ τ, P τ ↔ P' τ) →
      ∀ i j, i ≠ j → x.timespan i j = x'.timespan i j := by
    intro x x' P P' a b e i j d
    rcases Nat.le_total x.size x'.size with c | c
    · exact same_spans a b e c d
    · exact (same_spans b a (fun τ => (e τ).symm) c d).symm
  have none : ∀ {x x' : Graph}, x.size = 0 → x'.size = 0 → ∀ i j, i ≠ j → x.timespan i j = x'.timespan i j := by
    intro x x' a b i j _
    rw [timespan_out (by omega), timespan_out (by omega)]
  refine ⟨fun k u u' => ?_, fun ks hint hk h0 h1 => ?_, fun m Q hm => ?_⟩
  · obtain ⟨x, o, e, nf, -, r, a, n⟩ := sinv_propagate hW hN hB i1 u
    obtain ⟨x', o', e', nf', -, r', a', n'⟩ := sinv_propagate hW hN hB i2 u'
    have ho : o = o' := by
      have q : (o = .unchanged ↔ o' = .unchanged) := by
        rw [n, n']
        exact ⟨fun t τ p => t τ ((he τ).2 p), fun t τ p => t τ ((he τ).1 p)⟩
      have r1 : o = .recovered → o' = .recovered := fun c => by
        by_cases c' : o' = .recovered
        · exact c'
        · obtain ⟨τ, t⟩ := (a' c').closed.sat
          have t := ((a' c').sat τ).1 t
          exact absurd t.2 ((r c).2 τ ((he τ).2 t.1))
      have r2 : o' = .recovered → o = .recovered := fun c => by
        by_cases c' : o = .recovered
        · exact c'
        · obtain ⟨τ, t⟩ := (a c').closed.sat
          have t := ((a c').sat τ).1 t
          exact absurd t.2 ((r' c).2 τ ((he τ).1 t.1))
      revert nf nf' q r1 r2
      cases o <;> cases o' <;> simp
    subst ho
    refine ⟨x, x', o, e, e', ?_⟩
    by_cases c : o = .recovered
    · rw [(r c).1, (r' c).1]
      exact same
    · exact spans (a c) (a' c) (fun τ => by rw [he])
  · rcases sinv_extend hN' hW hN hB i1 hk h0 h1 with ⟨x, e, -, a⟩ | ⟨x, e, a⟩ <;>
      rcases sinv_extend hN' hW hN hB i2 hk h0 h1 with ⟨x', e', -, a'⟩ | ⟨x', e', a'⟩
    · exact ⟨x, x', _, e, e', spans a a' (fun τ => by rw [he])⟩
    · obtain ⟨τ, t⟩ := a.closed.sat
      have t := (a.sat τ).1 t
      exact absurd ⟨(he τ).1 t.1, t.2⟩ (a' τ)
    · obtain ⟨τ, t⟩ := a'.closed.sat
      have t := (a'.sat τ).1 t
      exact absurd ⟨(he τ).2 t.1, t.2⟩ (a τ)
    · exact ⟨x, x', _, e, e', none (extend_fatal_size e) (extend_fatal_size e')⟩
  · have i3 := steady_inv hN' hN hW hB hm
    obtain ⟨x, o, e, -, f, a⟩ := sinv_merge hW hN hB i1 i3
    obtain ⟨x', o', e', -, f', a'⟩ := sinv_merge hW hN hB i2 i3
    have ho : o = .fatal ↔ o' = .fatal := by
      rw [f, f']
      exact ⟨fun n ⟨τ, t⟩ => n ⟨τ, (he τ).2 t.1, t.2⟩, fun n ⟨τ, t⟩ => n ⟨τ, (he τ).1 t.1, t.2⟩⟩
    refine ⟨x, o, x', o', e, e', ho, ?_⟩
    by_cases c : o = .fatal
    · have c' := ho.1 c
      subst c
      subst c'
      exact none (merge_fatal_size e) (merge_fatal_size e')
    · exact spans (a c).2 (a' fun d => c (ho.2 d)).2 (fun τ => by rw [he])

/-! ## Schedulers -/

theorem same_mat {g g' : Graph} (hv : Valid g) (hv' : Valid g') (h : SameGraph g g') {i j : Nat} (hi : i < g.size) (hj : j < g.size) :
    mat g' i j = mat g i j := by
  have e := h.2 i j
  rw [timespan_eq hv hi hj, timespan_eq hv' (by rw [← h.1]; exact hi) (by rw [← h.1]; exact hj)] at e
  exact (congrArg Iv.lower (Except.ok.inj e)).symm

theorem same_loop {g g' : Graph} (hv : Valid g) (hv' : Valid g') (h : SameGraph g g') {i : Nat} (hi : i < g.size) :
    ∀ m j, g.size - j = m → g'.fromLoop i j = g.fromLoop i j ∧ ∀ s, g.fromLoop i j = .ok s → s.1 < g.size → s.1 = i ∧ s.2 < g.size := by
  intro m
  induction m with
  | zero =>
    intro j hm
    unfold Graph.fromLoop
    rw [← h.1, dif_pos (by omega), dif_pos (by omega)]
    exact ⟨rfl, fun s h => nomatch h⟩
  | succ m ih =>
    intro j hm
    have ih := ih (j + 1) (by omega)
    unfold Graph.fromLoop
    rw [← h.1, dif_neg (by omega), dif_neg (by omega)]
    by_cases c1 : j + 1 = g.size
    · rw [if_pos c1, if_pos c1]
      exact ⟨rfl, fun s h hs => by cases h; exact absurd hs (Nat.lt_irrefl _)⟩
    · rw [if_neg c1, if_neg c1]
      by_cases c2 : i ≠ j + 1
      · rw [if_pos c2, if_pos c2]
        have : g'.related i (j + 1) = g.related i (j + 1) := by
          rw [related_eq hv' (by rw [← h.1]; exact hi) (by rw [← h.1]; omega), related_eq hv hi (by omega)]
          congr 1
          rw [decide_eq_decide]
          unfold Rel
          rw [same_mat hv hv' h hi (by omega), same_mat hv hv' h (by omega) hi]
        rw [this]
        cases g.related i (j + 1) with
        | error e => exact ⟨rfl, fun s h => nomatch h⟩
        | ok b =>
          cases b with
          | true => exact ⟨rfl, fun s h _ => by cases h; exact ⟨rfl, by show j + 1 < _; omega⟩⟩
          | false => exact ih
      · rw [if_neg c2, if_neg c2]
        exact ih

theorem same_from {g g' : Graph} (hv : Valid g) (hv' : Valid g') (h : SameGraph g g') :
    ∀ f (s : Nat × Nat), (s.1 < g.size → s.2 < g.size) → Graph.runIter g'.fromNext f s = Graph.runIter g.fromNext f s := by
  intro f
  induction f with
  | zero => intro s _; rfl
  | succ f ih =>
    intro s hs
    have next : g'.fromNext s = g.fromNext s ∧ ∀ k s', g.fromNext s = .ok (some k, s') → s'.1 < g.size → s'.2 < g.size := by
      unfold Graph.fromNext
      rw [← h.1]
      by_cases c : s.1 ≥ g.size
      · rw [if_pos c, if_pos c]
        exact ⟨rfl, fun k s' e => nomatch e⟩
      · rw [if_neg c, if_neg c]
        have h2 := hs (by omega)
        obtain ⟨l1, l2⟩ := same_loop hv hv' h (i := s.1) (by omega) _ s.2 rfl
        have v : g'.view s.1 s.2 = g.view s.1 s.2 := by
          rw [view_eq hv' (by rw [← h.1]; omega) (by rw [← h.1]; exact h2), view_eq hv (by omega) h2]
          unfold viewOf
          rw [same_mat hv hv' h (by omega) h2, same_mat hv hv' h h2 (by omega)]
        rw [v, l1, view_eq hv (by omega) h2]
        refine ⟨rfl, fun k s' e => ?_⟩
        cases e' : g.fromLoop s.1 s.2 with
        | error => rw [e'] at e; cases e
        | ok x =>
          rw [e'] at e
          cases e
          exact fun c => (l2 _ e' c).2
    unfold Graph.runIter
    rw [next.1]
    cases e : g.fromNext s with
    | error => rfl
    | ok p =>
      obtain ⟨k, s'⟩ := p
      cases k with
      | none => rfl
      | some k =>
        simp only [ok_bind]
        rw [ih s' (next.2 k s' e)]

/-- the same schedule, over another graph -/
def onGraph (g : Graph) (s : Sched) : Sched := ⟨g, s.schedule⟩

theorem sset_length {d d' : List TSet} {k : Nat} {v : TSet} (h : sset d k v = .ok d') : d'.length = d.length := by
  unfold sset at h
  split at h
  · cases h; exact List.length_set
  · cases h

theorem oneStep_length {dbg : Bool} {i : Nat} {sch sch' : List TSet} {k : Constr} (h : Sched.propagateOne dbg i sch k = .ok sch') :
    sch'.length = sch.length := by
  unfold Sched.propagateOne at h
  cases e1 : sget sch k.dst with
  | error => rw [e1] at h; cases h
  | ok a =>
    cases e2 : sget sch i with
    | error => rw [e1, e2] at h; cases h
    | ok b =>
      rw [e1, e2, ok_bind, ok_bind] at h
      cases e3 : TSet.addSpan dbg b k.span with
      | error => rw [e3] at h; cases h
      | ok t =>
        rw [e3, ok_bind] at h
        cases e4 : TSet.inter a t with
        | error => rw [e4] at h; cases h
        | ok r =>
          rw [e4, ok_bind] at h
          exact sset_length h

theorem loop_length {dbg : Bool} {i : Nat} : ∀ (ks : List Constr) {sch sch' : List TSet},
    ks.foldlM (Sched.propagateOne dbg i) sch = .ok sch' → sch'.length = sch.length
  | [], sch, sch', h => by cases h; rfl
  | k :: ks, sch, sch', h => by
    rw [List.foldlM_cons] at h
    cases e : Sched.propagateOne dbg i sch k with
    | error => rw [e] at h; cases h
    | ok s1 =>
      rw [e, ok_bind] at h
      rw [loop_length ks h, oneStep_length e]

theorem same_retain (dbg : Bool) {g g' : Graph} (hv : Valid g) (hv' : Valid g') (h : SameGraph g g') {s : Sched} (hs : s.graph = g)
    (hl : s.schedule.length = g.size) (i : Nat) (w : Window) :
    (onGraph g' s).retain dbg i w = Except.map (fun p => (onGraph g' p.1, p.2)) (s.retain dbg i w) ∧
    ∀ p, s.retain dbg i w = .ok p → p.1.graph = g ∧ p.1.schedule.length = g.size := by
  unfold Sched.retain
  show (if i < s.schedule.length then _ else _) = _ ∧ _
  by_cases c : i < s.schedule.length
  · rw [if_pos c, if_pos c]
    show (sget s.schedule i >>= _) = _ ∧ _
    cases e1 : sget s.schedule i with
    | error => exact ⟨rfl, fun p h => nomatch h⟩
    | ok si =>
      simp only [ok_bind]
      by_cases c1 : w.containsSet si = true
      · rw [if_pos c1, if_pos c1]
        exact ⟨rfl, fun p e => by cases e; exact ⟨hs, hl⟩⟩
      rw [if_neg c1, if_neg c1]
      by_cases c2 : (!w.overlapsSet si) = true
      · rw [if_pos c2, if_pos c2]
        exact ⟨rfl, fun p e => by cases e; exact ⟨hs, hl⟩⟩
      rw [if_neg c2, if_neg c2]
      cases e2 : w.restrict si with
      | error => exact ⟨rfl, fun p h => nomatch h⟩
      | ok r =>
        simp only [ok_bind]
        show (sset s.schedule i r >>= _) = _ ∧ _
        cases e3 : sset s.schedule i r with
        | error => exact ⟨rfl, fun p h => nomatch h⟩
        | ok sch =>
          simp only [ok_bind]
          unfold Sched.propagateScheduling
          have e4 : g'.constraintsFrom i = g.constraintsFrom i := by
            unfold Graph.constraintsFrom
            rw [← h.1]
            exact same_from hv hv' h _ (i, 0) (fun _ => by show 0 < g.size; omega)
          simp only [onGraph, hs, e4]
          cases e5 : g.constraintsFrom i with
          | error => exact ⟨rfl, fun p h => nomatch h⟩
          | ok ks =>
            simp only [ok_bind]
            cases e6 : ks.foldlM (Sched.propagateOne dbg i) sch with
            | error => exact ⟨rfl, fun p h => nomatch h⟩
            | ok sch' =>
              refine ⟨rfl, fun p e => ?_⟩
              cases e
              exact ⟨rfl, by rw [← hl, ← sset_length e3, ← loop_length ks e6]⟩
  · rw [if_neg c, if_neg c]
    exact ⟨rfl, fun p h => nomatch h⟩

theorem same_retainAll (dbg : Bool) {g g' : Graph} (hv : Valid g) (hv' : Valid g') (h : SameGraph g g') (w : Window) (is : List Nat) :
    ∀ (p : Sched × Outcome), p.1.graph = g → p.1.schedule.length = g.size →
    let f := fun (p : Sched × Outcome) i => do
      match ← Sched.retain dbg p.1 i w with
      | (s, .unchanged) => return (s, p.2)
      | (s, .propagated) => return (s, Outcome.propagated)
      | _ => Except.error Panic.unwrapNone
    is.foldlM f (onGraph g' p.1, p.2) = Except.map (fun p => (onGraph g' p.1, p.2)) (is.foldlM f p) ∧
    ∀ q, is.foldlM f p = .ok q → q.1.graph = g ∧ q.1.schedule.length = g.size := by
  induction is with
  | nil => exact fun p hp hl => ⟨rfl, fun q e => by cases e; exact ⟨hp, hl⟩⟩
  | cons i is ih =>
    intro p hp hl
    obtain ⟨a, b⟩ := same_retain dbg hv hv' h hp hl i w
    simp only [List.foldlM_cons]
    rw [a]
    cases e : p.1.retain dbg i w with
    | error => exact ⟨rfl, fun q h => nomatch h⟩
    | ok x =>
      obtain ⟨s, o⟩ := x
      obtain ⟨b1, b2⟩ := b _ e
      cases o with
      | unchanged => exact ih (s, p.2) b1 b2
      | propagated => exact ih (s, .propagated) b1 b2
      | recovered => exact ⟨rfl, fun q h => nomatch h⟩
      | fatal => exact ⟨rfl, fun q h => nomatch h⟩

theorem same_run (dbg : Bool) {g g' : Graph} (hv : Valid g) (hv' : Valid g') (h : SameGraph g g') {s : Sched} (hs : s.graph = g)
    (hl : s.schedule.length = g.size) (q : Req) :
    q.run dbg (onGraph g' s) = Except.map (fun p => (onGraph g' p.1, p.2)) (q.run dbg s) ∧
    ∀ p, q.run dbg s = .ok p → p.1.graph = g ∧ p.1.schedule.length = g.size := by
  cases q with
  | retain i w => exact same_retain dbg hv hv' h hs hl i w
  | remove i w => exact same_retain dbg hv hv' h hs hl i _
  | deadline d =>
    simp only [Req.run, Sched.setDeadline]
    show (if s.schedule.any _ = true then _ else _) = _ ∧ _
    split
    · exact ⟨rfl, fun p e => by cases e; exact ⟨hs, hl⟩⟩
    · exact same_retainAll dbg hv hv' h _ _ (s, .unchanged) hs hl
  | startline d =>
    simp only [Req.run, Sched.setStartline]
    show (if s.schedule.any _ = true then _ else _) = _ ∧ _
    split
    · exact ⟨rfl, fun p e => by cases e; exact ⟨hs, hl⟩⟩
    · exact same_retainAll dbg hv hv' h _ _ (s, .unchanged) hs hl

theorem same_plan {g g' : Graph} (hv : Valid g) (hv' : Valid g') (h : SameGraph g g') : ∀ (l : List Req) (s : Sched), s.graph = g →
    s.schedule.length = g.size →
    plan (onGraph g' s) l = Except.map (fun p => (onGraph g' p.1, p.2)) (plan s l) ∧
    planR (onGraph g' s) l = Except.map (fun p => (onGraph g' p.1, p.2)) (planR s l) := by
  intro l
  induction l with
  | nil => exact fun s _ _ => ⟨rfl, rfl⟩
  | cons q l ih =>
    intro s hs hl
    constructor
    · obtain ⟨a, b⟩ := same_run true hv hv' h hs hl q
      unfold plan
      rw [a]
      cases e : q.run true s with
      | error => rfl
      | ok p =>
        obtain ⟨b1, b2⟩ := b p e
        change (plan (onGraph g' p.1) l >>= _) = Except.map _ (plan p.1 l >>= _)
        rw [(ih p.1 b1 b2).1]
        cases plan p.1 l <;> rfl
    · obtain ⟨a, b⟩ := same_run false hv hv' h hs hl q
      unfold planR
      rw [req_eq (s := onGraph g' s) hv', req_eq (by rw [hs]; exact hv), a]
      cases e : q.run false s with
      | error => rfl
      | ok p =>
        obtain ⟨b1, b2⟩ := b p e
        change (planR (onGraph g' p.1) l >>= _) = Except.map _ (planR p.1 l >>= _)
        rw [(ih p.1 b1 b2).2]
        cases planR p.1 l <;> rfl

/-- C129 for schedulers: over two graphs which have the same instants and announce the same delays, the same requests get the same answers, or
panic the same way, and leave the same slots, in debug and release builds. -/
theorem C129_sched {g g' : Graph} (hv : Valid g) (hv' : Valid g') (h : SameGraph g g') (l : List Req) :
    plan (Sched.new g') l = Except.map (fun p => (⟨g', p.1.schedule⟩, p.2)) (plan (Sched.new g) l) ∧
    planR (Sched.new g') l = Except.map (fun p => (⟨g', p.1.schedule⟩, p.2)) (planR (Sched.new g) l) := by
  have e : Sched.new g' = onGraph g' (Sched.new g) := by
    unfold Sched.new onGraph
    rw [h.1]
  rw [e]
  exact same_plan hv hv' h l _ rfl (by simp [Sched.new])

/-- C129 for schedulers, from the histories: two histories with the same solutions leave graphs which, if they have the same number of instants,
are the same for every request. -/
theorem C129_requests_partial {N : Nat} (hN : 0 < N) (hN' : N ≤ 65535) {W : Int} (hW : 0 ≤ W) (hB : 3 * (N : Int) * (N * W) < INF)
    {g g' : Graph} {P P' : (Nat → Int) → Prop} (h : Steady N W g P) (h' : Steady N W g' P') (he : ∀ τ, P τ ↔ P' τ) (hs : g.size = g'.size)
    (l : List Req) :
    plan (Sched.new g') l = Except.map (fun p => (⟨g', p.1.schedule⟩, p.2)) (plan (Sched.new g) l) ∧
    planR (Sched.new g') l = Except.map (fun p => (⟨g', p.1.schedule⟩, p.2)) (planR (Sched.new g) l) := by
  have i1 := steady_inv hN' hN hW hB h
  have i2 := steady_inv hN' hN hW hB h'
  refine C129_sched i1.valid i2.valid ⟨hs, fun i j => ?_⟩ l
  by_cases d : i = j
  · subst d
    by_cases c : i < g.size
    · rw [timespan_eq i1.valid c c, timespan_eq i2.valid (by omega) (by omega), i1.closed.diag i c, i2.closed.diag i (by omega)]
    · rw [timespan_out (by omega), timespan_out (by omega)]
  · exact (C129_graph_partial hN hN' hW hB h h').1 he i j d

/-! ## Examples -/

/-- two histories with the same solutions: constraints one by one, the last of which is rejected, and a batch in another order -/
example : ∃ g g' P P', Steady 3 20 g P ∧ Steady 3 20 g' P' ∧ (∀ τ, P τ ↔ P' τ) ∧ g.size = g'.size ∧ g.timespan 0 2 = .ok ⟨5, 12⟩ := by
  have a0 : Steady 3 20 ⟨2, [0, -INF, 0, -INF]⟩ _ := .new (n := 2) (by decide) (by decide +kernel)
  have a1 : Steady 3 20 ⟨2, [0, -5, 0, 2]⟩ _ := a0.accepted (k := ⟨0, 1, false, 2, 5⟩) (o := .propagated)
    (by unfold Usable WithinK; decide) (by decide +kernel) (Or.inr rfl)
  have a2 : Steady 3 20 ⟨3, [0, -5, 0, 2, -INF, -INF, 0, -INF, -INF]⟩ _ := a1.grown (n := 3) (by decide) (by decide) (by decide +kernel)
  have a3 : Steady 3 20 ⟨3, [0, -5, 0, 2, -12, -7, 0, 3, 5]⟩ _ := a2.accepted (k := ⟨1, 2, false, 3, 7⟩) (o := .propagated)
    (by unfold Usable WithinK; decide) (by decide +kernel) (Or.inr rfl)
  have a4 : Steady 3 20 ⟨3, [0, -5, 0, 2, -12, -7, 0, 3, 5]⟩ _ := a3.rejected (k := ⟨2, 0, false, 1, 20⟩) (o := .recovered)
    (by unfold Usable WithinK; decide) (by decide +kernel) (Or.inl rfl)
  have b0 : Steady 3 20 ⟨0, []⟩ _ := .new (n := 0) (by decide) (by decide +kernel)
  have b1 : Steady 3 20 ⟨3, [0, -5, 0, 2, -12, -7, 0, 3, 5]⟩ _ :=
    b0.extended (hint := none) (ks := [⟨2, 1, false, -7, -3⟩, ⟨0, 1, false, 2, INF⟩, ⟨1, 0, false, -5, INF⟩]) (o := .propagated)
      (by unfold Batchable WithinK; decide) (by decide) (by decide) (by decide +kernel) (by decide)
  refine ⟨_, _, _, _, a4, b1, fun τ => ?_, rfl, by decide⟩
  simp only [Holds, InExt, List.forall_mem_cons, List.not_mem_nil, false_imp_iff, implies_true, true_and, and_true]
  ticks

example : 3 * ((3 : Nat) : Int) * ((3 : Nat) * 20) < INF := by decide

/-! ## The exception -/

/-- C129 is violated when a constraint links an old instant to a new one: giving it directly, or after having made room for the new instant, leads
to the same solutions, but as soon as something is known on the old instant the delays announced are not the same. -/
theorem C129_growth_violated {N : Nat} (hN : 0 < N) (hN' : N < 65535) {W : Int} (hW : 0 ≤ W) (hB : 3 * (N : Int) * (N * W) < INF)
    {g : Graph} {P : (Nat → Int) → Prop} (h : Steady N W g P) {k : Constr} (hk : Usable N W k) (he : k.isEmpty = false) (hs : k.src < g.size)
    (hd : g.size ≤ k.dst) (h1 : k.lower ≠ -INF) {b : Nat} (hb : b < g.size) (hne : b ≠ k.src) {s : Iv} (e : g.timespan b k.src = .ok s)
    (h2 : s.lower ≠ -INF) :
    ∃ g1 x g2 s2, g.propagate k = .ok (g1, .propagated) ∧ g.resize (k.dst + 1) = .ok x ∧ x.propagate k = .ok (g2, .propagated) ∧
      g1.size = g2.size ∧ (∀ τ, Sat τ g1 ↔ P τ ∧ Holds τ k) ∧ (∀ τ, Sat τ g2 ↔ P τ ∧ Holds τ k) ∧
      g1.timespan b k.dst = .ok ⟨-INF, INF⟩ ∧ g2.timespan b k.dst = .ok s2 ∧ s.lower + k.lower ≤ s2.lower := by
  have i1 := steady_inv (by omega) hN hW hB h
  have cl := clean_iff.2 (tidy_clean i1.tidy)
  have mn := (minimal_iff i1.valid).2 i1.closed
  obtain ⟨k1, k2, k3⟩ := hk
  have k3 := k3 he
  obtain ⟨g1, p1, t1, l1, -⟩ := C64_deduction_violated i1.valid cl mn he k3.1 hs hd (by omega) hb hne e h1 h2
  obtain ⟨g1', p2, sat1, ⟨τ0, t0⟩, -⟩ := C64_growth_partial i1.valid cl mn he k3.1 (by omega) (by omega) (by omega)
  obtain ⟨g1'', p3, sz1, -, -⟩ := propagate_grow (tidy_clean i1.tidy) he (by omega) (by omega) (by omega)
  rw [p1] at p2 p3
  cases p2
  cases p3
  have satg : ∀ τ, Sat τ g ↔ P τ := fun τ => by rw [sat_iff i1.valid, i1.sat]
  obtain ⟨x, x1, x2, -, -, x5⟩ := grow (tidy_clean i1.tidy) (n := k.dst + 1) (by omega)
  have ix := sinv_grow (by omega) i1 (by omega) (by omega) x1
  obtain ⟨g2, o, q1, q2, q3, q4, q5, q6⟩ := sinv_propagate hW hN hB ix (k := k) ⟨by omega, by omega, fun _ => k3⟩
  have w := (sat1 τ0).1 t0
  have hr : o ≠ .recovered := fun c => (q4 c).2 τ0 ((satg _).1 w.1) w.2
  have i2 := q5 hr
  have sat2 : ∀ τ, Sat τ g2 ↔ P τ ∧ Holds τ k := fun τ => by rw [sat_iff i2.valid, i2.sat]
  have low : s.lower + k.lower ≤ mat g2 b k.dst := by
    have key : ∀ τ, MSat g2.size (mat g2) τ → s.lower + k.lower ≤ τ k.dst - τ b := fun τ t => by
      have := (i2.sat τ).1 t
      exact l1 τ ((sat1 τ).2 ⟨(satg τ).2 this.1, this.2⟩)
    by_cases c : mat g2 b k.dst = -INF
    · obtain ⟨τ, a1, a2⟩ := i2.closed.attain_below (by omega) (by omega) c (s.lower + k.lower)
      have := key τ a1
      omega
    · obtain ⟨τ, a1, a2⟩ := i2.closed.attain_lower (by omega) (by omega) c
      have := key τ a1
      omega
  have hu : o = .propagated := by
    have n : o ≠ .unchanged := fun c => by
      have all := q6.1 c
      have free : mat x k.src k.dst = -INF := by
        rw [x5 _ _ (by omega) (by omega), if_neg (by omega), if_neg (by omega)]
      obtain ⟨τ, a1, a2⟩ := ix.closed.attain_below (by omega) (by omega) free k.lower
      have := (all τ ((ix.sat τ).1 a1)).2.1
      simp only at this
      omega
    revert q2 hr n
    cases o <;> simp
  subst hu
  refine ⟨g1, x, g2, _, p1, x1, q1, by omega, fun τ => by rw [sat1, satg], sat2, t1, timespan_eq i2.valid (by omega) (by omega), low⟩

/-- a history after which the hypotheses are met: `2 ≤ t₁ - t₀ ≤ 5` is known, `3 ≤ t₂ - t₁ ≤ 7` is discovered -/
example : ∃ g P, Steady 3 20 g P ∧ g.size = 2 ∧ g.timespan 0 1 = .ok ⟨2, 5⟩ ∧ Usable 3 20 ⟨1, 2, false, 3, 7⟩ := by
  have a0 : Steady 3 20 ⟨2, [0, -INF, 0, -INF]⟩ _ := .new (n := 2) (by decide) (by decide +kernel)
  have a1 : Steady 3 20 ⟨2, [0, -5, 0, 2]⟩ _ := a0.accepted (k := ⟨0, 1, false, 2, 5⟩) (o := .propagated)
    (by unfold Usable WithinK; decide) (by decide +kernel) (Or.inr rfl)
  exact ⟨_, _, a1, rfl, by decide, by unfold Usable WithinK; decide⟩

end Chrono
