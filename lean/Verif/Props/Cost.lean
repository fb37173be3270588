import Verif.Lemmas.Cost
import Verif.Props.Crash
import Verif.Props.GraphIter

/-!
# How many writes the calls make (C140)

The writes are those recorded by `Model.Crash`; `crash_writes` shows that no write is left out. A change of the size of a graph counts for
one.
-/

namespace Chrono
open Spec

/-- C140. `propagate` between known instants writes at most twice the `n² + n` cells which the source announces, and the two bounds; with a
new instant, it makes three writes. -/
theorem C140_propagate (g : Graph) (k : Constr) :
    (k.src < g.size → k.dst < g.size → (g.propagateT k).steps.length ≤ 2 * (g.size * g.size + g.size + 1)) ∧
    (g.size ≤ k.src ∨ g.size ≤ k.dst → (g.propagateT k).steps.length ≤ 3) := by
  constructor
  · intro h1 h2
    suffices h : Costs (2 * (g.size * g.size + g.size + 1)) (fun _ => True) (g.propagateT k) from h.le
    unfold Graph.propagateT
    dsimp only
    split
    · exact .pure trivial
    rw [if_neg (by omega)]
    have one : ∀ (y : Graph) (i j : Nat) (v : Int), y.size = g.size → Costs (1 + (g.size * g.size + g.size + 0)) (fun _ => True) (do
        let x ← Run.put (y.setLower i j v)
        let x ← x.propagateLowerBoundT i j
        return (x, Outcome.propagated)) :=
      fun y i j v hy => (cost_set hy).bind (fun x hx => (cost_plb hx).bind (fun _ _ => .pure trivial))
    refine .free (fun ij => .free (fun ji => ?_))
    split
    · split
      · exact .pure trivial
      split
      · exact .pure trivial
      · exact (one g _ _ _ rfl).mono (by omega) (fun _ h => h)
    · split
      · exact .pure trivial
      · have : Costs (1 + (g.size * g.size + g.size + (1 + (g.size * g.size + g.size + 0)))) (fun _ => True) (do
            let x ← Run.put (g.setLower k.src k.dst k.lower)
            let x ← x.propagateLowerBoundT k.src k.dst
            let ji ← Run.lift (x.lower k.dst k.src)
            if ji < tvNeg k.upper then
              let x ← Run.put (x.setLower k.dst k.src (tvNeg k.upper))
              let x ← x.propagateLowerBoundT k.dst k.src
              return (x, Outcome.propagated)
            else return (x, .propagated)) := by
          refine (cost_set rfl).bind (fun x hx => (cost_plb hx).bind (fun y hy => .free (fun v => ?_)))
          split
          · exact one y _ _ _ hy
          · exact .pure trivial
        exact this.mono (by omega) (fun _ h => h)
  · intro h
    suffices h : Costs 3 (fun _ => True) (g.propagateT k) from h.le
    unfold Graph.propagateT
    dsimp only
    split
    · exact .pure trivial
    rw [if_pos (by omega)]
    refine .free (fun m => ?_)
    have any : ∀ x : Res Graph, Costs 1 (fun _ => True) (Run.put x) := fun x => .put (fun _ _ => trivial)
    exact Costs.bind (n := 1) (m := 2) (any _) (fun _ _ => Costs.bind (n := 1) (m := 1) (any _) (fun _ _ =>
      Costs.bind (n := 1) (m := 0) (any _) (fun _ _ => .pure trivial)))

/-- C140. A call of `propagate` which answers `Unchanged` or `Recovered` writes nothing. -/
theorem C140_quiet (g g' : Graph) (k : Constr) (o : Outcome) (h : g.propagate k = .ok (g', o)) (ho : o ≠ .propagated) :
    (g.propagateT k).steps = [] := by
  rw [← (crash_results g g k none [] false ⟨g, []⟩ (.deadline 0)).1] at h
  have loud : ∀ {α : Type} (x : Run Graph α) (f : α → Run Graph (Graph × Outcome)), (∀ a p, (f a).res = .ok p → p.2 = .propagated) →
      ∀ p, (x >>= f).res = .ok p → p.2 = .propagated := by
    intro α x f hf p e
    rw [Run.res_bind] at e
    obtain ⟨a, -, e⟩ := bind_ok e
    exact hf a p e
  have say : ∀ (x : Graph) p, (pure (x, Outcome.propagated) : Run Graph (Graph × Outcome)).res = .ok p → p.2 = .propagated :=
    fun x p e => by cases e; rfl
  have quiet : ∀ {α : Type} (x : Res α) (f : α → Run Graph (Graph × Outcome)),
      (∀ a, (f a).steps = [] ∨ ∀ p, (f a).res = .ok p → p.2 = .propagated) →
      (Run.lift x >>= f).steps = [] ∨ ∀ p, (Run.lift x >>= f).res = .ok p → p.2 = .propagated := by
    intro α x f hf
    cases x with
    | error e => exact .inl rfl
    | ok a => exact hf a
  have key : (g.propagateT k).steps = [] ∨ ∀ p, (g.propagateT k).res = .ok p → p.2 = .propagated := by
    unfold Graph.propagateT
    dsimp only
    split
    · exact .inl rfl
    split
    · exact .inr (loud _ _ (fun _ => loud _ _ (fun _ => loud _ _ (fun _ => loud _ _ (fun _ => say _)))))
    refine quiet _ _ (fun ij => quiet _ _ (fun ji => ?_))
    split
    · split
      · exact .inl rfl
      split
      · exact .inl rfl
      · exact .inr (loud _ _ (fun _ => loud _ _ (fun _ => say _)))
    · split
      · exact .inl rfl
      · refine .inr (loud _ _ (fun _ => loud _ _ (fun _ => loud _ _ (fun v => ?_))))
        split
        · exact loud _ _ (fun _ => loud _ _ (fun _ => say _))
        · exact say _
  exact key.resolve_right (fun f => ho (f _ h))

/-- C140. A batch of constraints, between instants below `N`, makes at most three writes for each of them, and `N³` for the propagation. -/
theorem C140_extend (N : Nat) (g : Graph) (ks : List Constr) (hint : Option Nat) (hg : g.size ≤ N) (hk : ∀ k ∈ ks, k.src < N ∧ k.dst < N)
    (h0 : hint ≠ some 0) (h1 : hint ≠ some 1) : (g.extendT hint ks).steps.length ≤ 3 * ks.length + N * (N * N) := by
  suffices h : Costs (ks.length * 3 + N * (N * N)) (fun _ => True) (g.extendT hint ks) by have := h.le; omega
  unfold Graph.extendT
  rw [if_neg h0, if_neg h1]
  exact Costs.bind (Costs.foldlM (P := fun g : Graph => g.size ≤ N) hg (fun a ha k hm => cost_insert ha (hk k hm).1 (hk k hm).2))
    (fun x hx => cost_gp hx)

/-- C140. `merge` makes at most `N³` writes after the comparison of the two graphs. -/
theorem C140_merge (N : Nat) (g h : Graph) (hg : g.size ≤ N) (hh : h.size ≤ N) : (g.mergeT h).steps.length ≤ 1 + N * (N * N) := by
  have key : ∀ (g h : Graph) (b : Bool), g.size ≤ N → Costs (1 + N * (N * N)) (fun _ => True) (do
      let (d, change) := Graph.zipMax g.data h.data
      let g ← Run.put (.ok { g with data := d })
      if change then g.globalPropagationT
      else if b then return (g, Outcome.propagated)
      else return (g, .unchanged)) := by
    intro g h b hg
    refine Costs.bind (n := 1) (P := fun g : Graph => g.size ≤ N) (.put (fun y e => by cases e; exact hg)) (fun x hx => ?_)
    split
    · exact cost_gp hx
    · split <;> exact .pure trivial
  by_cases c : g.size < h.size
  · have := (key h g true hh).le
    unfold Graph.mergeT
    rw [if_pos c]
    exact this
  · have := (key g h false hg).le
    unfold Graph.mergeT
    rw [if_neg c]
    exact this

theorem cost_retain {dbg : Bool} {s : Sched} {i : Nat} {w : Window} (hv : Valid s.graph) (hl : s.schedule.length = s.graph.size) :
    Costs (s.graph.size + 1) (fun p : Sched × Outcome => p.1.graph = s.graph ∧ p.1.schedule.length = s.graph.size) (s.retainT dbg i w) := by
  have slots : ∀ (d : List TSet) (i : Nat) (v : TSet) (d' : List TSet), sset d i v = .ok d' → d'.length = d.length := by
    intro d i v d' h
    unfold sset at h
    split at h
    · cases h; exact List.length_set
    · cases h
  unfold Sched.retainT
  split
  · next hi =>
    refine .free (fun si => ?_)
    split
    · exact .pure ⟨rfl, hl⟩
    split
    · exact .pure ⟨rfl, hl⟩
    refine .free (fun r => ?_)
    rw [Nat.add_comm]
    refine Costs.bind (n := 1) (P := fun x : Sched => x.graph = s.graph ∧ x.schedule.length = s.graph.size) (.put (fun y e => ?_))
      (fun x hx => .given (fun ks hks => ?_))
    · obtain ⟨a, h1, h2⟩ := bind_ok e
      cases h2
      exact ⟨rfl, (slots _ _ _ _ h1).trans hl⟩
    · rw [hx.1] at hks
      have hlen := runFrom_len hv (i := i) (by omega) _ 0 ks (by omega) hks
      refine (Costs.bind (n := ks.length * 1) (m := 0) (P := fun x : Sched => x.graph = s.graph ∧ x.schedule.length = s.graph.size)
        (Costs.foldlM hx (fun y hy k _ => .put (fun z e => ?_))) (fun y hy => .pure hy)).mono (by omega) (fun _ h => h)
      obtain ⟨a, h1, h2⟩ := bind_ok e
      cases h2
      unfold Sched.propagateOne at h1
      obtain ⟨_, -, h1⟩ := bind_ok h1
      obtain ⟨_, -, h1⟩ := bind_ok h1
      obtain ⟨_, -, h1⟩ := bind_ok h1
      obtain ⟨_, -, h1⟩ := bind_ok h1
      exact ⟨hy.1, (slots _ _ _ _ h1).trans hy.2⟩
  · exact ⟨Nat.zero_le _, fun _ e => by cases e⟩

/-- C140. A request which is refused, or which changes nothing, writes nothing; so does a deadline or a startline which is refused. -/
theorem C140_quiet_requests (dbg : Bool) (s s' : Sched) (r : Req) (o : Outcome) (h : r.run dbg s = .ok (s', o)) (ho : o ≠ .propagated) :
    (r.runT dbg s).steps = [] := by
  have loud : ∀ {α : Type} (x : Run Sched α) (f : α → Run Sched (Sched × Outcome)), (∀ a p, (f a).res = .ok p → p.2 = .propagated) →
      ∀ p, (x >>= f).res = .ok p → p.2 = .propagated := by
    intro α x f hf p e
    rw [Run.res_bind] at e
    obtain ⟨a, -, e⟩ := bind_ok e
    exact hf a p e
  have quiet : ∀ {α : Type} (x : Res α) (f : α → Run Sched (Sched × Outcome)),
      (∀ a, (f a).steps = [] ∨ ∀ p, (f a).res = .ok p → p.2 = .propagated) →
      (Run.lift x >>= f).steps = [] ∨ ∀ p, (Run.lift x >>= f).res = .ok p → p.2 = .propagated := by
    intro α x f hf
    cases x with
    | error e => exact .inl rfl
    | ok a => exact hf a
  have one : ∀ (s : Sched) (i : Nat) (w : Window),
      (s.retainT dbg i w).steps = [] ∨ ∀ p, (s.retainT dbg i w).res = .ok p → p.2 = .propagated := by
    intro s i w
    unfold Sched.retainT
    split
    · refine quiet _ _ (fun si => ?_)
      split
      · exact .inl rfl
      split
      · exact .inl rfl
      · exact .inr (loud _ _ (fun _ => loud _ _ (fun _ => loud _ _ (fun _ => loud _ _ (fun _ p e => by cases e; rfl)))))
    · exact .inl rfl
  have all : ∀ (w : Window) (l : List Nat) (p q : Sched × Outcome), (l.foldlM (fun (p : Sched × Outcome) i => do
      match ← Sched.retainT dbg p.1 i w with
      | (s, .unchanged) => return (s, p.2)
      | (s, .propagated) => return (s, .propagated)
      | _ => Run.lift (.error .unwrapNone)) p : Run Sched (Sched × Outcome)).res = .ok q →
      (p.2 = .propagated → q.2 = .propagated) ∧ (q.2 ≠ .propagated → (l.foldlM (fun (p : Sched × Outcome) i => do
      match ← Sched.retainT dbg p.1 i w with
      | (s, .unchanged) => return (s, p.2)
      | (s, .propagated) => return (s, .propagated)
      | _ => Run.lift (.error .unwrapNone)) p : Run Sched (Sched × Outcome)).steps = []) := by
    intro w l
    induction l with
    | nil => intro p q h; cases h; exact ⟨id, fun _ => rfl⟩
    | cons i l ih =>
      intro p q h
      rw [List.foldlM_cons] at h ⊢
      rw [Run.res_bind] at h
      obtain ⟨p1, h1, h2⟩ := bind_ok h
      obtain ⟨a1, a2⟩ := ih p1 q h2
      have h3 := h1
      rw [Run.res_bind] at h3
      obtain ⟨⟨s1, o1⟩, h4, h5⟩ := bind_ok h3
      have tail : ∀ (c : (Sched.retainT dbg p.1 i w).steps = []) (x : Sched × Outcome),
          (match (s1, o1) with
            | (s, .unchanged) => (return (s, p.2) : Run Sched (Sched × Outcome))
            | (s, .propagated) => return (s, .propagated)
            | _ => Run.lift (.error .unwrapNone)) = pure x →
          q.2 ≠ .propagated → (((do
            match ← Sched.retainT dbg p.1 i w with
            | (s, .unchanged) => return (s, p.2)
            | (s, .propagated) => return (s, .propagated)
            | _ => Run.lift (.error .unwrapNone)) : Run Sched (Sched × Outcome)) >>= fun p => l.foldlM (fun (p : Sched × Outcome) i => do
            match ← Sched.retainT dbg p.1 i w with
            | (s, .unchanged) => return (s, p.2)
            | (s, .propagated) => return (s, .propagated)
            | _ => Run.lift (.error .unwrapNone)) p).steps = [] := by
        intro c x hx hq
        rw [Run.bind_def]
        unfold Run.bind
        rw [h1]
        simp only
        rw [a2 hq, List.append_nil, Run.bind_def]
        unfold Run.bind
        rw [h4]
        simp only
        rw [hx, c]
        rfl
      cases o1 with
      | unchanged =>
        cases h5
        refine ⟨a1, fun hq => tail ?_ _ rfl hq⟩
        exact (one p.1 i w).resolve_right (fun f => by have := f _ h4; cases this)
      | propagated =>
        cases h5
        exact ⟨fun _ => a1 rfl, fun hq => absurd (a1 rfl) hq⟩
      | recovered => cases h5
      | fatal => cases h5
  rw [← (crash_results s.graph s.graph ⟨0, 0, false, 0, 0⟩ none [] dbg s r).2.2.2] at h
  cases r with
  | retain i w => exact (one s i w).resolve_right (fun f => ho (f _ h))
  | remove i w => exact (one s i _).resolve_right (fun f => ho (f _ h))
  | deadline d =>
    have h : (s.setDeadlineT dbg d).res = .ok (s', o) := h
    show (s.setDeadlineT dbg d).steps = []
    unfold Sched.setDeadlineT at h ⊢
    split at h
    · next c => rw [if_pos c]; rfl
    · next c => rw [if_neg c]; exact (all _ _ _ _ h).2 ho
  | startline d =>
    have h : (s.setStartlineT dbg d).res = .ok (s', o) := h
    show (s.setStartlineT dbg d).steps = []
    unfold Sched.setStartlineT at h ⊢
    split at h
    · next c => rw [if_pos c]; rfl
    · next c => rw [if_neg c]; exact (all _ _ _ _ h).2 ho

/-- C140. A request to retain or remove dates writes at most once the slot of each of the `n` instants, and the one of its own instant once
more; a deadline or a startline, `n` times as many. -/
theorem C140_requests (dbg : Bool) (s : Sched) (hv : Valid s.graph) (hl : s.schedule.length = s.graph.size) (r : Req) :
    (r.runT dbg s).steps.length ≤ match r with
      | .retain _ _ | .remove _ _ => s.graph.size + 1
      | .deadline _ | .startline _ => s.graph.size * (s.graph.size + 1) := by
  have all : ∀ w : Window, (s.retainAllT dbg w).steps.length ≤ s.graph.size * (s.graph.size + 1) := by
    intro w
    suffices h : Costs (s.graph.size * (s.graph.size + 1)) (fun _ => True) (s.retainAllT dbg w) from h.le
    unfold Sched.retainAllT
    refine (Costs.foldlM (c := s.graph.size + 1) (P := fun p : Sched × Outcome => p.1.graph = s.graph ∧ p.1.schedule.length = s.graph.size)
      ⟨rfl, hl⟩ (fun p hp i _ => ?_)).mono (by rw [List.length_range, hl]; exact Nat.le_refl _) (fun _ _ => trivial)
    have h1 := cost_retain (dbg := dbg) (s := p.1) (i := i) (w := w) (by rw [hp.1]; exact hv) (by rw [hp.1]; exact hp.2)
    rw [hp.1] at h1
    refine (h1.bind (m := 0) (fun q hq => ?_))
    split
    · exact .pure hq
    · exact .pure hq
    · exact ⟨Nat.zero_le _, fun _ e => by cases e⟩
  cases r with
  | retain i w => exact (cost_retain hv hl).le
  | remove i w => exact (cost_retain hv hl).le
  | deadline d =>
    show (s.setDeadlineT dbg d).steps.length ≤ _
    unfold Sched.setDeadlineT
    split
    · exact Nat.zero_le _
    · exact all _
  | startline d =>
    show (s.setStartlineT dbg d).steps.length ≤ _
    unfold Sched.setStartlineT
    split
    · exact Nat.zero_le _
    · exact all _

/-- a propagation through three instants, with its writes -/
example : (Graph.propagateT ⟨3, [0, -5, 0, 5, -INF, -INF, 0, -INF, -INF]⟩ ⟨1, 2, false, 3, 4⟩).steps.length = 4 := by decide +kernel

example : Valid ⟨3, [0, -5, 0, 2, -INF, -9, 0, 3, -INF]⟩ ∧ (Sched.new ⟨3, [0, -5, 0, 2, -INF, -9, 0, 3, -INF]⟩).schedule.length = 3 := by
  decide

end Chrono
