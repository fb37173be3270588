import Verif.Lemmas.Crash
import Verif.Spec.Crash

/-!
# The step by step versions record every write
-/

set_option linter.unusedSimpArgs false

namespace Chrono
open Spec

/-- from the content `s`, each content recorded is related to the former one, and the result is related to the last one -/
structure Traced {S α : Type} (Rel : S → S → Prop) (s : S) (post : α → S → Prop) (t : Run S α) : Prop where
  chain : Linked Rel s t.steps
  last : ∀ a, t.res = .ok a → post a ((s :: t.steps).getLast (by simp))

namespace Traced
variable {S α β : Type} {Rel : S → S → Prop}

theorem pure {s : S} {post : α → S → Prop} {a : α} (h : post a s) : Traced Rel s post (pure a : Run S α) :=
  ⟨trivial, fun b e => by cases e; exact h⟩

theorem lift {s : S} {x : Res α} : Traced Rel s (fun _ y => y = s) (Run.lift x : Run S α) :=
  ⟨trivial, fun _ _ => rfl⟩

theorem put {s : S} {x : Res S} (h : ∀ y, x = .ok y → Rel s y) : Traced Rel s (fun a y => y = a) (Run.put x) := by
  cases x with
  | error e => exact ⟨trivial, fun _ e => nomatch e⟩
  | ok y =>
    refine ⟨?_, fun a e => by cases e; rfl⟩
    exact ⟨h y rfl, trivial⟩

theorem chain_append : ∀ {l : List S} {s : S} {m : List S}, Linked Rel s l →
    Linked Rel ((s :: l).getLast (by simp)) m → Linked Rel s (l ++ m)
  | [], _, _, _, h => h
  | x :: l, s, m, h1, h2 => by
    refine ⟨h1.1, chain_append h1.2 ?_⟩
    rw [List.getLast_cons (by simp)] at h2
    exact h2

theorem last_append : ∀ (l : List S) (s : S) (m : List S),
    (s :: (l ++ m)).getLast (by simp) = ((s :: l).getLast (by simp) :: m).getLast (by simp)
  | [], _, _ => rfl
  | x :: l, s, m => by
    have := last_append l x m
    simp only [List.cons_append, List.getLast_cons_cons] at this ⊢
    exact this

theorem bind {s : S} {p : α → S → Prop} {q : β → S → Prop} {x : Run S α} {f : α → Run S β} (h : Traced Rel s p x)
    (hf : ∀ a y, p a y → Traced Rel y q (f a)) : Traced Rel s q (x >>= f) := by
  obtain ⟨h1, h2⟩ := h
  rw [Run.bind_def]
  unfold Run.bind
  cases e : x.res with
  | ok a =>
    obtain ⟨k1, k2⟩ := hf a _ (h2 a e)
    refine ⟨chain_append h1 k1, fun b e' => ?_⟩
    have := k2 b e'
    rw [← last_append] at this
    exact this
  | error e' => exact ⟨h1, fun _ e => nomatch e⟩

theorem foldlM {f : α → β → Run S α} {p : α → S → Prop} : ∀ {l : List β} {a : α} {s : S}, p a s →
    (∀ x b y, p x y → Traced Rel y p (f x b)) → Traced Rel s p (l.foldlM f a)
  | [], _, _, ha, _ => .pure ha
  | b :: l, a, s, ha, st => by
    rw [List.foldlM_cons]
    exact (st a b s ha).bind (fun x y hx => Traced.foldlM hx st)

theorem mono {s : S} {p q : α → S → Prop} {t : Run S α} (h : Traced Rel s p t) (hq : ∀ a y, p a y → q a y) : Traced Rel s q t :=
  ⟨h.chain, fun a e => hq a _ (h.last a e)⟩

end Traced

theorem relaxT_traced (g : Graph) (i j : Nat) (v : Int) : Traced GraphWrite g (fun a y => a = y) (g.relaxT i j v) := by
  unfold Graph.relaxT
  refine Traced.lift.bind (fun k y hy => ?_)
  subst hy
  split
  · exact (Traced.put (Rel := GraphWrite) (fun z e => Or.inl ⟨i, j, v, e⟩)).mono (fun _ _ h => h.symm)
  · exact .pure rfl

theorem plbT_traced (g : Graph) (io jo : Nat) : Traced GraphWrite g (fun a y => a = y) (g.propagateLowerBoundT io jo) := by
  unfold Graph.propagateLowerBoundT
  refine Traced.lift.bind (fun v y hy => ?_)
  subst hy
  refine Traced.bind (p := fun a y => a = y) (Traced.foldlM rfl (fun x b y hy => ?_)) (fun z y hy => ?_)
  · subst hy
    refine Traced.lift.bind (fun v y hy => ?_)
    subst hy
    refine Traced.lift.bind (fun v y hy => ?_)
    subst hy
    exact relaxT_traced _ _ _ _
  · subst hy
    refine Traced.foldlM rfl (fun x b y hy => ?_)
    subst hy
    refine Traced.lift.bind (fun v y hy => ?_)
    subst hy
    refine Traced.foldlM rfl (fun x b y hy => ?_)
    subst hy
    refine Traced.lift.bind (fun v y hy => ?_)
    subst hy
    refine Traced.lift.bind (fun v y hy => ?_)
    subst hy
    exact relaxT_traced _ _ _ _

theorem propagateT_traced (g : Graph) (k : Constr) : Traced GraphWrite g (fun p y => p.1 = y) (g.propagateT k) := by
  have cell : ∀ (g : Graph) (i j : Nat) (v : Int), Traced GraphWrite g (fun a y => y = a) (Run.put (g.setLower i j v)) :=
    fun g i j v => Traced.put (fun z e => Or.inl ⟨i, j, v, e⟩)
  unfold Graph.propagateT
  split
  · exact .pure rfl
  dsimp only
  split
  · refine Traced.lift.bind (fun m y hy => ?_)
    subst hy
    refine (Traced.put (Rel := GraphWrite) (fun z e => Or.inr ⟨m, e⟩)).bind (fun g1 y hy => ?_)
    subst hy
    refine (cell _ _ _ _).bind (fun g1 y hy => ?_)
    subst hy
    refine (cell _ _ _ _).bind (fun g1 y hy => ?_)
    subst hy
    exact .pure rfl
  · refine Traced.lift.bind (fun ij y hy => ?_)
    subst hy
    refine Traced.lift.bind (fun ji y hy => ?_)
    subst hy
    split
    · split
      · exact .pure rfl
      split
      · exact .pure rfl
      refine (cell _ _ _ _).bind (fun g1 y hy => ?_)
      subst hy
      refine (plbT_traced _ _ _).bind (fun g1 y hy => ?_)
      subst hy
      exact .pure rfl
    · split
      · exact .pure rfl
      refine (cell _ _ _ _).bind (fun g1 y hy => ?_)
      subst hy
      refine (plbT_traced _ _ _).bind (fun g1 y hy => ?_)
      subst hy
      refine Traced.lift.bind (fun ji y hy => ?_)
      subst hy
      split
      · refine (cell _ _ _ _).bind (fun g1 y hy => ?_)
        subst hy
        refine (plbT_traced _ _ _).bind (fun g1 y hy => ?_)
        subst hy
        exact .pure rfl
      · exact .pure rfl

theorem gpT_traced (g : Graph) : Traced GraphWrite g (fun p y => p.2 = .fatal ∨ p.1 = y) g.globalPropagationT := by
  unfold Graph.globalPropagationT
  refine Traced.bind (p := fun (p : Graph × Bool) y => p.2 = true ∨ p.1 = y) (Traced.foldlM (Or.inr rfl) (fun p k y hy => ?_))
    (fun p y hy => ?_)
  · refine Traced.foldlM hy (fun p i y hy => ?_)
    split
    · exact .pure hy
    · next c =>
      have hy := hy.resolve_left c
      subst hy
      refine Traced.bind (p := fun a y => a = y) ?_ (fun z y hy => ?_)
      · unfold Graph.gpRowT
        refine Traced.foldlM rfl (fun x b y hy => ?_)
        subst hy
        refine Traced.lift.bind (fun v y hy => ?_)
        subst hy
        refine Traced.lift.bind (fun v y hy => ?_)
        subst hy
        refine Traced.lift.bind (fun v y hy => ?_)
        subst hy
        exact relaxT_traced _ _ _ _
      · subst hy
        refine Traced.lift.bind (fun v y hy => ?_)
        subst hy
        split
        · exact .pure (Or.inl rfl)
        · exact .pure (Or.inr rfl)
  · refine .pure ?_
    show (if p.2 then Outcome.fatal else Outcome.propagated) = .fatal ∨ p.1 = y
    rcases hy with h | h
    · rw [h]; exact Or.inl rfl
    · exact Or.inr h

theorem insertT_traced (g : Graph) (k : Constr) : Traced GraphWrite g (fun a y => a = y) (g.insertT k) := by
  have cell : ∀ (g : Graph) (i j : Nat) (v : Int), Traced GraphWrite g (fun a y => y = a) (Run.put (g.setLower i j v)) :=
    fun g i j v => Traced.put (fun z e => Or.inl ⟨i, j, v, e⟩)
  have t2 : ∀ z : Graph, Traced GraphWrite z (fun a y => a = y) (do
      let u ← Run.lift (z.lower k.dst k.src)
      if u < tvNeg k.upper then Run.put (z.setLower k.dst k.src (tvNeg k.upper)) else return z) := by
    intro z
    refine Traced.lift.bind (fun v y hy => ?_)
    subst hy
    split
    · exact (cell _ _ _ _).mono (fun _ _ h => h.symm)
    · exact .pure rfl
  have t1 : ∀ y : Graph, Traced GraphWrite y (fun a y => a = y) (do
      let l ← Run.lift (y.lower k.src k.dst)
      let g ← if l < k.lower then Run.put (y.setLower k.src k.dst k.lower) else pure y
      let u ← Run.lift (g.lower k.dst k.src)
      if u < tvNeg k.upper then Run.put (g.setLower k.dst k.src (tvNeg k.upper)) else return g) := by
    intro z
    refine Traced.lift.bind (fun v y hy => ?_)
    subst hy
    split
    · exact (cell _ _ _ _).bind (fun g1 y hy => by subst hy; exact t2 _)
    · exact Traced.bind (p := fun a y => a = y) (.pure rfl) (fun g1 y hy => by subst hy; exact t2 _)
  unfold Graph.insertT
  dsimp only
  split
  · refine Traced.lift.bind (fun m y hy => ?_)
    subst hy
    exact (Traced.put (Rel := GraphWrite) (fun z e => Or.inr ⟨m, e⟩)).bind (fun g1 y hy => by subst hy; exact t1 _)
  · exact Traced.bind (p := fun a y => a = y) (.pure rfl) (fun g1 y hy => by subst hy; exact t1 _)

theorem extendT_traced (g : Graph) (hint : Option Nat) (ks : List Constr) :
    Traced GraphWrite g (fun p y => p.2 = .fatal ∨ p.1 = y) (g.extendT hint ks) := by
  unfold Graph.extendT
  split
  · exact .pure (Or.inr rfl)
  split
  · cases ks with
    | nil => exact .pure (Or.inr rfl)
    | cons k l => exact (propagateT_traced g k).mono (fun _ _ h => Or.inr h)
  · refine Traced.bind (p := fun a y => a = y) (Traced.foldlM rfl (fun x b y hy => by subst hy; exact insertT_traced _ _)) ?_
    intro z y hy
    subst hy
    exact gpT_traced _

theorem mergeT_traced (g h : Graph) : ∃ m l, (g.mergeT h).steps = m :: l ∧ Linked GraphWrite m l ∧
    (g.size < h.size → m = { h with data := (Graph.zipMax h.data g.data).1 }) ∧
    (h.size ≤ g.size → m = { g with data := (Graph.zipMax g.data h.data).1 }) ∧
    ∀ g' o, (g.mergeT h).res = .ok (g', o) → o ≠ .fatal → g' = (m :: l).getLast (by simp) := by
  have key : ∀ (g h : Graph) (b : Bool), ∀ t : Run Graph (Graph × Outcome), t = (do
      let (d, change) := Graph.zipMax g.data h.data
      let g ← Run.put (.ok { g with data := d })
      if change then g.globalPropagationT
      else if b then return (g, .propagated)
      else return (g, .unchanged)) →
      ∃ m l, t.steps = m :: l ∧ Linked GraphWrite m l ∧ m = { g with data := (Graph.zipMax g.data h.data).1 } ∧
        ∀ g' o, t.res = .ok (g', o) → o ≠ .fatal → g' = (m :: l).getLast (by simp) := by
    intro g h b t ht
    rcases e : Graph.zipMax g.data h.data with ⟨d, c⟩
    rw [e] at ht
    subst ht
    cases c
    · refine ⟨{ g with data := d }, [], ?_⟩
      cases b
      · exact ⟨rfl, trivial, rfl, fun _ _ e _ => by cases e; rfl⟩
      · exact ⟨rfl, trivial, rfl, fun _ _ e _ => by cases e; rfl⟩
    · obtain ⟨h1, h2⟩ := gpT_traced { g with data := d }
      exact ⟨{ g with data := d }, _, rfl, h1, rfl, fun _ _ e f => (h2 _ e).resolve_left f⟩
  by_cases c : g.size < h.size
  · obtain ⟨m, l, h1, h2, h3, h4⟩ := key h g true (g.mergeT h) (by unfold Graph.mergeT; rw [if_pos c])
    exact ⟨m, l, h1, h2, fun _ => h3, fun c' => absurd c (by omega), h4⟩
  · obtain ⟨m, l, h1, h2, h3, h4⟩ := key g h false (g.mergeT h) (by unfold Graph.mergeT; rw [if_neg c])
    exact ⟨m, l, h1, h2, fun c' => absurd c' c, fun _ => h3, h4⟩

theorem retainT_traced (dbg : Bool) (s : Sched) (i : Nat) (w : Window) :
    Traced SchedWrite s (fun p y => p.1 = y) (s.retainT dbg i w) := by
  have slot : ∀ (s : Sched) (d : Res (List TSet)) (j : Nat), (∀ l, d = .ok l → ∃ w, l = s.schedule.set j w) →
      Traced SchedWrite s (fun a y => y = a) (Run.put (do return { s with schedule := ← d })) := by
    intro s d j h
    refine Traced.put (fun z e => ?_)
    cases hd : d with
    | error e' => rw [hd] at e; cases e
    | ok l =>
      rw [hd] at e
      cases e
      obtain ⟨w, rfl⟩ := h l hd
      exact ⟨j, w, rfl⟩
  have hset : ∀ {d : List TSet} {k : Nat} {v : TSet} {l : List TSet}, sset d k v = .ok l → l = d.set k v := by
    intro d k v l e
    unfold sset at e
    split at e
    · cases e; rfl
    · cases e
  unfold Sched.retainT
  split
  · refine Traced.lift.bind (fun si y hy => ?_)
    subst hy
    split
    · exact .pure rfl
    split
    · exact .pure rfl
    refine Traced.lift.bind (fun r y hy => ?_)
    subst hy
    refine (slot _ _ i (fun l e => ⟨_, hset e⟩)).bind (fun s1 y hy => ?_)
    subst hy
    refine Traced.lift.bind (fun ks y hy => ?_)
    subst hy
    refine Traced.bind (p := fun a y => a = y) (Traced.foldlM rfl (fun x k y hy => ?_)) (fun z y hy => by subst hy; exact .pure rfl)
    subst hy
    refine (slot _ _ k.dst (fun l e => ?_)).mono (fun _ _ h => h.symm)
    unfold Sched.propagateOne at e
    obtain ⟨sj, e1, e⟩ := bind_ok e
    obtain ⟨si, e2, e⟩ := bind_ok e
    obtain ⟨t, e3, e⟩ := bind_ok e
    obtain ⟨r, e4, e⟩ := bind_ok e
    exact ⟨r, hset e⟩
  · exact ⟨trivial, fun _ e => nomatch e⟩

theorem retainAllT_traced (dbg : Bool) (s : Sched) (w : Window) :
    Traced SchedWrite s (fun p y => p.1 = y) (s.retainAllT dbg w) := by
  unfold Sched.retainAllT
  refine Traced.foldlM rfl (fun p i y hy => ?_)
  subst hy
  refine (retainT_traced dbg p.1 i w).bind (fun q y hy => ?_)
  subst hy
  rcases q with ⟨x, o⟩
  cases o
  · exact .pure rfl
  · exact .pure rfl
  · exact ⟨trivial, fun _ e => nomatch e⟩
  · exact ⟨trivial, fun _ e => nomatch e⟩

theorem runT_traced (dbg : Bool) (s : Sched) (r : Req) : Traced SchedWrite s (fun p y => p.1 = y) (r.runT dbg s) := by
  have here : ∀ o, Traced SchedWrite s (fun (p : Sched × Outcome) y => p.1 = y) (Run.lift (.ok (s, o))) :=
    fun o => ⟨trivial, fun a e => by cases e; rfl⟩
  cases r with
  | retain i w => exact retainT_traced dbg s i w
  | remove i w => exact retainT_traced dbg s i _
  | deadline d =>
    show Traced _ _ _ (s.setDeadlineT dbg d)
    unfold Sched.setDeadlineT
    split
    · exact here _
    · exact retainAllT_traced dbg s _
  | startline d =>
    show Traced _ _ _ (s.setStartlineT dbg d)
    unfold Sched.setStartlineT
    split
    · exact here _
    · exact retainAllT_traced dbg s _

end Chrono
