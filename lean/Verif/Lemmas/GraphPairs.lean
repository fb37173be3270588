import Verif.Lemmas.GraphAny

/-!
# Two opposite bounds which contradict each other are never accepted by the global propagation
-/

namespace Chrono
open Spec

/-- a loop which does not panic runs its body on each item, between states which satisfy the invariant -/
theorem foldlM_reach {α β : Type} {f : α → β → Res α} {P : α → Prop} : ∀ {l : List β} {a r : α} {x : β},
    l.foldlM f a = .ok r → x ∈ l → P a → (∀ z b z', b ∈ l → P z → f z b = .ok z' → P z') →
    ∃ z z', ∃ l' : List β, P z ∧ f z x = .ok z' ∧ P z' ∧ l'.foldlM f z' = .ok r ∧ ∀ b ∈ l', b ∈ l
  | b :: l, a, r, x, h, hx, ha, st => by
    rw [List.foldlM_cons] at h
    obtain ⟨y, h1, h2⟩ := bind_ok h
    have hy := st a b y (by simp) ha h1
    rcases List.mem_cons.1 hx with ex | hx'
    · subst ex
      exact ⟨a, y, l, ha, h1, hy, h2, fun b hb => by simp [hb]⟩
    · obtain ⟨z, z', l', p1, p2, p3, p4, p5⟩ := foldlM_reach h2 hx' hy (fun z b z' hb => st z b z' (by simp [hb]))
      exact ⟨z, z', l', p1, p2, p3, p4, fun b hb => by simp [p5 b hb]⟩

/-- the body of the innermost loop -/
def rowStep (k i : Nat) (g : Graph) (j : Nat) : Res Graph := do
  let a ← g.lower i k
  let b ← g.lower k j
  let val ← tvAdd a b
  g.relax i j val

theorem tvAdd_pos {a b v : Int} (ha : Small INF a) (hb : Small INF b) (h : tvAdd a b = .ok v) :
    Small INF v ∧ (0 < a + b → 0 < v) := by
  unfold Small at *
  unfold tvAdd isFutureInfinite isPastInfinite isFinite at h
  simp only [decide_eq_true_eq, Bool.and_eq_true, bne_iff_ne, ne_eq, beq_iff_eq] at h
  split at h
  · split at h
    · cases h
    · cases h; constructor <;> ticks
  · split at h
    · split at h
      · cases h
      · cases h; constructor <;> ticks
    · split at h
      · cases h
        have e : fromTicks (sat64 (a + b)) = max (-INF) (min INF (a + b)) := by
          unfold fromTicks sat64
          ticks
        rw [e]
        constructor <;> ticks
      · cases h; constructor <;> ticks

/-- the bounds only grow, and stay in the range -/
structure Up (g x : Graph) : Prop where
  shape : Shape g x
  range : SmallMat INF g.size (mat x)
  mono : ∀ a b, a < g.size → b < g.size → mat g a b ≤ mat x a b

theorem rowStep_up {g x x' : Graph} (hv : Valid g) (d : Up g x) {k i j : Nat} (hk : k < g.size) (hi : i < g.size)
    (hj : j < g.size) (h : rowStep k i x j = .ok x') :
    Up g x' ∧ (∀ a b, a < g.size → b < g.size → mat x a b ≤ mat x' a b) ∧
      (0 < mat x i k + mat x k j → 0 < mat x' i j) := by
  have sz := d.shape.size
  have vx := d.shape.valid hv
  have hi' : i < x.size := by omega
  have hj' : j < x.size := by omega
  have hk' : k < x.size := by omega
  unfold rowStep at h
  rw [lower_eq vx hi' hk', ok_bind, lower_eq vx hk' hj', ok_bind] at h
  obtain ⟨v, e, h⟩ := bind_ok h
  obtain ⟨s1, s2⟩ := tvAdd_pos (d.range i hi k hk) (d.range k hk j hj) e
  rw [relax_eq vx hi' hj' v] at h
  cases h
  have lt := vx.ix_lt hi' hj'
  have m : ∀ a b, mat x a b ≤ mat (put x i j (max (mat x i j) v)) a b := by
    intro a b
    rw [mat_put _ lt]
    split
    · next c => obtain ⟨rfl, rfl⟩ := c; omega
    · exact Int.le_refl _
  refine ⟨⟨d.shape.put i j _, ?_, fun a b ha hb => Int.le_trans (d.mono a b ha hb) (m a b)⟩, fun a b _ _ => m a b,
    fun hp => ?_⟩
  · intro a ha b hb
    rw [mat_put _ lt]
    have r := d.range a ha b hb
    split
    · next c =>
      obtain ⟨rfl, rfl⟩ := c
      unfold Small at *
      omega
    · exact r
  · rw [mat_put _ lt, if_pos ⟨rfl, rfl⟩]
    have := s2 hp
    omega

theorem Up.trans {g x y : Graph} (h : Up g x) (k : Up x y) : Up g y := by
  have sz := h.shape.size
  exact ⟨h.shape.trans k.shape, by rw [← sz]; exact k.range,
    fun a b ha hb => Int.le_trans (h.mono a b ha hb) (k.mono a b (by omega) (by omega))⟩

theorem rows_up {g x y : Graph} (hv : Valid g) (d : Up g x) {k i : Nat} (hk : k < g.size) (hi : i < g.size)
    {l : List Nat} (hl : ∀ j ∈ l, j < g.size) (h : l.foldlM (rowStep k i) x = .ok y) : Up g y ∧ Up x y := by
  have sz := d.shape.size
  have vx := d.shape.valid hv
  have rx : Up x x := ⟨Shape.refl x, by rw [sz]; exact d.range, fun _ _ _ _ => Int.le_refl _⟩
  have key : ∀ {l : List Nat} {x' : Graph}, (∀ j ∈ l, j < g.size) → Up x x' → l.foldlM (rowStep k i) x' = .ok y → Up x y := by
    intro l
    induction l with
    | nil => intro x' _ d' h'; cases h'; exact d'
    | cons b l ih =>
      intro x' hl d' h'
      rw [List.foldlM_cons] at h'
      obtain ⟨z, e, h'⟩ := bind_ok h'
      exact ih (fun j hj => hl j (by simp [hj])) (rowStep_up vx d' (by omega) (by omega)
        (by have := hl b (by simp); omega) e).1 h'
  have u := key hl rx h
  exact ⟨d.trans u, u⟩

theorem gpRow_up {g x y : Graph} (hv : Valid g) (d : Up g x) {k i : Nat} (hk : k < g.size) (hi : i < g.size)
    (h : x.gpRow k i = .ok y) : Up g y ∧ (0 < mat x i k + mat x k i → 0 < mat y i i) := by
  have sz := d.shape.size
  have vx := d.shape.valid hv
  have hl : ∀ j ∈ List.range x.size, j < g.size := fun j hj => by have := List.mem_range.1 hj; omega
  change (List.range x.size).foldlM (rowStep k i) x = .ok y at h
  refine ⟨(rows_up hv d hk hi hl h).1, fun hp => ?_⟩
  have rx : Up x x := ⟨Shape.refl x, by rw [sz]; exact d.range, fun _ _ _ _ => Int.le_refl _⟩
  obtain ⟨z, z', l', p1, p2, p3, p4, p5⟩ := foldlM_reach (P := Up x) h (List.mem_range.2 (show i < x.size by omega)) rx
    (fun z b z' hb dz e => (rowStep_up vx dz (by omega) (by omega) (List.mem_range.1 hb) e).1)
  have s := (rowStep_up vx p1 (by omega) (by omega) (by omega) p2).2.2 (by
    have h1 := p1.mono i k (by omega) (by omega)
    have h2 := p1.mono k i (by omega) (by omega)
    omega)
  have u := (rows_up vx p3 (by omega) (by omega) (fun j hj => List.mem_range.1 (p5 j hj)) p4).2
  have sz' := p3.shape.size
  have := u.mono i i (by omega) (by omega)
  omega

theorem gpBody_up {g : Graph} (hv : Valid g) {k i : Nat} (hk : k < g.size) (hi : i < g.size) {p q : Graph × Bool}
    (hp : p.2 = false → Up g p.1) (h : gpBody k p i = .ok q) :
    (q.2 = false → Up g q.1) ∧ (p.2 = true → q.2 = true) ∧
      (p.2 = false → 0 < mat p.1 i k + mat p.1 k i → q.2 = true) := by
  obtain ⟨x, f⟩ := p
  cases f with
  | true =>
    rw [gpBody_done rfl] at h
    cases h
    exact ⟨fun h => (by cases h), fun _ => rfl, fun h => (by cases h)⟩
  | false =>
    have d := hp rfl
    cases e : x.gpRow k i with
    | error er =>
      unfold gpBody at h
      simp only [Bool.false_eq_true, if_false] at h
      rw [e] at h; cases h
    | ok y =>
      obtain ⟨uy, s⟩ := gpRow_up hv d hk hi e
      have szy := uy.shape.size
      rw [gpBody_row e (uy.shape.valid hv) (by omega)] at h
      split at h
      · cases h
        exact ⟨fun h => (by cases h), fun _ => rfl, fun _ _ => rfl⟩
      · next c =>
        cases h
        exact ⟨fun _ => uy, fun h => (by cases h), fun _ hp => absurd (s hp) c⟩

theorem gpBodies_true {k : Nat} {p q : Graph × Bool} (h : p.2 = true) {l : List Nat}
    (e : l.foldlM (gpBody k) p = .ok q) : q.2 = true := by
  rw [fold_done h] at e
  cases e
  exact h

theorem gpStages_true {n : Nat} {q : Graph × Bool} : ∀ {l : List Nat} {p : Graph × Bool}, p.2 = true →
    l.foldlM (fun p k => (List.range n).foldlM (gpBody k) p) p = .ok q → q.2 = true
  | [], p, h, e => by cases e; exact h
  | k :: l, p, h, e => by
    rw [List.foldlM_cons, fold_done h, ok_bind] at e
    exact gpStages_true h e

/-- what `global_propagation` accepts has no pair of instants with contradictory bounds -/
theorem gp_pairs {g g' : Graph} (hv : Valid g) (hS : SmallMat INF g.size (mat g)) {o : Outcome}
    (h : g.globalPropagation = .ok (g', o)) (ho : o ≠ .fatal) {a b : Nat} (ha : a < g.size) (hb : b < g.size) :
    mat g a b + mat g b a ≤ 0 := by
  rw [globalPropagation_def] at h
  obtain ⟨q, e, h⟩ := bind_ok h
  have hq : q.2 = false := by
    cases c : q.2 with
    | false => rfl
    | true =>
      rw [c] at h
      exact absurd (by cases h; rfl) ho
  refine Decidable.byContradiction (fun c => ?_)
  have inner : ∀ {k : Nat} {p r : Graph × Bool}, k < g.size → (p.2 = false → Up g p.1) →
      (List.range g.size).foldlM (gpBody k) p = .ok r → (r.2 = false → Up g r.1) := by
    intro k p r hk hp e
    have : ∀ {l : List Nat} {p : Graph × Bool}, (∀ i ∈ l, i < g.size) → (p.2 = false → Up g p.1) →
        l.foldlM (gpBody k) p = .ok r → (r.2 = false → Up g r.1) := by
      intro l
      induction l with
      | nil => intro p _ hp e; cases e; exact hp
      | cons i l ih =>
        intro p hl hp e
        rw [List.foldlM_cons] at e
        obtain ⟨y, e1, e⟩ := bind_ok e
        exact ih (fun j hj => hl j (by simp [hj])) (gpBody_up hv hk (hl i (by simp)) hp e1).1 e
    exact this (fun i hi => List.mem_range.1 hi) hp e
  obtain ⟨z, z', l', p1, p2, p3, p4, p5⟩ := foldlM_reach (P := fun p : Graph × Bool => p.2 = false → Up g p.1) e
    (List.mem_range.2 hb) (fun _ => ⟨Shape.refl g, hS, fun _ _ _ _ => Int.le_refl _⟩)
    (fun z k z' hk hz e => inner (List.mem_range.1 hk) hz e)
  obtain ⟨y, y', l2, r1, r2, r3, r4, r5⟩ := foldlM_reach (P := fun p : Graph × Bool => p.2 = false → Up g p.1) p2
    (List.mem_range.2 ha) p1 (fun z i z' hi hz e => (gpBody_up hv hb (List.mem_range.1 hi) hz e).1)
  have yt : y'.2 = true := by
    have t := gpBody_up hv hb ha r1 r2
    cases f : y.2 with
    | true => exact t.2.1 f
    | false =>
      have u := r1 f
      have h1 := u.mono a b ha hb
      have h2 := u.mono b a hb ha
      exact t.2.2 f (by omega)
  have := gpStages_true (gpBodies_true yt r4) p4
  rw [hq] at this
  cases this

/-- the insertions of a batch write the bounds of all its constraints -/
theorem inserts_bounds {g : Graph} : ∀ {ks : List Constr} {x y : Graph}, Valid x → CleanMem x →
    SmallMat INF x.size (mat x) → (∀ k ∈ ks, max k.src k.dst < 65535 ∧ WithinK INF k) → ks.foldlM Graph.insert x = .ok y →
    Valid y ∧ SmallMat INF y.size (mat y) ∧ x.size ≤ y.size ∧
      (∀ a b, a < x.size → b < x.size → mat x a b ≤ mat y a b) ∧
      ∀ k ∈ ks, k.src < y.size ∧ k.dst < y.size ∧ k.lower ≤ mat y k.src k.dst ∧ -k.upper ≤ mat y k.dst k.src
  | [], x, y, hv, _, hS, _, h => by
    cases h
    exact ⟨hv, hS, Nat.le_refl _, fun _ _ _ _ => Int.le_refl _, fun k hk => (nomatch hk)⟩
  | k :: ks, x, y, hv, hc, hS, hk, h => by
    rw [List.foldlM_cons] at h
    obtain ⟨z, e, h⟩ := bind_ok h
    have hk0 := hk k (by simp)
    obtain ⟨z', e', sz, v, cl, s, -, -⟩ := insert_spec hv hc (by decide) (Int.le_refl INF) hS hk0.2 hk0.1
    rw [e] at e'
    cases e'
    have one : ∀ x : Graph, Valid x → k.src < x.size → k.dst < x.size → x.insert k = .ok z →
        (∀ a b, mat x a b ≤ mat z a b) ∧ k.lower ≤ mat z k.src k.dst ∧ -k.upper ≤ mat z k.dst k.src := by
      intro x hv hs hd e
      rw [insert_eq_relax hv hs hd] at e
      cases e
      have x1 := hv.ix_lt hs hd
      have x2 : ix k.dst k.src < (put x k.src k.dst (max (mat x k.src k.dst) k.lower)).data.length := by
        rw [put_len]; exact hv.ix_lt hd hs
      refine ⟨fun a b => ?_, ?_, ?_⟩
      · rw [mat_put _ x2, mat_put _ x1]
        by_cases c : a = k.dst ∧ b = k.src
        · obtain ⟨rfl, rfl⟩ := c
          rw [if_pos ⟨rfl, rfl⟩]
          split
          · next c' => rw [c'.1]; omega
          · omega
        · rw [if_neg c, mat_put _ x1]
          split
          · next c => obtain ⟨rfl, rfl⟩ := c; omega
          · omega
      · rw [mat_put _ x2, mat_put _ x1, mat_put _ x1, if_pos (c := k.src = k.src ∧ k.dst = k.dst) ⟨rfl, rfl⟩]
        split
        · next c => rw [if_pos ⟨c.1.symm, c.1⟩]; omega
        · omega
      · rw [mat_put _ x2, if_pos ⟨rfl, rfl⟩]; omega
    have step : (∀ a b, a < x.size → b < x.size → mat x a b ≤ mat z a b) ∧ k.lower ≤ mat z k.src k.dst ∧
        -k.upper ≤ mat z k.dst k.src := by
      by_cases c : x.size ≤ max k.src k.dst
      · obtain ⟨g1, r1, r2, r3, r4, r5⟩ := grow hc (n := max k.src k.dst + 1) (by omega)
        rw [insert_def x k c hk0.1 r1 r2] at e
        obtain ⟨o1, o2, o3⟩ := one g1 r3 (by omega) (by omega) e
        refine ⟨fun a b ha hb => ?_, o2, o3⟩
        have := o1 a b
        rw [r5 a b (by omega) (by omega), if_pos ⟨ha, hb⟩] at this
        exact this
      · obtain ⟨o1, o2, o3⟩ := one x hv (by omega) (by omega) e
        exact ⟨fun a b _ _ => o1 a b, o2, o3⟩
    obtain ⟨q1, q2, q3, q4, q5⟩ := inserts_bounds (g := g) v cl s (fun k' hk' => hk k' (by simp [hk'])) h
    refine ⟨q1, q2, by omega, fun a b ha hb => Int.le_trans (step.1 a b ha hb) (q4 a b (by omega) (by omega)), ?_⟩
    intro k' hk'
    rcases List.mem_cons.1 hk' with ek | hk''
    · subst ek
      have h1 := q4 k'.src k'.dst (by omega) (by omega)
      have h2 := q4 k'.dst k'.src (by omega) (by omega)
      exact ⟨by omega, by omega, by omega, by omega⟩
    · exact q5 k' hk''

/-! ## The empty interval in a batch on a new graph -/

theorem fold_same {α β : Type} {f : α → β → Res α} {a : α} : ∀ {l : List β}, (∀ b ∈ l, f a b = .ok a) → l.foldlM f a = .ok a
  | [], _ => rfl
  | b :: l, h => by
    rw [List.foldlM_cons, h b (by simp), ok_bind]
    exact fold_same (fun b hb => h b (by simp [hb]))

/-- a loop which changes nothing before the index `p` and panics there -/
theorem fold_panic {α : Type} {f : α → Nat → Res α} {a : α} {n p : Nat} {e : Panic} (hp : p < n)
    (h : ∀ j, j < p → f a j = .ok a) (hx : f a p = .error e) : (List.range n).foldlM f a = .error e := by
  obtain ⟨d, rfl⟩ : ∃ d, n = p + (d + 1) := ⟨n - p - 1, by omega⟩
  rw [List.range_add, List.foldlM_append, fold_same (fun b hb => h b (List.mem_range.1 hb)), ok_bind,
    List.range_succ_eq_map, List.map_cons, List.foldlM_cons]
  rw [show p + 0 = p from rfl, hx]
  rfl

theorem rowStep_eq {g : Graph} (hv : Valid g) {k i j : Nat} (hk : k < g.size) (hi : i < g.size) (hj : j < g.size) :
    rowStep k i g j = (tvAdd (mat g i k) (mat g k j) >>= fun v => .ok (put g i j (max (mat g i j) v))) := by
  unfold rowStep
  rw [lower_eq hv hi hk, ok_bind, lower_eq hv hk hj, ok_bind]
  congr 1
  funext v
  exact relax_eq hv hi hj v

theorem rowStep_same {g : Graph} (hv : Valid g) {k i j : Nat} (hk : k < g.size) (hi : i < g.size) (hj : j < g.size) {v : Int}
    (h : tvAdd (mat g i k) (mat g k j) = .ok v) (hle : v ≤ mat g i j) : rowStep k i g j = .ok g := by
  unfold rowStep
  rw [lower_eq hv hi hk, ok_bind, lower_eq hv hk hj, ok_bind, h, ok_bind]
  unfold Graph.relax
  rw [lower_eq hv hi hj, ok_bind, if_neg (by omega)]
  rfl

theorem rowStep_panic {g : Graph} (hv : Valid g) {k i j : Nat} (hk : k < g.size) (hi : i < g.size) (hj : j < g.size)
    (h : tvAdd (mat g i k) (mat g k j) = .error .assertFail) : rowStep k i g j = .error .assertFail := by
  rw [rowStep_eq hv hk hi hj, h]
  rfl

/-- only the instants `a` and `b` are related, by contradictory infinite bounds -/
structure Torn (n a b : Nat) (g : Graph) : Prop where
  valid : Valid g
  size : g.size = n
  ab : mat g a b = INF
  ba : mat g b a = INF
  diag : ∀ i, i < n → mat g i i = 0
  off : ∀ i j, i < n → j < n → i ≠ j → ¬ (i = a ∧ j = b) → ¬ (i = b ∧ j = a) → mat g i j = -INF

theorem Torn.panic {n a b : Nat} {g : Graph} (t : Torn n a b g) (hn : 3 ≤ n) (hab : a < b) (hb : b < n) :
    g.globalPropagation = .error .assertFail := by
  obtain ⟨hv, sz, t1, t2, t3, t4⟩ := t
  have z1 : tvAdd 0 0 = .ok 0 := by decide
  have z2 : tvAdd 0 (-INF) = .ok (-INF) := by decide
  have z3 : tvAdd (-INF) 0 = .ok (-INF) := by decide
  have z4 : tvAdd (-INF) (-INF) = .ok (-INF) := by decide
  have z5 : tvAdd 0 INF = .ok INF := by decide
  have z6 : tvAdd (-INF) INF = .error .assertFail := by decide
  have z7 : tvAdd INF 0 = .ok INF := by decide
  have z8 : tvAdd INF INF = .ok INF := by decide
  have z9 : tvAdd INF (-INF) = .error .assertFail := by decide
  have INF0 : (0 : Int) < INF := by decide
  rw [globalPropagation_def, sz]
  -- a body which changes nothing
  have body : ∀ k i, k < n → i < n → (∀ j, j < n → rowStep k i g j = .ok g) → gpBody k (g, false) i = .ok (g, false) := by
    intro k i hk hi h
    have r : g.gpRow k i = .ok g := by
      show (List.range g.size).foldlM (rowStep k i) g = .ok g
      exact fold_same (fun j hj => h j (by rw [← sz]; exact List.mem_range.1 hj))
    rw [gpBody_row r hv (by omega), t3 i hi, if_neg (by decide)]
  have bodyE : ∀ k i, g.gpRow k i = .error .assertFail → gpBody k (g, false) i = .error .assertFail := by
    intro k i h
    unfold gpBody
    simp only [Bool.false_eq_true, if_false]
    rw [h]
    rfl
  have main : (List.range n).foldlM (fun p k => (List.range n).foldlM (gpBody k) p) (g, false) = .error .assertFail := by
    refine fold_panic (p := a) (by omega) (fun k hk => ?_) ?_
    · refine fold_same (fun i hi => ?_)
      have hi := List.mem_range.1 hi
      refine body k i (by omega) hi (fun j hj => ?_)
      by_cases c1 : i = k
      · subst c1
        by_cases c2 : j = i
        · subst c2
          exact rowStep_same hv (by omega) (by omega) (by omega) (by rw [t3 j hj]; exact z1) (by rw [t3 j hj]; omega)
        · have e := t4 i j hi hj (by omega) (by omega) (by omega)
          exact rowStep_same hv (by omega) (by omega) (by omega) (by rw [t3 i hi, e]; exact z2) (by rw [e]; omega)
      · have e := t4 i k hi (by omega) c1 (by omega) (by omega)
        have le : -INF ≤ mat g i j := by
          by_cases d : i = j
          · subst d; rw [t3 i hi]; omega
          · by_cases d1 : i = a ∧ j = b
            · rw [d1.1, d1.2, t1]; omega
            · by_cases d2 : i = b ∧ j = a
              · rw [d2.1, d2.2, t2]; omega
              · rw [t4 i j hi hj d d1 d2]; omega
        by_cases c2 : j = k
        · subst c2
          exact rowStep_same hv (by omega) (by omega) (by omega) (by rw [t3 j hj, e]; exact z3) le
        · have e' := t4 k j (by omega) hj (by omega) (by omega) (by omega)
          exact rowStep_same hv (by omega) (by omega) (by omega) (by rw [e, e']; exact z4) le
    · -- the row which panics
      have row : ∀ i, i < n → i ≠ a → i ≠ b → gpBody a (g, false) i = .error .assertFail := by
        intro i hi c1 c2
        refine bodyE a i ?_
        show (List.range g.size).foldlM (rowStep a i) g = _
        have e := t4 i a hi (by omega) c1 (by omega) (by omega)
        refine fold_panic (p := b) (by omega) (fun j hj => ?_) ?_
        · have le : -INF ≤ mat g i j := by
            by_cases d : i = j
            · subst d; rw [t3 i hi]; omega
            · rw [t4 i j hi (by omega) d (by omega) (by omega)]; omega
          by_cases d : j = a
          · subst d
            exact rowStep_same hv (by omega) (by omega) (by omega) (by rw [e, t3 j (by omega)]; exact z3) le
          · have e' := t4 a j (by omega) (by omega) (by omega) (by omega) (by omega)
            exact rowStep_same hv (by omega) (by omega) (by omega) (by rw [e, e']; exact z4) le
        · exact rowStep_panic hv (by omega) (by omega) (by omega) (by rw [e, t1]; exact z6)
      -- the row of `a` itself changes nothing
      have self : gpBody a (g, false) a = .ok (g, false) := by
        refine body a a (by omega) (by omega) (fun j hj => ?_)
        by_cases d : j = a
        · subst d
          exact rowStep_same hv (by omega) (by omega) (by omega) (by rw [t3 j hj]; exact z1) (by rw [t3 j hj]; omega)
        · by_cases d' : j = b
          · subst d'
            exact rowStep_same hv (by omega) (by omega) (by omega) (by rw [t3 a (by omega), t1]; exact z5) (by rw [t1]; omega)
          · have e := t4 a j (by omega) hj (by omega) (by omega) (by omega)
            exact rowStep_same hv (by omega) (by omega) (by omega) (by rw [t3 a (by omega), e]; exact z2) (by rw [e]; omega)
      by_cases a0 : a = 0
      · subst a0
        refine fold_panic (p := 1) (by omega) (fun i hi => by
          rw [show i = 0 by omega]; exact self) ?_
        by_cases b1 : b = 1
        · subst b1
          refine bodyE 0 1 ?_
          show (List.range g.size).foldlM (rowStep 0 1) g = _
          obtain ⟨d, rfl⟩ : ∃ d, n = 2 + (d + 1) := ⟨n - 3, by omega⟩
          rw [sz, List.range_add, List.foldlM_append]
          have s0 : rowStep 0 1 g 0 = .ok g := rowStep_same hv (by omega) (by omega) (by omega)
            (by rw [t2, t3 0 (by omega)]; exact z7) (by rw [t2]; omega)
          have s1 : rowStep 0 1 g 1 = .ok (put g 1 1 (max (mat g 1 1) INF)) := by
            rw [rowStep_eq hv (by omega) (by omega) (by omega), t1, t2, z8]
            rfl
          have l1 : (List.range 2).foldlM (rowStep 0 1) g = .ok (put g 1 1 (max (mat g 1 1) INF)) := by
            rw [show List.range 2 = [0, 1] from rfl, List.foldlM_cons, s0, ok_bind, List.foldlM_cons, s1]
            rfl
          rw [l1, ok_bind, List.range_succ_eq_map, List.map_cons, List.foldlM_cons]
          have hv' := hv.put 1 1 (max (mat g 1 1) INF)
          have lt := hv.ix_lt (i := 1) (j := 1) (by omega) (by omega)
          have s2 : rowStep 0 1 (put g 1 1 (max (mat g 1 1) INF)) (2 + 0) = .error .assertFail := by
            refine rowStep_panic hv' (show 0 < g.size by omega) (show 1 < g.size by omega) (show 2 + 0 < g.size by omega) ?_
            rw [mat_put _ lt, if_neg (by omega), mat_put _ lt, if_neg (by omega), t2,
              t4 0 (2 + 0) (by omega) (by omega) (by omega) (by omega) (by omega)]
            exact z9
          rw [s2]
          rfl
        · exact row 1 (by omega) (by omega) (by omega)
      · exact fold_panic (p := 0) (by omega) (fun i hi => by omega) (row 0 (by omega) (by omega) (by omega))
  rw [main]
  rfl

end Chrono
