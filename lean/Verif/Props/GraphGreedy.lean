import Verif.Props.Monotone

/-!
# C133: what a graph announces can be asked for
-/

namespace Chrono
open Spec

theorem bound_lt {N : Nat} (hN : 0 < N) {W : Int} (hW : 0 ≤ W) (hB : 3 * (N : Int) * (N * W) < INF) : N * W < INF ∧ W < INF := by
  have a := (size_bound (Nat.le_refl N) hW hB hN).2.1
  have b := Int.mul_le_mul_of_nonneg_right (a := 1) (b := 3 * (N : Int)) (c := N * W) (by omega) (by omega)
  omega

theorem common_ext {s k : Iv} (h1 : -INF ≤ s.lower) (h2 : s.upper ≤ INF) (h3 : -INF ≤ k.lower) (h4 : k.upper ≤ INF) (t : Int) :
    InExt t s ∧ InExt t k ↔ InExt t ⟨max s.lower k.lower, min s.upper k.upper⟩ := by
  simp only [InExt]
  have a : (max s.lower k.lower = -INF ∨ max s.lower k.lower ≤ t) ↔ (s.lower = -INF ∨ s.lower ≤ t) ∧ (k.lower = -INF ∨ k.lower ≤ t) := by omega
  have b : (min s.upper k.upper = INF ∨ t ≤ min s.upper k.upper) ↔ (s.upper = INF ∨ t ≤ s.upper) ∧ (k.upper = INF ∨ t ≤ k.upper) := by omega
  rw [a, b]
  exact ⟨fun ⟨⟨a, b⟩, c, d⟩ => ⟨⟨a, c⟩, b, d⟩, fun ⟨⟨a, c⟩, b, d⟩ => ⟨⟨a, b⟩, c, d⟩⟩

theorem same_delays {a b : Iv} (h : ∀ t, InExt t a ↔ InExt t b) (hne : ∃ t, InExt t a) : a = b := by
  obtain ⟨l, u⟩ := a
  obtain ⟨l', u'⟩ := b
  obtain ⟨t, ht⟩ := hne
  have ht' := (h t).1 ht
  have key : ∀ {l u l' u' : Int}, (∀ t, InExt t ⟨l, u⟩ → InExt t ⟨l', u'⟩) → InExt t ⟨l, u⟩ →
      (l' = -INF ∨ (l ≠ -INF ∧ l' ≤ l)) ∧ (u' = INF ∨ (u ≠ INF ∧ u ≤ u')) := by
    intro l u l' u' k ⟨h1, h2⟩
    simp only at h1 h2
    constructor
    · by_cases c : l = -INF
      · have := (k (min t (l' - 1)) ⟨Or.inl c, h2.imp id (fun h => by simp only; omega)⟩).1
        simp only at this
        omega
      · have := (k l ⟨Or.inr (by simp), h2.imp id (fun h => by simp only; omega)⟩).1
        simp only at this
        omega
    · by_cases c : u = INF
      · have := (k (max t (u' + 1)) ⟨h1.imp id (fun h => by simp only; omega), Or.inl c⟩).2
        simp only at this
        omega
      · have := (k u ⟨h1.imp id (fun h => by simp only; omega), Or.inr (by simp)⟩).2
        simp only at this
        omega
  have k1 := key (fun t => (h t).1) ht
  have k2 := key (fun t => (h t).2) ht'
  have e1 : l = l' := by omega
  have e2 : u = u' := by omega
  rw [e1, e2]

/-- C133: the answer to a constraint between two instants is decided by the time span announced between them: it is refused if and only if they
have no common delay, `Unchanged` if and only if the whole time span is allowed, and what is announced afterwards is exactly their intersection. -/
theorem C133_span_partial {N : Nat} (hN : 0 < N) (hN' : N ≤ 65535) {W : Int} (hW : 0 ≤ W) (hB : 3 * (N : Int) * (N * W) < INF)
    {g : Graph} {P : (Nat → Int) → Prop} (h : Steady N W g P) {k : Constr} (hk : Usable g.size W k) (hne : k.src ≠ k.dst)
    (he : k.isEmpty = false) {s : Iv} (hs : g.timespan k.src k.dst = .ok s) :
    ∃ x o, g.propagate k = .ok (x, o) ∧ (o = .recovered ↔ ∀ t, InExt t s → ¬ InExt t ⟨k.lower, k.upper⟩) ∧
      (o = .unchanged ↔ ∀ t, InExt t s → InExt t ⟨k.lower, k.upper⟩) ∧
      (o ≠ .recovered → x.timespan k.src k.dst = .ok ⟨max s.lower k.lower, min s.upper k.upper⟩) := by
  have i1 := steady_inv hN' hN hW hB h
  have all : ∀ t, InExt t s ↔ ∃ τ, P τ ∧ τ k.dst - τ k.src = t := fun t => by
    rw [← i1.delays hne]
    exact ⟨fun q => ⟨s, hs, q⟩, fun ⟨s', e, q⟩ => by rw [hs] at e; cases e; exact q⟩
  have lim : -INF ≤ s.lower ∧ s.upper ≤ INF := by
    have e := hs
    rw [timespan_eq i1.valid hk.1 hk.2.1] at e
    cases e
    have a := i1.small hW hN hB _ hk.1 _ hk.2.1
    have b := i1.small hW hN hB _ hk.2.1 _ hk.1
    have c := bound_lt hN hW hB
    simp only [Small] at a b ⊢
    omega
  obtain ⟨x, o, e, nf, sz, r, a, n⟩ := sinv_propagate hW hN hB i1 hk
  have R : o = .recovered ↔ ∀ t, InExt t s → ¬ InExt t ⟨k.lower, k.upper⟩ := by
    constructor
    · intro c t q
      obtain ⟨τ, p, rfl⟩ := (all t).1 q
      exact fun q' => (r c).2 τ p ⟨he, q'⟩
    · intro c
      by_cases c' : o = .recovered
      · exact c'
      · obtain ⟨τ, t⟩ := (a c').closed.sat
        have t := ((a c').sat τ).1 t
        exact absurd t.2.2 (c _ ((all _).2 ⟨τ, t.1, rfl⟩))
  refine ⟨x, o, e, R, ?_, fun c => ?_⟩
  · rw [n]
    constructor
    · intro c t q
      obtain ⟨τ, p, rfl⟩ := (all t).1 q
      exact (c τ p).2
    · exact fun c τ p => ⟨he, c _ ((all _).2 ⟨τ, p, rfl⟩)⟩
  · have j1 := a c
    have z1 := hk.1
    have z2 := hk.2.1
    have c := bound_lt hN hW hB
    rw [timespan_eq j1.valid (by omega) (by omega)]
    have wf := (hk.2.2 he).2
    congr 1
    refine same_delays (fun t => ?_) ?_
    · have d := j1.delays hne t
      rw [timespan_eq j1.valid (by omega) (by omega)] at d
      have d1 : InExt t ⟨mat x k.src k.dst, -mat x k.dst k.src⟩ ↔ InExt t s ∧ InExt t ⟨k.lower, k.upper⟩ := by
        rw [all]
        constructor
        · intro q
          obtain ⟨τ, ⟨p1, p2⟩, rfl⟩ := d.1 ⟨_, rfl, q⟩
          exact ⟨⟨τ, p1, rfl⟩, p2.2⟩
        · rintro ⟨⟨τ, p, rfl⟩, q⟩
          obtain ⟨s', e', q'⟩ := d.2 ⟨τ, ⟨p, he, q⟩, rfl⟩
          cases e'
          exact q'
      rw [d1]
      simp only [WithinK] at wf
      exact common_ext lim.1 lim.2 (k := ⟨k.lower, k.upper⟩) (by simp only; omega) (by simp only; omega) t
    · obtain ⟨τ, t⟩ := j1.closed.sat
      have q := (j1.delays hne _).2 ⟨τ, (j1.sat τ).1 t, rfl⟩
      rw [timespan_eq j1.valid (by omega) (by omega)] at q
      obtain ⟨s', e', q⟩ := q
      cases e'
      exact ⟨_, q⟩

/-- C133: choose a delay in the time span announced between two instants, give it to `propagate`, choose another one, and so on, in any order:
every choice is accepted; in the end the chosen delays are the only ones announced, and the solutions are those of the graph with the chosen
delays, of which there is at least one. If the delays from some instant to all the others have been chosen, they are a solution. -/
theorem C133_choose_partial {N : Nat} (hN : 0 < N) (hN' : N ≤ 65535) {W : Int} (hW : 0 ≤ W) (hB : 3 * (N : Int) * (N * W) < INF)
    {g : Graph} {P : (Nat → Int) → Prop} (h : Steady N W g P) {picks : List (Nat × Nat × Int)} (hp : Pins W g picks) :
    ∃ x, propagateAll g (picks.map fun p => ⟨p.1, p.2.1, false, p.2.2, p.2.2⟩) =
        .ok (x, picks.map fun p => ⟨p.1, p.2.1, false, p.2.2, p.2.2⟩) ∧
      (∀ p ∈ picks, x.timespan p.1 p.2.1 = .ok ⟨p.2.2, p.2.2⟩) ∧
      (∀ τ, Sat τ x ↔ P τ ∧ ∀ p ∈ picks, τ p.2.1 - τ p.1 = p.2.2) ∧ (∃ τ, Sat τ x) ∧
      ∀ r, r < g.size → (∀ j, j < g.size → j ≠ r → ∃ t, (r, j, t) ∈ picks) →
        ∀ τ : Nat → Int, (∀ p ∈ picks, τ p.2.1 - τ p.1 = p.2.2) → P τ := by
  have key : ∀ (l : List (Nat × Nat × Int)) (q : Graph) (Q : (Nat → Int) → Prop), SInv N W q Q → Pins W q l →
      ∃ x, propagateAll q (l.map fun p => ⟨p.1, p.2.1, false, p.2.2, p.2.2⟩) =
          .ok (x, l.map fun p => ⟨p.1, p.2.1, false, p.2.2, p.2.2⟩) ∧
        SInv N W x (fun τ => Q τ ∧ ∀ p ∈ l, τ p.2.1 - τ p.1 = p.2.2) ∧ x.size = q.size ∧
        ∀ p ∈ l, p.1 ≠ p.2.1 ∧ p.1 < q.size ∧ p.2.1 < q.size ∧ -W ≤ p.2.2 ∧ p.2.2 ≤ W := by
    have hWI := (bound_lt hN hW hB).2
    intro l
    induction l with
    | nil => exact fun q Q i _ => ⟨q, rfl, by simpa using i, rfl, by simp⟩
    | cons p l ih =>
      obtain ⟨i, j, t⟩ := p
      rintro q Q i1 ⟨p1, p2, p3, ⟨s, e, q1⟩, p4, p5, p6⟩
      have u : Usable q.size W ⟨i, j, false, t, t⟩ := by
        refine ⟨p2, p3, fun _ => ⟨?_, ?_⟩⟩
        · constructor <;> simp only <;> omega
        · simp only [WithinK]
          omega
      obtain ⟨x1, o, e1, nf, sz, r, a, -⟩ := sinv_propagate hW hN hB i1 u
      have ho : o ≠ .recovered := by
        intro c
        obtain ⟨τ, t1, t2⟩ := (i1.delays p1 t).1 ⟨s, e, q1⟩
        exact (r c).2 τ t1 ⟨rfl, Or.inr (by simp only; omega), Or.inr (by simp only; omega)⟩
      have hiff : ∀ τ : Nat → Int, Holds τ ⟨i, j, false, t, t⟩ ↔ τ j - τ i = t := fun τ => by
        simp only [Holds, InExt, true_and]
        omega
      obtain ⟨x, b1, b2, b3, b4⟩ := ih x1 _ (a ho) (p6 x1 o e1)
      refine ⟨x, ?_, ?_, b3.trans sz, ?_⟩
      · simp only [List.map_cons, propagateAll, e1, ok_bind, b1]
        rw [if_neg (by simp [ho, nf])]
        rfl
      · have : (fun τ : Nat → Int => Q τ ∧ ∀ p ∈ (i, j, t) :: l, τ p.2.1 - τ p.1 = p.2.2) =
            (fun τ => (Q τ ∧ Holds τ ⟨i, j, false, t, t⟩) ∧ ∀ p ∈ l, τ p.2.1 - τ p.1 = p.2.2) := by
          funext τ
          rw [hiff, List.forall_mem_cons, and_assoc]
        rw [this]
        exact b2
      · intro p hp
        rcases List.mem_cons.1 hp with rfl | hp
        · exact ⟨p1, p2, p3, p4, p5⟩
        · rw [← sz]
          exact b4 p hp
  obtain ⟨x, b1, b2, b3, b4⟩ := key picks g P (steady_inv hN' hN hW hB h) hp
  have sat : ∀ τ, Sat τ x ↔ P τ ∧ ∀ p ∈ picks, τ p.2.1 - τ p.1 = p.2.2 := fun τ => by rw [sat_iff b2.valid, b2.sat]
  obtain ⟨σ, hσ⟩ := b2.closed.sat
  have hσ := (b2.sat σ).1 hσ
  refine ⟨x, b1, fun p hp => ?_, sat, ⟨σ, (sat σ).2 hσ⟩, fun r hr hall τ hτ => ?_⟩
  · obtain ⟨c1, c2, c3, c4, c5⟩ := b4 p hp
    have d := fun t => b2.delays c1 t
    rw [timespan_eq b2.valid (by omega) (by omega)] at d ⊢
    congr 1
    have d : ∀ t, InExt t ⟨mat x p.1 p.2.1, -mat x p.2.1 p.1⟩ ↔ t = p.2.2 := fun t => by
      constructor
      · intro q
        obtain ⟨τ, t1, t2⟩ := (d t).1 ⟨_, rfl, q⟩
        exact t2.symm.trans (t1.2 p hp)
      · rintro rfl
        obtain ⟨s, e, q⟩ := (d p.2.2).2 ⟨σ, hσ, hσ.2 p hp⟩
        cases e
        exact q
    refine same_delays (fun t => ?_) ⟨p.2.2, (d _).2 rfl⟩
    rw [d]
    have hWI := (bound_lt hN hW hB).2
    simp only [InExt]
    omega
  · have i1 := steady_inv hN' hN hW hB h
    rw [← i1.sat]
    intro i hi j hj
    have z : ∀ i, i < g.size → τ i - τ r = σ i - σ r := by
      intro i hi
      by_cases c : i = r
      · subst c; omega
      · obtain ⟨t, ht⟩ := hall i hi c
        exact (hτ _ ht).trans (hσ.2 _ ht).symm
    have y := (i1.sat σ).2 hσ.1 i hi j hj
    have z1 := z i hi
    have z2 := z j hj
    rw [show τ j - τ i = σ j - σ i by omega]
    exact y

/-- C133 is violated when a constraint links an old instant to a new one, as soon as something is known on the old instant: any delay from `b` to
the new instant is announced, but all those which are too short are either refused or accepted with no solution left. -/
theorem C133_deduction_violated {N : Nat} (hN : 0 < N) (hN' : N < 65535) {W : Int} (hW : 0 ≤ W) (hB : 3 * (N : Int) * (N * W) < INF)
    {g : Graph} {P : (Nat → Int) → Prop} (h : Steady N W g P) {k : Constr} (hk : Usable N W k) (he : k.isEmpty = false) (hs : k.src < g.size)
    (hd : g.size ≤ k.dst) (h1 : k.lower ≠ -INF) {b : Nat} (hb : b < g.size) (hne : b ≠ k.src) {s : Iv} (e : g.timespan b k.src = .ok s)
    (h2 : s.lower ≠ -INF) :
    ∃ x, g.propagate k = .ok (x, .propagated) ∧ x.timespan b k.dst = .ok ⟨-INF, INF⟩ ∧
      ∀ t, -INF < t → t < s.lower + k.lower → t < INF → ∀ y o, x.propagate ⟨b, k.dst, false, t, t⟩ = .ok (y, o) →
        o = .recovered ∨ ¬ ∃ τ, Representable N τ ∧ Sat τ y := by
  have i1 := steady_inv (by omega) hN hW hB h
  have cl := clean_iff.2 (tidy_clean i1.tidy)
  have mn := (minimal_iff i1.valid).2 i1.closed
  obtain ⟨k1, k2, k3⟩ := hk
  have k3 := k3 he
  have c := bound_lt hN hW hB
  obtain ⟨x, p1, t1, l1, -⟩ := C64_deduction_violated i1.valid cl mn he k3.1 hs hd (by omega) hb hne e h1 h2
  refine ⟨x, p1, t1, fun t ht ht1 ht2 y o p2 => ?_⟩
  have hg : HInv N g P := ⟨i1.valid, i1.tidy, (within_iff i1.valid).2 fun i hi j hj => by
    have := i1.small hW hN hB i hi j hj
    unfold Small at *
    omega, i1.size, fun i hi => by rw [i1.closed.diag i hi]; exact Int.le_refl 0, fun τ _ => by rw [sat_iff i1.valid, i1.sat]⟩
  have wk := k3.2
  rcases (hinv_propagate (by omega) hg (k := k) ⟨by omega, k1, k2, by simp only [WithinK] at *; omega, fun q => by simp [he] at q⟩).1 x _ p1
    with ⟨-, hx⟩ | ⟨q, -, -⟩
  · rcases (hinv_propagate (by omega) hx (k := ⟨b, k.dst, false, t, t⟩) ⟨by simp only; omega, by simp only; omega, k2,
        by simp only [WithinK]; omega, fun q => by cases q⟩).1 y o p2 with ⟨-, hy⟩ | ⟨q, -, -⟩
    · right
      rintro ⟨τ, r, sat⟩
      obtain ⟨a1, a2⟩ := (hy.sat τ r).1 sat
      have a3 := l1 τ ((hx.sat τ r).2 a1)
      obtain ⟨-, a4⟩ := a2
      simp only [InExt] at a4
      omega
    · exact Or.inl q
  · cases q

/-- For instance, any delay from 0 to 2 is announced; 0 is chosen, and accepted, but the graph
then has no solution at all. -/
theorem C133_growth_violated : ∃ g g' g'', Graph.default.propagate ⟨0, 1, false, 10, 20⟩ = .ok (g, .propagated) ∧
    g.propagate ⟨1, 2, false, 5, 6⟩ = .ok (g', .propagated) ∧ g'.timespan 0 2 = .ok ⟨-INF, INF⟩ ∧
    g'.propagate ⟨0, 2, false, 0, 0⟩ = .ok (g'', .propagated) ∧ g''.timespan 0 1 = .ok ⟨10, -5⟩ ∧ ¬ ∃ τ, Sat τ g'' := by
  refine ⟨⟨2, [0, -20, 0, 10]⟩, ⟨3, [0, -20, 0, 10, -INF, -6, 0, 5, -INF]⟩, ⟨3, [0, 5, 15, 10, 0, 10, 0, 5, 0]⟩, by decide +kernel,
    by decide +kernel, by decide +kernel, by decide +kernel, by decide +kernel, fun ⟨τ, h⟩ => ?_⟩
  obtain ⟨s, e, a, b⟩ := h 0 1 (by decide) (by decide)
  have e' : (Graph.mk 3 [0, 5, 15, 10, 0, 10, 0, 5, 0]).timespan 0 1 = .ok ⟨10, -5⟩ := by decide +kernel
  rw [e'] at e
  cases e
  simp only at a b
  ticks

/-! ## Examples -/

/-- a graph of three instants after two constraints -/
theorem greedy_steady : ∃ P, Steady 3 20 ⟨3, [0, -20, 0, 10, -26, -6, 0, 5, 15]⟩ P := by
  have a0 : Steady 3 20 ⟨3, [0, -INF, 0, -INF, -INF, -INF, 0, -INF, -INF]⟩ _ := .new (n := 3) (by decide) (by decide +kernel)
  have a1 : Steady 3 20 ⟨3, [0, -20, 0, 10, -INF, -INF, 0, -INF, -INF]⟩ _ := a0.accepted (k := ⟨0, 1, false, 10, 20⟩) (o := .propagated)
    (by unfold Usable WithinK; decide) (by decide +kernel) (Or.inr rfl)
  exact ⟨_, a1.accepted (k := ⟨1, 2, false, 5, 6⟩) (o := .propagated) (by unfold Usable WithinK; decide) (by decide +kernel) (Or.inr rfl)⟩

/-- the delay from 0 to 2 is announced to be between 15 and 26: at least 18 is asked for, and 18 to 26 is announced -/
example : ∃ x o, (Graph.mk 3 [0, -20, 0, 10, -26, -6, 0, 5, 15]).propagate ⟨0, 2, false, 18, INF⟩ = .ok (x, o) ∧ o ≠ .recovered ∧
    x.timespan 0 2 = .ok ⟨18, 26⟩ := by
  obtain ⟨P, h⟩ := greedy_steady
  obtain ⟨x, o, e, r, -, u⟩ := C133_span_partial (by decide) (by decide) (by decide) (by decide) h (k := ⟨0, 2, false, 18, INF⟩)
    (by unfold Usable WithinK; decide) (by decide) rfl (s := ⟨15, 26⟩) (by decide +kernel)
  have ho : o ≠ .recovered := fun c => r.1 c 20 (by decide) (by decide)
  exact ⟨x, o, e, ho, u ho⟩

/-- 20 is chosen for the delay from 0 to 2, then 14 for the delay from 0 to 1 -/
example : Pins 20 ⟨3, [0, -20, 0, 10, -26, -6, 0, 5, 15]⟩ [(0, 2, 20), (0, 1, 14)] := by
  have e1 : (Graph.mk 3 [0, -20, 0, 10, -26, -6, 0, 5, 15]).propagate ⟨0, 2, false, 20, 20⟩ =
    .ok (⟨3, [0, -15, 0, 14, -20, -6, 0, 5, 20]⟩, .propagated) := by decide +kernel
  refine ⟨by decide, by decide, by decide, ⟨⟨15, 26⟩, by decide +kernel, by decide⟩, by decide, by decide, fun g' o h => ?_⟩
  rw [e1] at h
  cases h
  exact ⟨by decide, by decide, by decide, ⟨⟨14, 15⟩, by decide +kernel, by decide⟩, by decide, by decide, fun _ _ _ => trivial⟩

end Chrono
