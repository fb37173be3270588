import Verif.Spec.History
import Verif.Props.GraphHistory

/-!
# Graphs whose history has small bounds
-/

namespace Chrono
open Spec

/-- what such a history maintains: the graph is closed, and its solutions are those of some constraints of at most `W` ticks -/
structure SInv (N : Nat) (W : Int) (g : Graph) (P : (Nat → Int) → Prop) : Prop where
  valid : Valid g
  tidy : Tidy g
  size : g.size ≤ N
  closed : Closed g.size (mat g)
  gen : ∃ ks : List Constr, (∀ k ∈ ks, Usable g.size W k) ∧ ∀ τ, P τ ↔ ∀ k ∈ ks, Holds τ k
  sat : ∀ τ, MSat g.size (mat g) τ ↔ P τ

theorem tight_congr {W : Int} {n : Nat} {M M' : Mat} (h : ∀ i j, i < n → j < n → M i j = M' i j) (ht : Tight W n M) : Tight W n M' := by
  intro i hi j hj hne
  rw [← h i j hi hj] at hne ⊢
  obtain ⟨L, h1, h2, h3, h4, h5⟩ := ht i hi j hj hne
  have key : ∀ L : List Nat, (∀ x ∈ L, x < n) → Edges (fun a b => M a b ≠ -INF ∧ -W ≤ M a b ∧ M a b ≤ W) L →
      Edges (fun a b => M' a b ≠ -INF ∧ -W ≤ M' a b ∧ M' a b ≤ W) L ∧ wsum M' L = wsum M L := by
    intro L
    induction L with
    | nil => intro _ _; exact ⟨trivial, rfl⟩
    | cons a l ih =>
      intro h3 h4
      cases l with
      | nil => exact ⟨trivial, rfl⟩
      | cons b l =>
        obtain ⟨k1, k2⟩ := ih (fun x hx => h3 x (List.mem_cons_of_mem _ hx)) h4.2
        have e := h a b (h3 a (by simp)) (h3 b (by simp))
        refine ⟨⟨by simp only; rw [← e]; exact h4.1, k1⟩, ?_⟩
        show M' a b + wsum M' (b :: l) = M a b + wsum M (b :: l)
        rw [k2, e]
  obtain ⟨k1, k2⟩ := key L h3 h4
  exact ⟨L, h1, h2, h3, k1, by rw [k2, h5]⟩

theorem SInv.tight {N : Nat} {W : Int} {g : Graph} {P : (Nat → Int) → Prop} (h : SInv N W g P) (hW : 0 ≤ W)
    (hB : 3 * (g.size : Int) * W < INF) : Tight W g.size (mat g) := by
  obtain ⟨ks, u, e⟩ := h.gen
  obtain ⟨g0, -, n0, v0, -, m0⟩ := withSize_eq h.valid.1
  have c0 : Closed g0.size (mat g0) := by rw [n0]; exact unconstrained_closed m0
  obtain ⟨g1, acc, -, -, c1, t1, -, s1, -, all⟩ := propagateAll_tight hW (ks := ks) v0 c0 (by rw [n0]; exact unconstrained_tight m0)
    (by rw [n0]; exact hB) (by rw [n0]; exact u)
  obtain ⟨τ, t⟩ := h.closed.sat
  have := all ⟨τ, by rw [n0]; exact unconstrained_sat m0 τ, (e τ).1 ((h.sat τ).1 t)⟩
  subst this
  rw [n0] at c1 t1 s1
  refine tight_congr (fun i j hi hj => c1.unique h.closed (fun τ => ?_) hi hj) t1
  rw [s1, h.sat, e]
  exact ⟨fun h => h.2, fun h => ⟨unconstrained_sat m0 τ, h⟩⟩

theorem usable_mono {m n : Nat} (h : m ≤ n) {W : Int} {k : Constr} (u : Usable m W k) : Usable n W k :=
  ⟨by have := u.1; omega, by have := u.2.1; omega, u.2.2⟩

theorem usable_of_batch {n m : Nat} {W : Int} (hW : W < INF) {k : Constr} (h : Batchable n W k) (hm : k.src < m ∧ k.dst < m)
    (hs : ∃ τ, Holds τ k) : Usable m W k := by
  obtain ⟨-, -, hw, -⟩ := h
  refine ⟨hm.1, hm.2, fun he => ⟨?_, hw⟩⟩
  obtain ⟨τ, t⟩ := hs
  rw [holds_iff he] at t
  obtain ⟨a, b⟩ := hw
  obtain ⟨c, d⟩ := t
  constructor <;> simp only <;> ticks

theorem sinv_free {N : Nat} {W : Int} {g : Graph} {P : (Nat → Int) → Prop} (h : HInv N g P) (hm : ∀ a b, a < g.size → b < g.size → mat g a b = if a = b then 0 else -INF) :
    SInv N W g (fun _ => True) :=
  ⟨h.valid, h.tidy, h.size, unconstrained_closed hm, ⟨[], by simp, by simp⟩, fun τ => ⟨fun _ => trivial, fun _ => unconstrained_sat hm τ⟩⟩

theorem sinv_reset {N : Nat} {W : Int} {g g' : Graph} (hv : Valid g) (hs : g.size ≤ N) (h : g.reset = .ok g') : SInv N W g' (fun _ => True) := by
  obtain ⟨x, h1, h2, h3⟩ := reset_eq hv
  have hi := hinv_reset hv hs h
  rw [h] at h1
  cases h1
  refine sinv_free hi (fun a b ha hb => ?_)
  rw [h3]
  rw [h2.size] at ha
  by_cases c : a = b
  · rw [if_pos ⟨c, ha⟩, if_pos c]
  · rw [if_neg (by omega), if_neg c]

theorem sinv_new {N n : Nat} (hN : N ≤ 65535) (hn : n ≤ N) {W : Int} {g : Graph} (h : Graph.withSize n = .ok g) : SInv N W g (fun _ => True) := by
  obtain ⟨x, h1, h2, -, -, h4⟩ := withSize_eq (n := n) (by omega)
  have hi := hinv_new hN hn h
  rw [h] at h1
  cases h1
  exact sinv_free hi (by rw [h2]; exact h4)

theorem sinv_add {n : Nat} {W : Int} {P : (Nat → Int) → Prop} {ks ks' : List Constr} {Q : (Nat → Int) → Prop}
    (h : (∀ k ∈ ks, Usable n W k) ∧ ∀ τ, P τ ↔ ∀ k ∈ ks, Holds τ k) (h' : (∀ k ∈ ks', Usable n W k) ∧ ∀ τ, Q τ ↔ ∀ k ∈ ks', Holds τ k) :
    ∃ ks : List Constr, (∀ k ∈ ks, Usable n W k) ∧ ∀ τ, (P τ ∧ Q τ) ↔ ∀ k ∈ ks, Holds τ k := by
  refine ⟨ks ++ ks', fun k hk => (List.mem_append.1 hk).elim (h.1 k) (h'.1 k), fun τ => ?_⟩
  rw [h.2, h'.2]
  exact ⟨fun t k hk => (List.mem_append.1 hk).elim (t.1 k) (t.2 k), fun t => ⟨fun k hk => t k (by simp [hk]), fun k hk => t k (by simp [hk])⟩⟩

theorem size_bound {N m : Nat} (h : m ≤ N) {W : Int} (hW : 0 ≤ W) (hB : 3 * (N : Int) * (N * W) < INF) (hN : 0 < N) :
    3 * (m : Int) * W < INF ∧ W ≤ N * W ∧ (m : Int) * W ≤ N * W ∧ 3 * (m : Int) * (N * W) < INF := by
  have a := Int.mul_le_mul_of_nonneg_right (a := 1) (b := (N : Int)) (c := W) (by omega) hW
  have b := Int.mul_le_mul_of_nonneg_right (a := (m : Int)) (b := (N : Int)) (c := W) (by omega) hW
  have c := Int.mul_le_mul_of_nonneg_right (a := 3 * (m : Int)) (b := 3 * (N : Int)) (c := N * W) (by omega) (by omega)
  have d := Int.mul_le_mul_of_nonneg_left (a := W) (b := N * W) (c := 3 * (m : Int)) (by omega) (by omega)
  omega

theorem SInv.small {N : Nat} {W : Int} {g : Graph} {P : (Nat → Int) → Prop} (h : SInv N W g P) (hW : 0 ≤ W) (hN : 0 < N)
    (hB : 3 * (N : Int) * (N * W) < INF) : SmallMat (N * W) g.size (mat g) := by
  obtain ⟨b1, -, b3, -⟩ := size_bound h.size hW hB hN
  have := h.closed.tight_small hW (h.tight hW b1)
  intro i hi j hj
  have b4 := Int.mul_le_mul_of_nonneg_right (a := ((g.size - 1 : Nat) : Int)) (b := (g.size : Int)) (c := W) (by omega) hW
  rcases this i hi j hj with h | h
  · exact Or.inl h
  · right; omega

theorem sinv_propagate {N : Nat} {W : Int} (hW : 0 ≤ W) (hN : 0 < N) (hB : 3 * (N : Int) * (N * W) < INF)
    {g : Graph} {P : (Nat → Int) → Prop} (h : SInv N W g P) {k : Constr} (hk : Usable g.size W k) :
    ∃ g' o, g.propagate k = .ok (g', o) ∧ o ≠ .fatal ∧ g'.size = g.size ∧ (o = .recovered → g' = g ∧ ∀ τ, P τ → ¬ Holds τ k) ∧
      (o ≠ .recovered → SInv N W g' (fun τ => P τ ∧ Holds τ k)) ∧ (o = .unchanged ↔ ∀ τ, P τ → Holds τ k) := by
  obtain ⟨b1, -, b3, -⟩ := size_bound h.size hW hB hN
  obtain ⟨g', o, e, s, c, -, m, nf, r, a, u⟩ := propagate_tight h.valid hW h.closed (h.tight hW b1) b1 hk
  refine ⟨g', o, e, nf, s.size, fun o => ⟨(r o).1, fun τ t => (r o).2 τ ((h.sat τ).2 t)⟩, fun o => ?_, ?_⟩
  · obtain ⟨ks, k1, k2⟩ := h.gen
    refine ⟨s.valid h.valid, s.tidy m h.tidy, by rw [s.size]; exact h.size, by rw [s.size]; exact c, ?_, fun τ => by rw [s.size, a o, h.sat]⟩
    rw [s.size]
    exact sinv_add ⟨k1, k2⟩ ⟨(by simpa using hk : ∀ x ∈ [k], Usable g.size W x), fun τ => by simp⟩
  · rw [u]
    exact ⟨fun t τ p => t τ ((h.sat τ).2 p), fun t τ p => t τ ((h.sat τ).1 p)⟩

theorem sinv_discover {N : Nat} (hN : N ≤ 65535) {W : Int} {g : Graph} {P : (Nat → Int) → Prop} (h : SInv N W g P) {k : Constr} (hk : Usable N W k)
    (hne : k.src ≠ k.dst) (hs : g.size ≤ k.src) (hd : g.size ≤ k.dst) {g' : Graph} {o : Outcome} (e : g.propagate k = .ok (g', o))
    (ho : o = .unchanged ∨ o = .propagated) : SInv N W g' (fun τ => P τ ∧ Holds τ k) := by
  have he : k.isEmpty = false := by
    cases he : k.isEmpty with
    | false => rfl
    | true =>
      rw [C61_empty_rejected g he] at e
      cases e
      rcases ho with h | h <;> cases h
  obtain ⟨u1, u2, u3⟩ := hk
  have hc := clean_iff.2 (tidy_clean h.tidy)
  obtain ⟨x, a1, a2, -, a4⟩ := C64_growth_partial h.valid hc ((minimal_iff h.valid).2 h.closed) he (u3 he).1 (by omega) (by omega) hne
  obtain ⟨y, b1, b2, b3, -, -⟩ := propagate_grow (tidy_clean h.tidy) he (by omega) (by omega) hne
  have ht := C59_tidy h.valid (op := .propagate k) ⟨by omega, by omega⟩ e (by rcases ho with rfl | rfl <;> decide) h.tidy (fun _ h => nomatch h) (fun h => nomatch h)
  rw [e] at a1 b1
  cases a1
  cases b1
  obtain ⟨ks, k1, k2⟩ := h.gen
  refine ⟨b3, ht, by omega, (minimal_iff b3).1 (a4 hs hd), ?_, fun τ => by rw [← sat_iff b3, a2, sat_iff h.valid, h.sat]⟩
  exact sinv_add ⟨fun x hx => usable_mono (by omega) (k1 x hx), k2⟩
    ⟨(by simpa using ⟨by omega, by omega, u3⟩ : ∀ x ∈ [k], Usable _ W x), fun τ => by simp⟩

theorem sinv_extend {N : Nat} (hN' : N ≤ 65535) {W : Int} (hW : 0 ≤ W) (hN : 0 < N) (hB : 3 * (N : Int) * (N * W) < INF)
    {g : Graph} {P : (Nat → Int) → Prop} (h : SInv N W g P) {ks : List Constr} (hk : ∀ k ∈ ks, Batchable N W k) {hint : Option Nat}
    (h0 : hint ≠ some 0) (h1 : hint ≠ some 1) :
    (∃ g', g.extend hint ks = .ok (g', .propagated) ∧ g'.size = max g.size (needed ks) ∧ SInv N W g' (fun τ => P τ ∧ ∀ k ∈ ks, Holds τ k)) ∨
    (∃ g', g.extend hint ks = .ok (g', .fatal) ∧ ∀ τ, ¬ (P τ ∧ ∀ k ∈ ks, Holds τ k)) := by
  obtain ⟨-, b2, -, -⟩ := size_bound h.size hW hB hN
  obtain ⟨c1, -, -, -⟩ := size_bound (Nat.le_refl N) hW hB hN
  have hWI : W < INF := by
    have := Int.mul_le_mul_of_nonneg_right (a := 1) (b := 3 * (N : Int)) (c := W) (by omega) hW
    omega
  rcases extend_spec h.valid (tidy_clean h.tidy) h.closed.diag (W := N * W) (by omega) (h.small hW hN hB) hN h.size hN' hB
      (fun k hk' => by
        obtain ⟨d1, d2, ⟨d3, d4⟩, d5⟩ := hk k hk'
        exact ⟨d1, d2, ⟨by omega, by omega⟩, d5⟩) h0 h1 with ⟨g', e, s, v, -, c, -, t⟩ | ⟨g', e, -, t⟩
  · left
    have ht := C59_tidy h.valid (op := .extend hint ks) (fun k hk' => by have := hk k hk'; exact ⟨by have := this.1; omega, by have := this.2.1; omega⟩)
      e (by decide) h.tidy (fun _ h => nomatch h) (fun h => nomatch h)
    have hn := needed_le (n := N) (ks := ks) (fun k hk' => ⟨(hk k hk').1, (hk k hk').2.1⟩)
    have hz := h.size
    refine ⟨g', e, s, v, ht, by omega, c, ?_, fun τ => by rw [t, h.sat]⟩
    obtain ⟨ks0, k1, k2⟩ := h.gen
    obtain ⟨τ, r⟩ := c.sat
    refine sinv_add ⟨fun x hx => usable_mono (by omega) (k1 x hx), k2⟩ ⟨fun k hk' => usable_of_batch hWI (hk k hk') ?_ ⟨τ, ((t τ).1 r).2 k hk'⟩, fun τ => Iff.rfl⟩
    have := lt_needed hk'
    omega
  · right
    exact ⟨g', e, fun τ p => t τ ⟨(h.sat τ).2 p.1, p.2⟩⟩

theorem sinv_merge {N : Nat} {W : Int} (hW : 0 ≤ W) (hN : 0 < N) (hB : 3 * (N : Int) * (N * W) < INF)
    {g h : Graph} {P Q : (Nat → Int) → Prop} (hg : SInv N W g P) (hh : SInv N W h Q) :
    ∃ g' o, g.merge h = .ok (g', o) ∧ o ≠ .recovered ∧ (o = .fatal ↔ ¬ ∃ τ, P τ ∧ Q τ) ∧
      (o ≠ .fatal → g'.size = max g.size h.size ∧ SInv N W g' (fun τ => P τ ∧ Q τ)) := by
  have z1 := hg.size
  have z2 := hh.size
  obtain ⟨-, -, -, b4⟩ := size_bound (m := max g.size h.size) (by omega) hW hB hN
  obtain ⟨-, b2, -, -⟩ := size_bound hg.size hW hB hN
  obtain ⟨g', o, e, e1, e2, -, -, e5⟩ := C67_merge hg.valid hh.valid hg.tidy hh.tidy (hg.closed.zeroDiag hg.valid) (hh.closed.zeroDiag hh.valid)
    ((minimal_iff hg.valid).2 hg.closed).1 ((minimal_iff hh.valid).2 hh.closed).1 (W := N * W) (by omega)
    ((within_iff hg.valid).2 (hg.small hW hN hB)) ((within_iff hh.valid).2 (hh.small hW hN hB)) b4
  have S : ∀ τ, (Sat τ g ∧ Sat τ h) ↔ (P τ ∧ Q τ) := fun τ => by rw [sat_iff hg.valid, sat_iff hh.valid, hg.sat, hh.sat]
  refine ⟨g', o, e, e1, ?_, fun ho => ?_⟩
  · rw [e2]
    exact ⟨fun n ⟨τ, t⟩ => n ⟨τ, (S τ).2 t⟩, fun n ⟨τ, t⟩ => n ⟨τ, (S τ).1 t⟩⟩
  · obtain ⟨f1, f2, f3, f4, f5⟩ := e5 ho
    obtain ⟨ks, k1, k2⟩ := hg.gen
    obtain ⟨ks', k1', k2'⟩ := hh.gen
    refine ⟨f1, f2, f3, by omega, (minimal_iff f2).1 (f5 ((minimal_iff hg.valid).2 hg.closed) ((minimal_iff hh.valid).2 hh.closed)), ?_,
      fun τ => by rw [← sat_iff f2, f4, S]⟩
    exact sinv_add ⟨fun x hx => usable_mono (by omega) (k1 x hx), k2⟩ ⟨fun x hx => usable_mono (by omega) (k1' x hx), k2'⟩

theorem sinv_grow {N : Nat} (hN : N ≤ 65535) {W : Int} {g g' : Graph} {P : (Nat → Int) → Prop} (h : SInv N W g P) {n : Nat} (hs : g.size ≤ n)
    (hn : n ≤ N) (e : g.resize n = .ok g') : SInv N W g' P := by
  obtain ⟨x, a1, a2, a3, -, a5⟩ := grow (tidy_clean h.tidy) (n := n) (by omega)
  obtain ⟨y, b1, -, -, -, b5⟩ := resize_next g (n := n) (by omega)
  rw [e] at a1 b1
  cases a1
  cases b1
  obtain ⟨ks, k1, k2⟩ := h.gen
  refine ⟨a3, b5, by omega, by rw [a2]; exact grow_closed a5 h.closed, ⟨ks, fun k hk => usable_mono (by omega) (k1 k hk), k2⟩, fun τ => ?_⟩
  rw [a2, grow_sat hs a5, h.sat]

theorem sinv_shrink {N : Nat} {W : Int} (hW : W < INF) {g g' : Graph} {P : (Nat → Int) → Prop} (h : SInv N W g P) (e : g.shrinkToFit = .ok g') :
    SInv N W g' P := by
  obtain ⟨n, h1, h2, h3, -⟩ := shrunk_eq h.valid g.size (Nat.le_refl _)
  have ht := C59_tidy h.valid (op := .shrinkToFit) (g' := g') (o := .unchanged) trivial
    (by show (g.shrinkToFit >>= fun x => pure (x, Outcome.unchanged)) = _; rw [e]; rfl) (by decide) h.tidy (fun _ h => nomatch h)
    (fun _ => h.closed.zeroDiag h.valid)
  unfold Graph.shrinkToFit at e
  rw [h1] at e
  cases e
  have hv : Valid { g with size := n } := by
    obtain ⟨a, b⟩ := h.valid
    refine ⟨by simp only; omega, ?_⟩
    simp only
    exact Nat.le_trans (Nat.mul_le_mul h2 h2) b
  have hz := h.size
  have S : ∀ τ, MSat n (mat g) τ ↔ P τ := by
    intro τ
    rw [← h.sat τ]
    constructor
    · intro t i hi j hj
      by_cases c : i < n ∧ j < n
      · exact t i c.1 j c.2
      · by_cases d : i = j
        · subst d; rw [h.closed.diag i hi]; right; omega
        · left; exact h3 i j d (by omega) hi hj
    · intro t i hi j hj
      exact t i (by omega) j (by omega)
  refine ⟨hv, ht, by simp only; omega, ⟨fun i hi => h.closed.diag i (by simp only at hi; omega), fun i hi k hk j hj => ?_⟩, ?_, S⟩
  · simp only at hi hk hj
    exact h.closed.tri i (by omega) k (by omega) j (by omega)
  · obtain ⟨ks, k1, k2⟩ := h.gen
    refine ⟨ks.filter fun k => decide (k.src < n ∧ k.dst < n), fun k hk => ?_, fun τ => ?_⟩
    · obtain ⟨a, b⟩ := List.mem_filter.1 hk
      simp only [decide_eq_true_eq] at b
      exact ⟨b.1, b.2, (k1 k a).2.2⟩
    · rw [k2]
      refine ⟨fun t k hk => t k (List.mem_filter.1 hk).1, fun t k hk => ?_⟩
      by_cases c : k.src < n ∧ k.dst < n
      · exact t k (List.mem_filter.2 ⟨hk, by simpa using c⟩)
      · obtain ⟨u1, u2, u3⟩ := k1 k hk
        have H : ∀ σ, MSat g.size (mat g) σ → Holds σ k := fun σ s => (k2 σ).1 ((h.sat σ).1 s) k hk
        obtain ⟨σ, s⟩ := h.closed.sat
        have he := (H σ s).1
        have hk' := (u3 he).2
        simp only [holds_iff he] at H
        rw [holds_iff he]
        by_cases d : k.src = k.dst
        · have := H σ s
          rw [d] at this ⊢
          omega
        · have m1 : mat g k.src k.dst = -INF := h3 _ _ d (by omega) u1 u2
          have m2 : mat g k.dst k.src = -INF := h3 _ _ (Ne.symm d) (by omega) u2 u1
          obtain ⟨σ1, s1, q1⟩ := h.closed.attain_below u1 u2 m1 (-INF)
          obtain ⟨σ2, s2, q2⟩ := h.closed.attain_below u2 u1 m2 (-INF)
          have r1 := H σ1 s1
          have r2 := H σ2 s2
          unfold WithinK at hk'
          omega

theorem steady_inv {N : Nat} (hN' : N ≤ 65535) (hN : 0 < N) {W : Int} (hW : 0 ≤ W) (hB : 3 * (N : Int) * (N * W) < INF) {g : Graph}
    {P : (Nat → Int) → Prop} (h : Steady N W g P) : SInv N W g P := by
  have hWI : W < INF := by
    obtain ⟨c1, -, -, -⟩ := size_bound (Nat.le_refl N) hW hB hN
    have := Int.mul_le_mul_of_nonneg_right (a := 1) (b := 3 * (N : Int)) (c := W) (by omega) hW
    omega
  induction h with
  | new hn e => exact sinv_new hN' hn e
  | accepted _ hk e ho ih =>
    obtain ⟨g1, o1, e1, -, -, -, a, -⟩ := sinv_propagate hW hN hB ih hk
    rw [e] at e1
    cases e1
    exact a (by rcases ho with rfl | rfl <;> decide)
  | discovered _ hk hne hs hd e ho ih => exact sinv_discover hN' ih hk hne hs hd e ho
  | rejected _ hk e ho ih =>
    obtain ⟨g1, o1, e1, nf, -, r, -, -⟩ := sinv_propagate hW hN hB ih hk
    rw [e] at e1
    cases e1
    rw [(r (ho.elim id fun h => absurd h nf)).1]
    exact ih
  | extended _ hk h0 h1 e ho ih =>
    rcases sinv_extend hN' hW hN hB ih hk h0 h1 with ⟨g1, e1, -, a⟩ | ⟨g1, e1, -⟩
    · rw [e] at e1
      cases e1
      exact a
    · rw [e] at e1
      cases e1
      exact absurd rfl ho
  | merged _ _ e ho ih ih' =>
    obtain ⟨g1, o1, e1, -, -, a⟩ := sinv_merge hW hN hB ih ih'
    rw [e] at e1
    cases e1
    exact (a ho).2
  | reset _ e ih => exact sinv_reset ih.valid ih.size e
  | resetExtend _ _ e e' _ => exact sinv_reset (valid_zero (extend_fatal_size e)) (by rw [extend_fatal_size e]; omega) e'
  | resetMerge _ _ e e' _ _ => exact sinv_reset (valid_zero (merge_fatal_size e)) (by rw [merge_fatal_size e]; omega) e'
  | grown _ hs hn e ih => exact sinv_grow hN' ih hs hn e
  | shrunk _ e ih => exact sinv_shrink hWI ih e

end Chrono
