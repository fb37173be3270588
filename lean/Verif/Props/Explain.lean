import Verif.Spec.Explain
import Verif.Props.GraphCollect

/-!
# Answers of a graph can be explained (C148)
-/

namespace Chrono
open Spec

theorem leads_sound {ks : List Constr} {τ : Nat → Int} (h : ∀ k ∈ ks, Holds τ k) {i j : Nat} {w : Int} (l : Leads ks i j w) :
    w ≤ τ j - τ i := by
  induction l with
  | here => omega
  | least _ hk hb ih =>
    have := (h _ hk).2.1
    simp only at this
    omega
  | most _ hk hb ih =>
    have := (h _ hk).2.2
    simp only at this
    omega

theorem leads_mono {ks ls : List Constr} (h : ∀ k ∈ ks, k ∈ ls) {i j : Nat} {w : Int} (l : Leads ks i j w) : Leads ls i j w := by
  induction l with
  | here => exact .here
  | least _ hk hb ih => exact .least ih (h _ hk) hb
  | most _ hk hb ih => exact .most ih (h _ hk) hb

/-- Two instants which are as close as possible in some solution are linked by a chain. -/
theorem leads_of_tight {ks : List Constr} {τ : Nat → Int} (h : ∀ k ∈ ks, Holds τ k) {i j : Nat}
    (hm : ∀ σ, (∀ k ∈ ks, Holds σ k) → τ j - τ i ≤ σ j - σ i) : Leads ks i j (τ j - τ i) := by
  apply Classical.byContradiction
  intro hn
  let S : Nat → Prop := fun x => Leads ks i x (τ x - τ i)
  have : ∀ x, Decidable (S x) := fun x => Classical.propDecidable _
  let σ : Nat → Int := fun x => if S x then τ x else τ x - 1
  have hi : S i := by
    show Leads ks i i (τ i - τ i)
    rw [Int.sub_self]; exact .here
  have hσ : ∀ k ∈ ks, Holds σ k := by
    intro k hk
    obtain ⟨e, h1, h2⟩ := h k hk
    simp only at h1 h2
    have key1 : S k.src → ¬ S k.dst → k.lower ≠ -INF → k.lower < τ k.dst - τ k.src := by
      intro a b c
      have : k.lower ≤ τ k.dst - τ k.src := by omega
      rcases Int.lt_or_eq_of_le this with l | l
      · exact l
      · refine absurd ?_ b
        have := Leads.least a hk c
        rw [l] at this
        show Leads ks i k.dst (τ k.dst - τ i)
        rw [show τ k.dst - τ i = τ k.src - τ i + (τ k.dst - τ k.src) by omega]
        exact this
    have key2 : S k.dst → ¬ S k.src → k.upper ≠ INF → τ k.dst - τ k.src < k.upper := by
      intro a b c
      have : τ k.dst - τ k.src ≤ k.upper := by omega
      rcases Int.lt_or_eq_of_le this with l | l
      · exact l
      · refine absurd ?_ b
        have := Leads.most a hk c
        rw [← l] at this
        show Leads ks i k.src (τ k.src - τ i)
        rw [show τ k.src - τ i = τ k.dst - τ i - (τ k.dst - τ k.src) by omega]
        exact this
    refine ⟨e, ?_, ?_⟩
    · simp only
      by_cases c : k.lower = -INF
      · exact Or.inl c
      · refine Or.inr ?_
        show k.lower ≤ (if S k.dst then τ k.dst else τ k.dst - 1) - (if S k.src then τ k.src else τ k.src - 1)
        have := fun a b => key1 a b c
        by_cases a : S k.src <;> by_cases b : S k.dst <;> simp only [a, b, if_true, if_false] <;>
          first | omega | (have := this a b; omega)
    · simp only
      by_cases c : k.upper = INF
      · exact Or.inl c
      · refine Or.inr ?_
        show (if S k.dst then τ k.dst else τ k.dst - 1) - (if S k.src then τ k.src else τ k.src - 1) ≤ k.upper
        have := fun a b => key2 a b c
        by_cases a : S k.src <;> by_cases b : S k.dst <;> simp only [a, b, if_true, if_false] <;>
          first | omega | (have := this b a; omega)
  have := hm σ hσ
  have e1 : σ i = τ i := if_pos hi
  have e2 : σ j = τ j - 1 := if_neg hn
  omega

/-! ## Properties -/

/-- **C148.** The bounds of a delay announced by a graph which means the constraints `ks` are the totals of chains of these constraints, and
there is no chain with a stronger total; a delay without a bound is one without a chain. -/
theorem C148_delay {g : Graph} (hm : Minimal g) {ks : List Constr} (hs : ∀ τ, Sat τ g ↔ ∀ k ∈ ks, Holds τ k) {i j : Nat}
    (hi : i < g.size) (hj : j < g.size) {s : Iv} (h : g.timespan i j = .ok s) :
    Explained ks i j s := by
  obtain ⟨⟨τ0, t0⟩, hr⟩ := hm
  have all : ∀ τ, (∀ k ∈ ks, Holds τ k) → InExt (τ j - τ i) s := by
    intro τ hτ
    obtain ⟨s', e, h'⟩ := (hs τ).2 hτ i j hi hj
    rw [h] at e; cases e
    exact h'
  have hr := hr i j hi hj s h
  have n0 := all τ0 ((hs τ0).1 t0)
  unfold InExt at all hr n0
  refine ⟨fun c => ?_, fun c w l => ?_, fun c => ?_, fun c w l => ?_⟩
  · obtain ⟨τ, t, e⟩ := hr s.lower (by omega)
    have l := leads_of_tight ((hs τ).1 t) (i := i) (j := j) (fun σ hσ => by have := all σ hσ; omega)
    rw [e] at l
    exact ⟨l, fun w lw => by have := leads_sound ((hs τ).1 t) lw; omega⟩
  · obtain ⟨τ, t, e⟩ := hr (min (w - 1) (τ0 j - τ0 i)) (by omega)
    have := leads_sound ((hs τ).1 t) l
    omega
  · obtain ⟨τ, t, e⟩ := hr s.upper (by omega)
    have l := leads_of_tight ((hs τ).1 t) (i := j) (j := i) (fun σ hσ => by have := all σ hσ; omega)
    rw [show τ i - τ j = -s.upper by omega] at l
    exact ⟨l, fun w lw => by have := leads_sound ((hs τ).1 t) lw; omega⟩
  · obtain ⟨τ, t, e⟩ := hr (max (1 - w) (τ0 j - τ0 i)) (by omega)
    have := leads_sound ((hs τ).1 t) l
    omega

theorem loop_unsat {ks : List Constr} (h : Loop ks) : ¬ ∃ τ, ∀ k ∈ ks, Holds τ k := by
  rintro ⟨τ, hτ⟩
  obtain ⟨i, w, l, hw⟩ := h
  have := leads_sound hτ l
  omega

/-- why a constraint between two instants of a graph is refused -/
theorem refused_loop {g : Graph} (hm : Minimal g) {ks : List Constr} (hs : ∀ τ, Sat τ g ↔ ∀ k ∈ ks, Holds τ k) {k : Constr}
    (h1 : k.src < g.size) (h2 : k.dst < g.size) (he : k.isEmpty = false) (hw : k.lower ≤ k.upper) (hlo : k.lower < INF)
    (hhi : -INF < k.upper) (hn : ¬ ∃ τ, (∀ k ∈ ks, Holds τ k) ∧ Holds τ k) : Loop (k :: ks) := by
  obtain ⟨⟨τ0, t0⟩, hr⟩ := id hm
  obtain ⟨s, e, n0⟩ := t0 _ _ h1 h2
  have hd := C148_delay hm hs h1 h2 e
  have hr := hr _ _ h1 h2 s e
  unfold InExt at hr n0
  have no : ∀ d, ((s.lower = -INF ∨ s.lower ≤ d) ∧ (s.upper = INF ∨ d ≤ s.upper)) → (k.lower = -INF ∨ k.lower ≤ d) →
      (k.upper = INF ∨ d ≤ k.upper) → False := by
    intro d a b c
    obtain ⟨τ, t, et⟩ := hr d a
    exact hn ⟨τ, (hs τ).1 t, (holds_iff he).2 ⟨by omega, by omega⟩⟩
  have hsub : ∀ c ∈ ks, c ∈ k :: ks := fun c hc => by simp [hc]
  by_cases c1 : s.upper ≠ INF ∧ k.lower ≠ -INF ∧ s.upper < k.lower
  · obtain ⟨a, b, c⟩ := c1
    have l := leads_mono hsub (hd.2.2.1 a).1
    have := Leads.least l (by simp) b
    exact ⟨_, _, this, by omega⟩
  · by_cases c2 : s.lower ≠ -INF ∧ k.upper ≠ INF ∧ k.upper < s.lower
    · obtain ⟨a, b, c⟩ := c2
      have l := leads_mono hsub (hd.1 a).1
      have := Leads.most l (by simp) b
      exact ⟨_, _, this, by omega⟩
    · exfalso
      generalize τ0 k.dst - τ0 k.src = d0 at n0
      by_cases p : k.lower = -INF ∨ k.lower ≤ d0
      · by_cases q : k.upper = INF ∨ d0 ≤ k.upper
        · exact no d0 n0 p q
        · exact no k.upper (by omega) (by omega) (by omega)
      · exact no k.lower (by omega) (by omega) (by omega)

/-- a set of constraints which cannot be satisfied has a loop -/
theorem unsat_loop {n : Nat} (hn : n ≤ 65535) {W : Int} (hW : 0 ≤ W) (hB : 3 * (n : Int) * W < INF) :
    ∀ {ks : List Constr}, (∀ k ∈ ks, Usable n W k) → (∀ k ∈ ks, k.isEmpty = false) → (¬ ∃ τ, ∀ k ∈ ks, Holds τ k) → Loop ks
  | [], _, _, h => absurd ⟨fun _ => 0, fun _ h => nomatch h⟩ h
  | k :: ks, hk, he, h => by
    by_cases c : ∃ τ, ∀ k ∈ ks, Holds τ k
    · obtain ⟨g0, e0, n0, v0, -, m0⟩ := withSize_eq hn
      obtain ⟨g, acc, e1, s1, c1, t1, -, a1, -, all⟩ := propagateAll_tight (ks := ks) hW v0 (unconstrained_closed (by rw [n0]; exact m0))
        (unconstrained_tight (by rw [n0]; exact m0)) (by rw [n0]; exact hB) (by rw [n0]; exact fun k h => hk k (by simp [h]))
      obtain ⟨τ, hτ⟩ := c
      have := all ⟨τ, unconstrained_sat (by rw [n0]; exact m0) τ, hτ⟩
      subst this
      have sz := s1.size
      have hv := s1.valid v0
      have hsat : ∀ τ, Sat τ g ↔ ∀ k ∈ acc, Holds τ k := by
        intro τ
        rw [sat_iff hv, sz, a1]
        exact ⟨fun h => h.2, fun h => ⟨unconstrained_sat (by rw [n0]; exact m0) τ, h⟩⟩
      have hmin := (minimal_iff hv).2 (by rw [sz]; exact c1)
      obtain ⟨k1, k2, k3⟩ := hk k (by simp)
      obtain ⟨hw, -⟩ := k3 (he k (by simp))
      refine refused_loop hmin hsat (by omega) (by omega) (he k (by simp)) hw.le hw.lo_lt hw.lt_hi ?_
      rintro ⟨σ, h1, h2⟩
      refine h ⟨σ, fun c hc => ?_⟩
      rcases List.mem_cons.1 hc with rfl | hc
      · exact h2
      · exact h1 c hc
    · obtain ⟨i, w, l, hw⟩ := unsat_loop hn hW hB (ks := ks) (fun k h => hk k (by simp [h])) (fun k h => he k (by simp [h])) c
      exact ⟨i, w, leads_mono (fun c hc => by simp [hc]) l, hw⟩

/-- **C148.** After any history of constraints on the instants of a graph, the announced delays are explained by the accepted
constraints. A further constraint is refused iff it makes a loop with them, and `Unchanged` is returned iff chains of them require as much. -/
theorem C148_history {n : Nat} (hn : n ≤ 65535) {W : Int} (hW : 0 ≤ W) (hB : 3 * (n : Int) * W < INF)
    {ks : List Constr} (hks : ∀ k ∈ ks, Usable n W k) :
    ∃ g acc, (Graph.withSize n >>= fun g => propagateAll g ks) = .ok (g, acc) ∧
      (∀ i j, i < n → j < n → ∃ s, g.timespan i j = .ok s ∧ Explained acc i j s) ∧
      ∀ k, Usable n W k → k.isEmpty = false → ∃ g' o, g.propagate k = .ok (g', o) ∧
        (o = .recovered ↔ Loop (k :: acc)) ∧
        (o = .unchanged ↔ (k.lower ≠ -INF → ∃ w, Leads acc k.src k.dst w ∧ k.lower ≤ w) ∧
          (k.upper ≠ INF → ∃ w, Leads acc k.dst k.src w ∧ -w ≤ k.upper)) := by
  obtain ⟨g, acc, e, sz, hm, hs, ha, hp⟩ := C63_history hn hW hB hks
  refine ⟨g, acc, e, fun i j hi hj => ?_, fun k hk he => ?_⟩
  · obtain ⟨s, es, -⟩ := ha i j hi hj
    exact ⟨s, es, C148_delay hm hs (by omega) (by omega) es⟩
  · obtain ⟨g', o, ep, -, hr, hu⟩ := hp k hk
    obtain ⟨k1, k2, k3⟩ := hk
    obtain ⟨hw, -⟩ := k3 he
    refine ⟨g', o, ep, hr.trans ⟨fun h => refused_loop hm hs (by omega) (by omega) he hw.le hw.lo_lt hw.lt_hi h, fun h => ?_⟩,
      hu.trans ⟨fun h => ?_, fun h τ hτ => ?_⟩⟩
    · rintro ⟨τ, h1, h2⟩
      refine loop_unsat h ⟨τ, fun c hc => ?_⟩
      rcases List.mem_cons.1 hc with rfl | hc
      · exact h2
      · exact h1 c hc
    · obtain ⟨s, es, hd⟩ := ha _ _ k1 k2
      obtain ⟨x1, -, x3, -⟩ := C148_delay hm hs (by omega) (by omega) es
      obtain ⟨τ0, t0⟩ := hm.1
      have n0 := (hd _).2 ⟨τ0, (hs τ0).1 t0, rfl⟩
      generalize τ0 k.dst - τ0 k.src = d0 at n0
      have no : ∀ d, InExt d s → (k.lower = -INF ∨ k.lower ≤ d) ∧ (k.upper = INF ∨ d ≤ k.upper) := by
        intro d hd'
        obtain ⟨τ, a, b⟩ := (hd d).1 hd'
        have := (holds_iff he).1 (h τ a)
        omega
      unfold InExt at no n0
      refine ⟨fun c => ?_, fun c => ?_⟩
      · by_cases c' : s.lower = -INF
        · have := no (min d0 (k.lower - 1)) (by omega); omega
        · have := no s.lower (by omega)
          exact ⟨_, (x1 c').1, by omega⟩
      · by_cases c' : s.upper = INF
        · have := no (max d0 (k.upper + 1)) (by omega); omega
        · have := no s.upper (by omega)
          exact ⟨_, (x3 c').1, by omega⟩
    · refine (holds_iff he).2 ⟨?_, ?_⟩
      · by_cases c : k.lower = -INF
        · exact Or.inl c
        · obtain ⟨w, l, hl⟩ := h.1 c
          have := leads_sound hτ l
          omega
      · by_cases c : k.upper = INF
        · exact Or.inl c
        · obtain ⟨w, l, hl⟩ := h.2 c
          have := leads_sound hτ l
          omega

/-- **C148.** Non-empty constraints can be collected into a graph iff they make no loop, and the delays it announces are explained by them. -/
theorem C148_collect {W : Int} (hW : 0 ≤ W) {n : Nat} (hn0 : 0 < n) (hn2 : n ≤ 65535)
    (hB : 3 * (n : Int) * W < INF) {ks : List Constr} (hks : ∀ k ∈ ks, Batchable n W k ∧ Usable n W k ∧ k.isEmpty = false)
    {hint : Option Nat} (hh : ∀ m, hint = some m → ks.length ≤ m)
    (hself : hint = some 1 → ∀ k ∈ ks, k.src ≠ k.dst) :
    ((∃ g, Graph.fromConstraints hint ks = .ok g) ↔ ¬ Loop ks) ∧
    ∀ g, Graph.fromConstraints hint ks = .ok g → ∀ i j, i < g.size → j < g.size → ∃ s, g.timespan i j = .ok s ∧ Explained ks i j s := by
  obtain ⟨h1, h2⟩ := C103_collect_partial hW hn0 hn2 hB (fun k hk => ⟨(hks k hk).1, (hks k hk).2.1⟩) hh hself
  refine ⟨h1.trans ⟨fun h l => loop_unsat l h, fun h => Classical.byContradiction fun c =>
    h (unsat_loop hn2 hW hB (fun k hk => (hks k hk).2.1) (fun k hk => (hks k hk).2.2) c)⟩, fun g hg i j hi hj => ?_⟩
  obtain ⟨-, -, hm, hs⟩ := h2 g hg
  obtain ⟨τ0, t0⟩ := hm.1
  obtain ⟨s, es, -⟩ := t0 i j hi hj
  exact ⟨s, es, C148_delay hm hs hi hj es⟩

/-! ## Examples -/

/-- Two delays of at least 10 and 5 ticks explain the third one; a constraint which forbids it makes a loop. -/
example : Usable 3 26 ⟨0, 1, false, 10, 20⟩ ∧ Usable 3 26 ⟨1, 2, false, 5, 6⟩ ∧ Usable 3 26 ⟨0, 2, false, -INF, 14⟩ ∧
    (Graph.withSize 3 >>= fun g => propagateAll g [⟨0, 1, false, 10, 20⟩, ⟨1, 2, false, 5, 6⟩]) =
      .ok (exGraph, [⟨0, 1, false, 10, 20⟩, ⟨1, 2, false, 5, 6⟩]) ∧
    exGraph.timespan 0 2 = .ok ⟨15, 26⟩ ∧ Leads [⟨0, 1, false, 10, 20⟩, ⟨1, 2, false, 5, 6⟩] 0 2 15 ∧
    Leads [⟨0, 1, false, 10, 20⟩, ⟨1, 2, false, 5, 6⟩] 2 0 (-26) ∧
    exGraph.propagate ⟨0, 2, false, -INF, 14⟩ = .ok (exGraph, .recovered) ∧
    Loop [⟨0, 2, false, -INF, 14⟩, ⟨0, 1, false, 10, 20⟩, ⟨1, 2, false, 5, 6⟩] := by
  refine ⟨by decide, by decide, by decide, by decide, by decide, ?_, ?_, by decide, 0, 1, ?_, by decide⟩
  · exact .least (k := ⟨1, 2, false, 5, 6⟩) (.least (k := ⟨0, 1, false, 10, 20⟩) .here (by simp) (by decide)) (by simp) (by decide)
  · exact .most (k := ⟨0, 1, false, 10, 20⟩) (.most (k := ⟨1, 2, false, 5, 6⟩) .here (by simp) (by decide)) (by simp) (by decide)
  · exact .most (k := ⟨0, 2, false, -INF, 14⟩) (.least (k := ⟨1, 2, false, 5, 6⟩) (.least (k := ⟨0, 1, false, 10, 20⟩) .here (by simp) (by decide))
      (by simp) (by decide)) (by simp) (by decide)

/-- The same constraints, collected. -/
example : 3 * ((3 : Nat) : Int) * 26 < INF ∧ Batchable 3 26 ⟨0, 1, false, 10, 20⟩ ∧ Batchable 3 26 ⟨1, 2, false, 5, 6⟩ ∧
    Graph.fromConstraints none [⟨0, 1, false, 10, 20⟩, ⟨1, 2, false, 5, 6⟩] = .ok exGraph ∧
    Graph.fromConstraints none [⟨0, 2, false, -INF, 14⟩, ⟨0, 1, false, 10, 20⟩, ⟨1, 2, false, 5, 6⟩] ≠ .ok exGraph := by
  refine ⟨?_, ?_, ?_, ?_, ?_⟩ <;> decide

end Chrono
