import Verif.Lemmas.GraphProp

/-!
# Solutions of a graph, and what `propagate` does to them
-/

set_option linter.unusedSimpArgs false

namespace Chrono
open Spec

theorem sat_iff {g : Graph} (hv : Valid g) (τ : Nat → Int) : Sat τ g ↔ MSat g.size (mat g) τ := by
  unfold Sat MSat
  constructor
  · intro h i hi j hj
    obtain ⟨s, h1, h2⟩ := h i j hi hj
    rw [timespan_eq hv hi hj] at h1
    cases h1
    exact h2.1
  · intro h i j hi hj
    refine ⟨_, timespan_eq hv hi hj, h i hi j hj, ?_⟩
    show -mat g j i = INF ∨ _ ≤ -mat g j i
    have := h j hj i hi
    omega

theorem minimal_of_closed {g : Graph} (hv : Valid g) (h : Closed g.size (mat g)) : Minimal g := by
  constructor
  · obtain ⟨τ, h1⟩ := h.sat
    exact ⟨τ, (sat_iff hv τ).2 h1⟩
  · intro i j hi hj s hs d hd
    rw [timespan_eq hv hi hj] at hs
    cases hs
    have h1 : mat g i j = -INF ∨ mat g i j ≤ d := hd.1
    have h2 : -mat g j i = INF ∨ d ≤ -mat g j i := hd.2
    obtain ⟨τ, t1, t2⟩ := h.attain hi hj (d := d) h1 (by omega) (by
      rintro rfl
      have := h.diag i hi
      have : (0 : Int) ≠ -INF := by decide
      have : (0 : Int) ≠ INF := by decide
      omega)
    exact ⟨τ, (sat_iff hv τ).2 t1, t2⟩

theorem closed_of_minimal {g : Graph} (hv : Valid g) (h : Minimal g) : Closed g.size (mat g) := by
  obtain ⟨⟨τ0, h0⟩, h1⟩ := h
  rw [sat_iff hv] at h0
  have att : ∀ i j, i < g.size → j < g.size → ∀ d, (mat g i j = -INF ∨ mat g i j ≤ d) →
      (mat g j i = -INF ∨ mat g j i ≤ -d) → ∃ τ, MSat g.size (mat g) τ ∧ τ j - τ i = d := by
    intro i j hi hj d a b
    obtain ⟨τ, t1, t2⟩ := h1 i j hi hj _ (timespan_eq hv hi hj) d ⟨a, by
      show -mat g j i = INF ∨ d ≤ -mat g j i
      omega⟩
    exact ⟨τ, (sat_iff hv τ).1 t1, t2⟩
  constructor
  · intro i hi
    have a := h0 i hi i hi
    by_cases c : mat g i i = 0
    · exact c
    · exfalso
      obtain ⟨τ, -, t⟩ := att i i hi hi (-1) (by omega) (by omega)
      omega
  · intro i hi k hk j hj c1 c2
    have a1 := h0 i hi k hk
    have a2 := h0 k hk j hj
    have a3 := h0 i hi j hj
    have a4 := h0 j hj i hi
    -- a delay below the sum
    have key : ¬ ∃ d, d < mat g i k + mat g k j ∧ (mat g i j = -INF ∨ mat g i j ≤ d) ∧
        (mat g j i = -INF ∨ mat g j i ≤ -d) := by
      rintro ⟨d, l, b1, b2⟩
      obtain ⟨τ, t1, t2⟩ := att i j hi hj d b1 b2
      have := t1 i hi k hk
      have := t1 k hk j hj
      omega
    by_cases c3 : mat g i j = -INF
    · exfalso
      apply key
      by_cases c4 : mat g j i = -INF
      · exact ⟨mat g i k + mat g k j - 1, by omega, Or.inl c3, Or.inl c4⟩
      · refine ⟨min (mat g i k + mat g k j - 1) (-mat g j i), by omega, Or.inl c3, Or.inr (by omega)⟩
    · refine ⟨c3, ?_⟩
      by_cases c : mat g i k + mat g k j ≤ mat g i j
      · exact c
      · exfalso
        apply key
        exact ⟨mat g i j, by omega, Or.inr (Int.le_refl _), by omega⟩

theorem minimal_iff {g : Graph} (hv : Valid g) : Minimal g ↔ Closed g.size (mat g) :=
  ⟨closed_of_minimal hv, minimal_of_closed hv⟩

theorem small_of_within {B : Int} {g : Graph} (hv : Valid g) (h : Within B g) : SmallMat B g.size (mat g) := by
  intro i hi j hj
  have := (h i j hi hj _ (timespan_eq hv hi hj)).1
  exact this

theorem within_of_small {B : Int} {g : Graph} (hv : Valid g) (h : SmallMat B g.size (mat g)) : Within B g := by
  intro i j hi hj s hs
  rw [timespan_eq hv hi hj] at hs
  cases hs
  have h1 := h i hi j hj
  have h2 := h j hj i hi
  unfold Small at *
  refine ⟨h1, ?_⟩
  show -mat g j i = INF ∨ (-B ≤ -mat g j i ∧ -mat g j i ≤ B)
  omega

theorem within_iff {B : Int} {g : Graph} (hv : Valid g) : Within B g ↔ SmallMat B g.size (mat g) :=
  ⟨small_of_within hv, within_of_small hv⟩

theorem mat_eq_sat {n : Nat} {M N : Mat} (h : ∀ a b, a < n → b < n → M a b = N a b) (τ : Nat → Int) :
    MSat n M τ ↔ MSat n N τ := by
  unfold MSat
  constructor
  · intro h1 i hi j hj
    rw [← h i j hi hj]; exact h1 i hi j hj
  · intro h1 i hi j hj
    rw [h i j hi hj]; exact h1 i hi j hj

theorem mat_eq_closed {n : Nat} {M N : Mat} (h : ∀ a b, a < n → b < n → M a b = N a b) (hN : Closed n N) :
    Closed n M := by
  constructor
  · intro i hi; rw [h i i hi hi]; exact hN.diag i hi
  · intro i hi k hk j hj
    rw [h i k hi hk, h k j hk hj, h i j hi hj]
    exact hN.tri i hi k hk j hj

theorem mat_eq_small {n : Nat} {B : Int} {M N : Mat} (h : ∀ a b, a < n → b < n → M a b = N a b)
    (hN : SmallMat B n N) : SmallMat B n M := by
  intro i hi j hj; rw [h i j hi hj]; exact hN i hi j hj

theorem mat_eq_tight {n : Nat} {W : Int} {M N : Mat} (h : ∀ a b, a < n → b < n → M a b = N a b)
    (hN : Tight W n N) : Tight W n M := by
  have ws : ∀ l : List Nat, (∀ x ∈ l, x < n) → wsum M l = wsum N l := by
    intro l
    induction l with
    | nil => intro _; rfl
    | cons x t ih =>
      cases t with
      | nil => intro _; rfl
      | cons y t =>
        intro hl
        simp only [wsum]
        rw [h x y (hl x (by simp)) (hl y (by simp)), ih (fun z hz => hl z (by simp at hz ⊢; right; exact hz))]
  have ed : ∀ l : List Nat, (∀ x ∈ l, x < n) → Edges (fun a b => N a b ≠ -INF ∧ -W ≤ N a b ∧ N a b ≤ W) l →
      Edges (fun a b => M a b ≠ -INF ∧ -W ≤ M a b ∧ M a b ≤ W) l := by
    intro l
    induction l with
    | nil => intro _ _; trivial
    | cons x t ih =>
      cases t with
      | nil => intro _ _; trivial
      | cons y t =>
        rintro hl ⟨h1, h2⟩
        refine ⟨?_, ih (fun z hz => hl z (by simp at hz ⊢; right; exact hz)) h2⟩
        show M x y ≠ _ ∧ _ ≤ M x y ∧ M x y ≤ _
        rw [h x y (hl x (by simp)) (hl y (by simp))]; exact h1
  intro i hi j hj hne
  rw [h i j hi hj] at hne ⊢
  obtain ⟨L, h1, h2, h3, h4, h5⟩ := hN i hi j hj hne
  exact ⟨L, h1, h2, h3, ed L h3 h4, by rw [ws L h3]; exact h5⟩

/-- the bounds of a constraint hold -/
theorem holds_iff {τ : Nat → Int} {k : Constr} (h : k.isEmpty = false) : Holds τ k ↔
    (k.lower = -INF ∨ k.lower ≤ τ k.dst - τ k.src) ∧ (k.upper = INF ∨ τ k.dst - τ k.src ≤ k.upper) := by
  unfold Holds InExt
  rw [h]
  simp

/-- setting one bound and propagating it -/
theorem set_plb {g : Graph} (hv : Valid g) {B : Int} (hC : Closed g.size (mat g)) (hS : SmallMat B g.size (mat g))
    {io jo : Nat} (hio : io < g.size) (hjo : jo < g.size) (hne : io ≠ jo) {v : Int} (hv1 : Small B v)
    (hv2 : v ≠ -INF) (hB0 : 0 ≤ B) (hB : 3 * B < INF) (hlt : mat g io jo ≤ v)
    (hc : mat g jo io = -INF ∨ mat g jo io + v ≤ 0) :
    ∃ g', (g.setLower io jo v >>= fun g => g.propagateLowerBound io jo) = .ok g' ∧ Shape g g' ∧
      (∀ a b, a < g.size → b < g.size → mat g' a b = addEdge (mat g) io jo v a b) ∧
      (∀ a b, (g.size ≤ a ∨ g.size ≤ b) → mat g' a b = mat g a b) := by
  rw [setLower_eq hv hio hjo, ok_bind]
  have hx := hv.ix_lt hio hjo
  obtain ⟨g', h1, h2, h3, h4⟩ := plb_eq (g := put g io jo v) (hv.put io jo v) (C := mat g) hC hS hio hjo hne hv1
    hv2 hB0 hB (fun a b _ _ => mat_put v hx a b) (Or.inr hlt) hc
  refine ⟨g', h1, ⟨h2.size, by rw [h2.len, put_len]⟩, h3, ?_⟩
  intro a b hab
  rw [h4 a b hab, mat_put v hx, if_neg]
  omega

/-- The possible results of `propagate` on instants of a closed graph. -/
theorem propagate_in {g : Graph} (hv : Valid g) {B : Int} (hC : Closed g.size (mat g))
    (hS : SmallMat B g.size (mat g)) {k : Constr} (hk : k.isEmpty = false) (hw : WF ⟨k.lower, k.upper⟩)
    (hkB : WithinK B k) (hs : k.src < g.size) (hd : k.dst < g.size) (hB0 : 0 ≤ B) (hB : 3 * B < INF)
    (hS' : (mat g k.src k.dst < k.lower → ¬ (mat g k.dst k.src > -k.lower) →
      SmallMat B g.size (addEdge (mat g) k.src k.dst k.lower)) ∨ 9 * B < INF) :
    (g.propagate k = .ok (g, .unchanged) ∧ k.lower ≤ mat g k.src k.dst ∧ -k.upper ≤ mat g k.dst k.src) ∨
    (g.propagate k = .ok (g, .recovered) ∧ ∀ τ, MSat g.size (mat g) τ → ¬ Holds τ k) ∨
    (∃ g', g.propagate k = .ok (g', .propagated) ∧ Shape g g' ∧ Closed g.size (mat g') ∧
      (∀ τ, MSat g.size (mat g') τ ↔ MSat g.size (mat g) τ ∧ Holds τ k) ∧
      (∀ a b, (g.size ≤ a ∨ g.size ≤ b) → mat g' a b = mat g a b) ∧
      (mat g k.src k.dst < k.lower ∨ mat g k.dst k.src < -k.upper) ∧
      (∀ W, W ≤ B → WithinK W k → Tight W g.size (mat g) → Tight W g.size (mat g'))) := by
  have hne : k.src = k.dst → mat g k.src k.dst = 0 ∧ mat g k.dst k.src = 0 := by
    intro e
    rw [e]
    exact ⟨hC.diag _ hd, hC.diag _ hd⟩
  have w1 := hw.le
  have w2 := hw.lo
  have w3 := hw.hi
  have w4 := hw.lo_lt
  have w5 := hw.lt_hi
  simp only at w1 w2 w3 w4 w5
  obtain ⟨b1, b2⟩ := hkB
  have s1 := hS _ hs _ hd
  have s2 := hS _ hd _ hs
  have hzi : (0 : Int) < INF := by decide
  unfold Graph.propagate
  rw [hk]
  simp only [Bool.false_eq_true, if_false]
  rw [if_neg (by omega), lower_eq hv hs hd, ok_bind, lower_eq hv hd hs, ok_bind]
  have tneg : ∀ x : Int, tvNeg x = -x := fun _ => rfl
  simp only [tneg]
  have hol : ∀ τ, Holds τ k ↔ (k.lower = -INF ∨ k.lower ≤ τ k.dst - τ k.src) ∧
    (k.upper = INF ∨ τ k.dst - τ k.src ≤ k.upper) := fun τ => holds_iff hk
  by_cases c1 : k.lower ≤ mat g k.src k.dst
  · rw [if_pos c1]
    by_cases c2 : -k.upper ≤ mat g k.dst k.src
    · left
      rw [if_pos c2]
      exact ⟨rfl, c1, c2⟩
    · rw [if_neg c2]
      by_cases c3 : mat g k.src k.dst > k.upper
      · right; left
        rw [if_pos c3]
        refine ⟨rfl, fun τ h1 h2 => ?_⟩
        rw [hol] at h2
        have := h1 _ hs _ hd
        unfold Small at *
        omega
      · right; right
        rw [if_neg c3]
        have hne' : k.dst ≠ k.src := by
          intro e
          have := hne e.symm
          omega
        unfold Small at s1 s2
        have hvv : -k.upper ≠ -INF := by omega
        have hvs : Small B (-k.upper) := by unfold Small; omega
        have hcon : mat g k.src k.dst = -INF ∨ mat g k.src k.dst + -k.upper ≤ 0 := by omega
        obtain ⟨g', e, sh, m, m'⟩ := set_plb hv hC hS hd hs hne' hvs hvv hB0 hB (by omega) hcon
        refine ⟨g', ?_, sh, ?_, ?_, m', Or.inr (by omega), ?_⟩
        · rw [← bind_assoc, e, ok_bind]; rfl
        · exact mat_eq_closed m (addEdge_closed hC hS hd hs hvs hvv hB hcon)
        · intro τ
          rw [mat_eq_sat m, addEdge_sat hC hS hd hs hvs hvv hB, hol]
          constructor
          · rintro ⟨h1, h2⟩
            have := h1 _ hs _ hd
            refine ⟨h1, ?_, ?_⟩ <;> omega
          · rintro ⟨h1, h2, h3⟩
            exact ⟨h1, by omega⟩
        · intro W hW hkW ht
          obtain ⟨kw1, kw2⟩ := hkW
          exact mat_eq_tight m (addEdge_tight hC hS hW ht hd hs (by omega) (by omega) hB hcon (by omega))
  · rw [if_neg c1]
    by_cases c2 : mat g k.dst k.src > -k.lower
    · right; left
      rw [if_pos c2]
      refine ⟨rfl, fun τ h1 h2 => ?_⟩
      rw [hol] at h2
      have := h1 _ hd _ hs
      unfold Small at *
      omega
    · right; right
      rw [if_neg c2]
      have hne' : k.src ≠ k.dst := by
        intro e
        have := hne e
        omega
      unfold Small at s1 s2
      have hvv : k.lower ≠ -INF := by omega
      have hvs : Small B k.lower := by unfold Small; omega
      have hcon : mat g k.dst k.src = -INF ∨ mat g k.dst k.src + k.lower ≤ 0 := by omega
      obtain ⟨g1, e, sh, m, m'⟩ := set_plb hv hC hS hs hd hne' hvs hvv hB0 hB (by omega) hcon
      have hv1 := sh.valid hv
      have sz := sh.size
      have cl1 := mat_eq_closed m (addEdge_closed hC hS hs hd hvs hvv hB hcon)
      have sat1 : ∀ τ, MSat g.size (mat g1) τ ↔ MSat g.size (mat g) τ ∧ k.lower ≤ τ k.dst - τ k.src := by
        intro τ
        rw [mat_eq_sat m, addEdge_sat hC hS hs hd hvs hvv hB]
      -- a bound for the second step
      obtain ⟨B', hBB', hB', hS1⟩ : ∃ B', B ≤ B' ∧ 3 * B' < INF ∧ SmallMat B' g.size (mat g1) := by
        rcases hS' with h | h
        · exact ⟨B, Int.le_refl _, hB, mat_eq_small m (h (by omega) c2)⟩
        · exact ⟨3 * B, by omega, by omega, mat_eq_small m (addEdge_small hS hs hd hvs hB hvv)⟩
      have tight1 : ∀ W, W ≤ B → WithinK W k → Tight W g.size (mat g) → Tight W g.size (mat g1) := by
        intro W hW hkW ht
        obtain ⟨kw1, kw2⟩ := hkW
        exact mat_eq_tight m (addEdge_tight hC hS hW ht hs hd (by omega) (by omega) hB hcon (by omega))
      -- the bound just set is the exact one
      have esd : mat g1 k.src k.dst = k.lower := by
        rw [m _ _ hs hd]
        unfold addEdge
        rw [hC.diag _ hs, hC.diag _ hd, oadd_ne (by decide) hvv, Int.zero_add, oadd_ne hvv (by decide), Int.add_zero]
        omega
      rw [← bind_assoc, e, ok_bind, lower_eq hv1 (by omega) (by omega), ok_bind]
      by_cases c3 : mat g1 k.dst k.src < -k.upper
      · rw [if_pos c3]
        have t1 := hS1 _ hd _ hs
        unfold Small at t1
        have hvv2 : -k.upper ≠ -INF := by omega
        have hvs2 : Small B' (-k.upper) := by unfold Small; omega
        have hcon2 : mat g1 k.src k.dst = -INF ∨ mat g1 k.src k.dst + -k.upper ≤ 0 := by omega
        obtain ⟨g2, e2, sh2, m2, m2'⟩ := set_plb hv1 (by rw [sz]; exact cl1) (by rw [sz]; exact hS1)
          (io := k.dst) (jo := k.src) (by omega) (by omega) (Ne.symm hne') hvs2 hvv2 (by omega) hB' (by omega) hcon2
        rw [sz] at m2 m2'
        refine ⟨g2, ?_, sh.trans sh2, ?_, ?_, ?_, Or.inl (by omega), ?_⟩
        · rw [← bind_assoc, e2, ok_bind]; rfl
        · exact mat_eq_closed m2 (addEdge_closed cl1 hS1 hd hs hvs2 hvv2 hB' hcon2)
        · intro τ
          rw [mat_eq_sat m2, addEdge_sat cl1 hS1 hd hs hvs2 hvv2 hB', sat1, hol]
          constructor
          · rintro ⟨⟨h1, h2⟩, h3⟩
            refine ⟨h1, ?_, ?_⟩ <;> omega
          · rintro ⟨h1, h2, h3⟩
            refine ⟨⟨h1, ?_⟩, ?_⟩ <;> omega
        · intro a b hab
          rw [m2' a b hab, m' a b hab]
        · intro W hW hkW ht
          have ht1 := tight1 W hW hkW ht
          obtain ⟨kw1, kw2⟩ := hkW
          exact mat_eq_tight m2 (addEdge_tight cl1 hS1 (by omega) ht1 hd hs (by omega) (by omega) hB' hcon2
            (by omega))
      · rw [if_neg c3]
        refine ⟨g1, rfl, sh, cl1, ?_, m', Or.inl (by omega), tight1⟩
        intro τ
        rw [sat1, hol]
        constructor
        · rintro ⟨h1, h2⟩
          have h1' := (sat1 τ).2 ⟨h1, h2⟩ _ hd _ hs
          refine ⟨h1, ?_, ?_⟩ <;> omega
        · rintro ⟨h1, h2, h3⟩
          exact ⟨h1, by omega⟩

end Chrono
