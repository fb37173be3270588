import Verif.Spec.Time

/-!
# Matrices of lower bounds, in exact arithmetic

`M i j` is a lower bound of `t_j - t_i`; `-INF` stands for the absence of bound. Nothing here refers to the
program; these are the facts about closed ("minimal") difference constraint systems used to prove it right.
-/

namespace Chrono

abbrev Mat := Nat → Nat → Int

/-- `τ` satisfies the lower bounds -/
def MSat (n : Nat) (M : Mat) (τ : Nat → Int) : Prop :=
  ∀ i, i < n → ∀ j, j < n → M i j = -INF ∨ M i j ≤ τ j - τ i

/-- closed under composition, with null diagonal -/
structure Closed (n : Nat) (M : Mat) : Prop where
  diag : ∀ i, i < n → M i i = 0
  tri : ∀ i, i < n → ∀ k, k < n → ∀ j, j < n → M i k ≠ -INF → M k j ≠ -INF →
    M i j ≠ -INF ∧ M i k + M k j ≤ M i j

/-- every bound is absent or at most `B` in absolute value -/
def Small (B : Int) (x : Int) : Prop := x = -INF ∨ (-B ≤ x ∧ x ≤ B)

def SmallMat (B : Int) (n : Nat) (M : Mat) : Prop := ∀ i, i < n → ∀ j, j < n → Small B (M i j)

theorem Closed.anti {n : Nat} {M : Mat} (h : Closed n M) {i j : Nat} (hi : i < n) (hj : j < n)
    (h1 : M i j ≠ -INF) (h2 : M j i ≠ -INF) : M i j + M j i ≤ 0 := by
  have := (h.tri i hi j hj i hi h1 h2).2
  rw [h.diag i hi] at this
  exact this

/-! ## Choosing a date between finitely many bounds -/

theorem exists_max (f : Nat → Option Int) (n : Nat) :
    (∀ s, s < n → f s = none) ∨
    ∃ s0 a0, s0 < n ∧ f s0 = some a0 ∧ ∀ s, s < n → ∀ a, f s = some a → a ≤ a0 := by
  induction n with
  | zero => left; intro s hs; omega
  | succ n ih =>
    cases hn : f n with
    | none =>
      rcases ih with ih | ⟨s0, a0, h1, h2, h3⟩
      · left
        intro s hs
        rcases Nat.lt_or_ge s n with h | h
        · exact ih s h
        · have : s = n := by omega
          rw [this, hn]
      · right
        refine ⟨s0, a0, by omega, h2, fun s hs a ha => ?_⟩
        rcases Nat.lt_or_ge s n with h | h
        · exact h3 s h a ha
        · have : s = n := by omega
          rw [this, hn] at ha
          cases ha
    | some b =>
      right
      rcases ih with ih | ⟨s0, a0, h1, h2, h3⟩
      · refine ⟨n, b, by omega, hn, fun s hs a ha => ?_⟩
        rcases Nat.lt_or_ge s n with h | h
        · rw [ih s h] at ha; cases ha
        · have : s = n := by omega
          rw [this, hn] at ha
          injection ha with ha
          omega
      · by_cases c : a0 ≤ b
        · refine ⟨n, b, by omega, hn, fun s hs a ha => ?_⟩
          rcases Nat.lt_or_ge s n with h | h
          · have := h3 s h a ha; omega
          · have : s = n := by omega
            rw [this, hn] at ha
            injection ha with ha
            omega
        · refine ⟨s0, a0, by omega, h2, fun s hs a ha => ?_⟩
          rcases Nat.lt_or_ge s n with h | h
          · exact h3 s h a ha
          · have : s = n := by omega
            rw [this, hn] at ha
            injection ha with ha
            omega

theorem exists_between (f g : Nat → Option Int) (n : Nat)
    (h : ∀ s, s < n → ∀ s', s' < n → ∀ a, f s = some a → ∀ b, g s' = some b → a ≤ b) :
    ∃ x, ∀ s, s < n → (∀ a, f s = some a → a ≤ x) ∧ (∀ b, g s = some b → x ≤ b) := by
  rcases exists_max f n with hf | ⟨s0, a0, h1, h2, h3⟩
  · rcases exists_max (fun s => (g s).map (fun b => -b)) n with hg | ⟨s0, a0, h1, h2, h3⟩
    · refine ⟨0, fun s hs => ⟨fun a ha => ?_, fun b hb => ?_⟩⟩
      · rw [hf s hs] at ha; cases ha
      · have := hg s hs
        simp only [hb, Option.map_some] at this
        cases this
    · refine ⟨-a0, fun s hs => ⟨fun a ha => ?_, fun b hb => ?_⟩⟩
      · rw [hf s hs] at ha; cases ha
      · have := h3 s hs (-b) (by simp [hb])
        omega
  · exact ⟨a0, fun s hs => ⟨fun a ha => h3 s hs a ha, fun b hb => h s0 h1 s hs a0 h2 b hb⟩⟩

/-! ## Closed systems are minimal -/

/-- A closed system has solutions, and each value allowed for a pair is reached by a solution. -/
theorem Closed.attain {n : Nat} {M : Mat} (h : Closed n M) {i j : Nat} (hi : i < n) (hj : j < n) {d : Int}
    (h1 : M i j = -INF ∨ M i j ≤ d) (h2 : M j i = -INF ∨ M j i ≤ -d) (h3 : i = j → d = 0) :
    ∃ τ, MSat n M τ ∧ τ j - τ i = d := by
  -- assign the instants one after the other
  have key : ∀ m, m ≤ n → ∃ τ : Nat → Int, τ j - τ i = d ∧
      ∀ a, a < n → (a = i ∨ a = j ∨ a < m) → ∀ b, b < n → (b = i ∨ b = j ∨ b < m) →
        M a b = -INF ∨ M a b ≤ τ b - τ a := by
    intro m
    induction m with
    | zero =>
      intro _
      refine ⟨fun x => if x = j then d else 0, ?_, ?_⟩
      · simp only [if_true]
        by_cases c : i = j
        · rw [if_pos c, h3 c]; omega
        · rw [if_neg c]; omega
      · rintro a ha (rfl | rfl | ha') b hb (rfl | rfl | hb') <;> try omega
        · right; rw [h.diag _ ha]; omega
        · by_cases c : a = b
          · subst c; right; rw [h.diag _ ha]; omega
          · simp only [if_true, if_neg c]; omega
        · by_cases c : b = a
          · subst c; right; rw [h.diag _ ha]; omega
          · simp only [if_true, if_neg c]; omega
        · right; rw [h.diag _ ha]; omega
    | succ m ih =>
      intro hm
      obtain ⟨τ, ht, hs⟩ := ih (by omega)
      by_cases c : m = i ∨ m = j
      · refine ⟨τ, ht, fun a ha ha' b hb hb' => hs a ha (by omega) b hb (by omega)⟩
      · -- the value of instant `m`
        have hin : ∀ s, s = i ∨ s = j ∨ s < m → Decidable (s = i ∨ s = j ∨ s < m) := fun _ _ => inferInstance
        obtain ⟨x, hx⟩ := exists_between
          (fun s => if (s = i ∨ s = j ∨ s < m) ∧ M s m ≠ -INF then some (τ s + M s m) else none)
          (fun s => if (s = i ∨ s = j ∨ s < m) ∧ M m s ≠ -INF then some (τ s - M m s) else none) n (by
            intro s hs1 s' hs2 a ha b hb
            split at ha
            · split at hb
              · injection ha with ha
                injection hb with hb
                rename_i p q
                have t := h.tri s hs1 m (by omega) s' hs2 p.2 q.2
                rcases hs s hs1 p.1 s' hs2 q.1 with e | e
                · exact absurd e t.1
                · omega
              · cases hb
            · cases ha)
        refine ⟨fun y => if y = m then x else τ y, ?_, ?_⟩
        · simp only
          rw [if_neg (by omega), if_neg (by omega)]
          exact ht
        · intro a ha ha' b hb hb'
          by_cases ea : a = m
          · by_cases eb : b = m
            · subst ea; subst eb; right; rw [h.diag _ ha]; omega
            · subst ea
              simp only [if_true, if_neg eb]
              have := (hx b hb).2
              by_cases z : M a b = -INF
              · left; exact z
              · right
                have := this (τ b - M a b) (by rw [if_pos ⟨by omega, z⟩])
                omega
          · by_cases eb : b = m
            · subst eb
              simp only [if_true, if_neg ea]
              have := (hx a ha).1
              by_cases z : M a b = -INF
              · left; exact z
              · right
                have := this (τ a + M a b) (by rw [if_pos ⟨by omega, z⟩])
                omega
            · simp only [if_neg ea, if_neg eb]
              exact hs a ha (by omega) b hb (by omega)
  obtain ⟨τ, ht, hs⟩ := key n (by omega)
  exact ⟨τ, fun a ha b hb => hs a ha (by omega) b hb (by omega), ht⟩

theorem Closed.sat {n : Nat} {M : Mat} (h : Closed n M) : ∃ τ, MSat n M τ := by
  rcases Nat.eq_zero_or_pos n with h0 | h0
  · subst h0; exact ⟨fun _ => 0, fun i hi => by omega⟩
  · obtain ⟨τ, h1, -⟩ := h.attain h0 h0 (d := 0) (by rw [h.diag 0 h0]; omega) (by rw [h.diag 0 h0]; omega)
      (fun _ => rfl)
    exact ⟨τ, h1⟩

/-- there is a solution with `t_j - t_i` as small as announced -/
theorem Closed.attain_lower {n : Nat} {M : Mat} (h : Closed n M) {i j : Nat} (hi : i < n) (hj : j < n)
    (hne : M i j ≠ -INF) : ∃ τ, MSat n M τ ∧ τ j - τ i = M i j := by
  refine h.attain hi hj (Or.inr (Int.le_refl _)) ?_ (fun e => by subst e; exact h.diag i hi)
  by_cases c : M j i = -INF
  · left; exact c
  · right; have := h.anti hi hj hne c; omega

/-- or as small as wanted, if not bounded -/
theorem Closed.attain_below {n : Nat} {M : Mat} (h : Closed n M) {i j : Nat} (hi : i < n) (hj : j < n)
    (hne : M i j = -INF) (b : Int) : ∃ τ, MSat n M τ ∧ τ j - τ i < b := by
  have hij : i ≠ j := by
    rintro rfl
    rw [h.diag i hi] at hne
    revert hne; decide
  by_cases c : M j i = -INF
  · obtain ⟨τ, h1, h2⟩ := h.attain hi hj (d := b - 1) (Or.inl hne) (Or.inl c) (fun e => absurd e hij)
    exact ⟨τ, h1, by omega⟩
  · obtain ⟨τ, h1, h2⟩ := h.attain hi hj (d := min (b - 1) (-(M j i))) (Or.inl hne)
      (Or.inr (by omega)) (fun e => absurd e hij)
    exact ⟨τ, h1, by omega⟩

/-- Two closed systems with the same solutions are equal. -/
theorem Closed.unique {n : Nat} {M N : Mat} (hM : Closed n M) (hN : Closed n N)
    (h : ∀ τ, MSat n M τ ↔ MSat n N τ) {i j : Nat} (hi : i < n) (hj : j < n) : M i j = N i j := by
  have le : ∀ {M N : Mat}, Closed n M → Closed n N → (∀ τ, MSat n N τ → MSat n M τ) →
      M i j = -INF ∨ (N i j ≠ -INF ∧ M i j ≤ N i j) := by
    intro M N hM hN h
    by_cases c : M i j = -INF
    · left; exact c
    · right
      by_cases d : N i j = -INF
      · obtain ⟨τ, h1, h2⟩ := hN.attain_below hi hj d (M i j)
        rcases h τ h1 i hi j hj with e | e
        · exact absurd e c
        · omega
      · obtain ⟨τ, h1, h2⟩ := hN.attain_lower hi hj d
        refine ⟨d, ?_⟩
        rcases h τ h1 i hi j hj with e | e
        · exact absurd e c
        · omega
  have a := le hM hN (fun τ => (h τ).2)
  have b := le hN hM (fun τ => (h τ).1)
  omega

/-! ## Adding one lower bound to a closed system -/

/-- exact sum, an absent bound being absorbing -/
def oadd (a b : Int) : Int := if a = -INF ∨ b = -INF then -INF else a + b

/-- the system obtained by adding `v ≤ t_jo - t_io` to a closed system -/
def addEdge (M : Mat) (io jo : Nat) (v : Int) : Mat := fun j i =>
  max (M j i) (oadd (oadd (M j io) v) (M jo i))

theorem oadd_ne {a b : Int} (ha : a ≠ -INF) (hb : b ≠ -INF) : oadd a b = a + b := by
  unfold oadd; rw [if_neg (by omega)]

theorem oadd_bot {a b : Int} (h : a = -INF ∨ b = -INF) : oadd a b = -INF := by
  unfold oadd; rw [if_pos h]

/-- what an entry of `addEdge` is, in terms of finite values -/
theorem addEdge_cases {n : Nat} {B : Int} {M : Mat} (hS : SmallMat B n M) {io jo : Nat} (hio : io < n)
    (hjo : jo < n) {v : Int} (hv : Small B v) (hB : 3 * B < INF) (hv' : v ≠ -INF) {j i : Nat} (hj : j < n)
    (hi : i < n) :
    (M j io ≠ -INF ∧ M jo i ≠ -INF ∧ addEdge M io jo v j i = max (M j i) (M j io + v + M jo i) ∧
      addEdge M io jo v j i ≠ -INF) ∨
    ((M j io = -INF ∨ M jo i = -INF) ∧ addEdge M io jo v j i = M j i) := by
  have s1 := hS j hj io hio
  have s2 := hS jo hjo i hi
  have s3 := hS j hj i hi
  unfold Small at *
  by_cases c1 : M j io = -INF
  · right
    refine ⟨Or.inl c1, ?_⟩
    unfold addEdge
    rw [oadd_bot (Or.inl c1), oadd_bot (Or.inl rfl)]
    omega
  · by_cases c2 : M jo i = -INF
    · right
      refine ⟨Or.inr c2, ?_⟩
      unfold addEdge
      rw [oadd_bot (b := M jo i) (Or.inr c2)]
      omega
    · left
      have e : addEdge M io jo v j i = max (M j i) (M j io + v + M jo i) := by
        unfold addEdge
        rw [oadd_ne c1 hv', oadd_ne (by omega) c2]
      refine ⟨c1, c2, e, ?_⟩
      rw [e]
      omega

/-- an entry of `addEdge` is one of the two candidates, and not below either -/
theorem addEdge_val {n : Nat} {B : Int} {M : Mat} (hS : SmallMat B n M) {io jo : Nat} (hio : io < n)
    (hjo : jo < n) {v : Int} (hv : Small B v) (hB : 3 * B < INF) (hv' : v ≠ -INF) {j i : Nat} (hj : j < n)
    (hi : i < n) :
    (addEdge M io jo v j i = M j i ∨
      (M j io ≠ -INF ∧ M jo i ≠ -INF ∧ addEdge M io jo v j i = M j io + v + M jo i)) ∧
    (M j i ≠ -INF → addEdge M io jo v j i ≠ -INF ∧ M j i ≤ addEdge M io jo v j i) ∧
    (M j io ≠ -INF → M jo i ≠ -INF →
      addEdge M io jo v j i ≠ -INF ∧ M j io + v + M jo i ≤ addEdge M io jo v j i) := by
  have s1 := hS j hj io hio
  have s2 := hS jo hjo i hi
  have s3 := hS j hj i hi
  unfold Small at *
  rcases addEdge_cases hS hio hjo hv hB hv' hj hi with ⟨c1, c2, e, ne⟩ | ⟨c, e⟩
  · refine ⟨?_, fun _ => ⟨ne, by omega⟩, fun _ _ => ⟨ne, by omega⟩⟩
    rcases Int.le_total (M j i) (M j io + v + M jo i) with h | h
    · right; exact ⟨c1, c2, by omega⟩
    · left; omega
  · exact ⟨Or.inl e, fun h => by rw [e]; exact ⟨h, Int.le_refl _⟩, fun h1 h2 => by omega⟩

theorem addEdge_closed {n : Nat} {B : Int} {M : Mat} (hM : Closed n M) (hS : SmallMat B n M) {io jo : Nat}
    (hio : io < n) (hjo : jo < n) {v : Int} (hv : Small B v) (hv' : v ≠ -INF) (hB : 3 * B < INF)
    (hc : M jo io = -INF ∨ M jo io + v ≤ 0) : Closed n (addEdge M io jo v) := by
  have cs := fun {j i : Nat} (hj : j < n) (hi : i < n) => addEdge_val hS hio hjo hv hB hv' hj hi
  constructor
  · intro a ha
    have hd := hM.diag a ha
    have := ((cs ha ha).2.1 (by rw [hd]; decide)).2
    rcases (cs ha ha).1 with e | ⟨c1, c2, e⟩
    · rw [e, hd]
    · have t := hM.tri jo hjo a ha io hio c2 c1
      omega
  · intro a ha b hb c hc' h1 h2
    obtain ⟨e1, -, -⟩ := cs ha hb
    obtain ⟨e2, -, -⟩ := cs hb hc'
    obtain ⟨-, f1, f2⟩ := cs ha hc'
    rcases e1 with e1 | ⟨p1, p2, e1⟩
    · rw [e1] at h1 ⊢
      rcases e2 with e2 | ⟨q1, q2, e2⟩
      · rw [e2] at h2 ⊢
        have t := hM.tri a ha b hb c hc' h1 h2
        have := f1 t.1
        exact ⟨this.1, by omega⟩
      · have t := hM.tri a ha b hb io hio h1 q1
        have := f2 t.1 q2
        exact ⟨this.1, by omega⟩
    · rcases e2 with e2 | ⟨q1, q2, e2⟩
      · rw [e2] at h2 ⊢
        have t := hM.tri jo hjo b hb c hc' p2 h2
        have := f2 p1 t.1
        exact ⟨this.1, by omega⟩
      · have t := hM.tri jo hjo b hb io hio p2 q1
        have := f2 p1 q2
        exact ⟨this.1, by omega⟩

theorem addEdge_sat {n : Nat} {B : Int} {M : Mat} (hM : Closed n M) (hS : SmallMat B n M) {io jo : Nat}
    (hio : io < n) (hjo : jo < n) {v : Int} (hv : Small B v) (hv' : v ≠ -INF) (hB : 3 * B < INF) (τ : Nat → Int) :
    MSat n (addEdge M io jo v) τ ↔ MSat n M τ ∧ v ≤ τ jo - τ io := by
  have cs := fun {j i : Nat} (hj : j < n) (hi : i < n) => addEdge_val hS hio hjo hv hB hv' hj hi
  constructor
  · intro h
    constructor
    · intro i hi j hj
      by_cases c : M i j = -INF
      · left; exact c
      · right
        have := (cs hi hj).2.1 c
        have := h i hi j hj
        omega
    · have d1 := hM.diag io hio
      have d2 := hM.diag jo hjo
      have := (cs hio hjo).2.2 (by rw [d1]; decide) (by rw [d2]; decide)
      have := h io hio jo hjo
      omega
  · rintro ⟨h1, h2⟩ i hi j hj
    rcases (cs hi hj).1 with e | ⟨c1, c2, e⟩
    · rw [e]; exact h1 i hi j hj
    · right
      have a := h1 i hi io hio
      have b := h1 jo hjo j hj
      omega

theorem addEdge_small {n : Nat} {B : Int} {M : Mat} (hS : SmallMat B n M) {io jo : Nat} (hio : io < n)
    (hjo : jo < n) {v : Int} (hv : Small B v) (hB : 3 * B < INF) (hv' : v ≠ -INF) :
    SmallMat (3 * B) n (addEdge M io jo v) := by
  intro j hj i hi
  have s1 := hS j hj io hio
  have s2 := hS jo hjo i hi
  have s3 := hS j hj i hi
  rcases addEdge_cases hS hio hjo hv hB hv' hj hi with ⟨c1, c2, e, -⟩ | ⟨-, e⟩ <;>
  · rw [e]; unfold Small at *; omega

end Chrono
