import Verif.Lemmas.GraphSize
set_option linter.unusedSimpArgs false

/-!
# Histories of propagations, and growth
-/

namespace Chrono
open Chrono.Spec

theorem propagate_grow {g : Graph} (hc : CleanMem g) {k : Constr} (hk : k.isEmpty = false)
    (hs : g.size ≤ max k.src k.dst) (hm : max k.src k.dst < 65535) (hne : k.src ≠ k.dst) :
    ∃ g', g.propagate k = .ok (g', .propagated) ∧ g'.size = max k.src k.dst + 1 ∧ Valid g' ∧ CleanMem g' ∧
      ∀ a b, a < g'.size → b < g'.size → mat g' a b = if a = k.src ∧ b = k.dst then k.lower
        else if a = k.dst ∧ b = k.src then -k.upper
        else if a < g.size ∧ b < g.size then mat g a b else if a = b then 0 else -INF := by
  obtain ⟨g1, r1, r2, r3, r4, r5⟩ := grow hc (n := max k.src k.dst + 1) (by omega)
  have hs1 : k.src < g1.size := by omega
  have hd1 : k.dst < g1.size := by omega
  have v2 := r3.put k.src k.dst k.lower
  refine ⟨put (put g1 k.src k.dst k.lower) k.dst k.src (-k.upper), ?_, ?_, v2.put _ _ _, ?_, ?_⟩
  · unfold Graph.propagate
    rw [hk]
    simp only [Bool.false_eq_true, if_false]
    rw [if_pos hs]
    have e : ((max k.src k.dst : Nat) : Int) + 1 = ((max k.src k.dst + 1 : Nat) : Int) := by omega
    have e2 : ((max k.src k.dst + 1 : Nat) : Int).toNat = max k.src k.dst + 1 := by omega
    rw [e, chkU32_ok (by omega) (by omega), ok_bind, e2, r1, ok_bind, setLower_eq r3 hs1 hd1, ok_bind,
      setLower_eq v2 (i := k.dst) (j := k.src) hd1 hs1, ok_bind]
    rfl
  · exact r2
  · intro i j hi hj hij ho
    have : g1.size ≤ i ∨ g1.size ≤ j := ho
    rw [mat_put _ (v2.ix_lt (i := k.dst) (j := k.src) hd1 hs1), mat_put _ (r3.ix_lt hs1 hd1), if_neg (by omega),
      if_neg (by omega)]
    exact r4 i j hi hj hij ho
  · intro a b ha hb
    rw [mat_put _ (v2.ix_lt (i := k.dst) (j := k.src) hd1 hs1), mat_put _ (r3.ix_lt hs1 hd1)]
    have ha' : a < g1.size := ha
    have hb' : b < g1.size := hb
    rw [r5 a b (by omega) (by omega)]
    by_cases c1 : a = k.src ∧ b = k.dst
    · rw [if_pos c1, if_pos c1, if_neg (by omega)]
    · rw [if_neg c1, if_neg c1]

theorem grow_step_sat {g g' : Graph} {k : Constr} (hk : k.isEmpty = false)
    (hs : g.size ≤ max k.src k.dst) (hne : k.src ≠ k.dst) (h2 : g'.size = max k.src k.dst + 1)
    (h5 : ∀ a b, a < g'.size → b < g'.size → mat g' a b = if a = k.src ∧ b = k.dst then k.lower
        else if a = k.dst ∧ b = k.src then -k.upper
        else if a < g.size ∧ b < g.size then mat g a b else if a = b then 0 else -INF) (τ : Nat → Int) :
    MSat g'.size (mat g') τ ↔ MSat g.size (mat g) τ ∧ Holds τ k := by
  rw [holds_iff hk]
  constructor
  · intro h
    refine ⟨fun i hi j hj => ?_, ?_, ?_⟩
    · have := h i (by omega) j (by omega)
      rw [h5 i j (by omega) (by omega), if_neg (by omega), if_neg (by omega), if_pos ⟨hi, hj⟩] at this
      exact this
    · have := h k.src (by omega) k.dst (by omega)
      rw [h5 _ _ (by omega) (by omega), if_pos ⟨rfl, rfl⟩] at this
      exact this
    · have := h k.dst (by omega) k.src (by omega)
      rw [h5 _ _ (by omega) (by omega), if_neg (by omega), if_pos ⟨rfl, rfl⟩] at this
      omega
  · rintro ⟨h, b1, b2⟩ i hi j hj
    rw [h5 i j hi hj]
    split
    · rename_i c; obtain ⟨rfl, rfl⟩ := c; exact b1
    · split
      · rename_i c; obtain ⟨rfl, rfl⟩ := c; omega
      · split
        · rename_i c; exact h i c.1 j c.2
        · split
          · rename_i c; subst c; right; omega
          · left; rfl

/-- a bound which is not already in the graph is missed by some solution -/
theorem not_implied {g : Graph} (hC : Closed g.size (mat g)) {k : Constr} (hs : k.src < g.size) (hd : k.dst < g.size)
    (he : k.isEmpty = false) (hw : WF ⟨k.lower, k.upper⟩)
    (h6 : (-INF ≤ mat g k.src k.dst ∧ mat g k.src k.dst < k.lower) ∨
      (-INF ≤ mat g k.dst k.src ∧ mat g k.dst k.src < -k.upper)) :
    ∃ τ, MSat g.size (mat g) τ ∧ ¬ Holds τ k := by
  have w1 := hw.le
  have w2 := hw.lo
  have w3 := hw.hi
  simp only at w1 w2 w3
  rcases h6 with ⟨h7, h6⟩ | ⟨h7, h6⟩
  · by_cases c : mat g k.src k.dst = -INF
    · obtain ⟨τ, t1, t2⟩ := hC.attain_below hs hd c k.lower
      refine ⟨τ, t1, fun h => ?_⟩
      rw [holds_iff he] at h
      omega
    · obtain ⟨τ, t1, t2⟩ := hC.attain_lower hs hd c
      refine ⟨τ, t1, fun h => ?_⟩
      rw [holds_iff he] at h
      omega
  · by_cases c : mat g k.dst k.src = -INF
    · obtain ⟨τ, t1, t2⟩ := hC.attain_below hd hs c (-k.upper)
      refine ⟨τ, t1, fun h => ?_⟩
      rw [holds_iff he] at h
      omega
    · obtain ⟨τ, t1, t2⟩ := hC.attain_lower hd hs c
      refine ⟨τ, t1, fun h => ?_⟩
      rw [holds_iff he] at h
      omega

theorem nW_bounds {n : Nat} {W : Int} (hW : 0 ≤ W) (hn : 0 < n) :
    W ≤ (n : Int) * W ∧ ((n - 1 : Nat) : Int) * W ≤ (n : Int) * W ∧ 3 * (n : Int) * W = 3 * (n * W) := by
  refine ⟨?_, Int.mul_le_mul_of_nonneg_right (by omega) hW, by grind⟩
  have : 1 * W ≤ (n : Int) * W := Int.mul_le_mul_of_nonneg_right (by omega) hW
  omega

/-- one call on a tight graph -/
theorem propagate_tight {g : Graph} (hv : Valid g) {W : Int} (hW : 0 ≤ W) (hC : Closed g.size (mat g))
    (ht : Tight W g.size (mat g)) (hb : 3 * (g.size : Int) * W < INF) {k : Constr} (hk : Usable g.size W k) :
    ∃ g' o, g.propagate k = .ok (g', o) ∧ Shape g g' ∧ Closed g.size (mat g') ∧ Tight W g.size (mat g') ∧
      (∀ a b, (g.size ≤ a ∨ g.size ≤ b) → mat g' a b = mat g a b) ∧ o ≠ .fatal ∧
      (o = .recovered → g' = g ∧ ∀ τ, MSat g.size (mat g) τ → ¬ Holds τ k) ∧
      (o ≠ .recovered → ∀ τ, MSat g.size (mat g') τ ↔ MSat g.size (mat g) τ ∧ Holds τ k) ∧
      (o = .unchanged ↔ ∀ τ, MSat g.size (mat g) τ → Holds τ k) := by
  obtain ⟨hs, hd, hk⟩ := hk
  cases he : k.isEmpty with
  | true =>
    refine ⟨g, .recovered, by unfold Graph.propagate; rw [if_pos he]; rfl, Shape.refl g, hC, ht, fun _ _ _ => rfl, by decide, fun _ => ⟨rfl, fun τ _ h => ?_⟩,
      fun h => absurd rfl h, fun h => (by cases h), fun h => ?_⟩
    · have := h.1
      rw [he] at this
      cases this
    obtain ⟨τ, t⟩ := hC.sat
    have := (h τ t).1
    rw [he] at this
    cases this
  | false =>
    obtain ⟨hw, hkW⟩ := hk he
    obtain ⟨b1, b2, b3⟩ := nW_bounds (n := g.size) hW (by omega)
    have hS : SmallMat ((g.size : Int) * W) g.size (mat g) := fun i hi j hj =>
      (hC.tight_small hW ht i hi j hj).mono b2
    have hkB : WithinK ((g.size : Int) * W) k := by
      obtain ⟨k1, k2⟩ := hkW
      exact ⟨by omega, by omega⟩
    have w1 := hw.le
    have w2 := hw.lo
    have w3 := hw.hi
    have w4 := hw.lo_lt
    have w5 := hw.lt_hi
    simp only at w1 w2 w3 w4 w5
    have sa := hS _ hs _ hd
    have sb := hS _ hd _ hs
    unfold Small at sa sb
    have hkW' := hkW
    obtain ⟨k1, k2⟩ := hkW'
    -- the second step of the propagation has the same bounds
    have hS' : mat g k.src k.dst < k.lower → ¬ (mat g k.dst k.src > -k.lower) →
        SmallMat ((g.size : Int) * W) g.size (addEdge (mat g) k.src k.dst k.lower) := by
      intro c1 c2
      have hcon : mat g k.dst k.src = -INF ∨ mat g k.dst k.src + k.lower ≤ 0 := by omega
      have hvs : Small ((g.size : Int) * W) k.lower := Or.inr (by omega)
      have t := addEdge_tight hC hS b1 ht hs hd (v := k.lower) (by omega) (by omega) (by omega) hcon (by omega)
      have c := addEdge_closed hC hS hs hd hvs (by omega) (by omega) hcon
      intro i hi j hj
      exact (c.tight_small hW t i hi j hj).mono b2
    have hdead : ∀ τ, MSat g.size (mat g) τ → (Holds τ k ↔ (k.lower = -INF ∨ k.lower ≤ τ k.dst - τ k.src) ∧
        (k.upper = INF ∨ τ k.dst - τ k.src ≤ k.upper)) := fun τ _ => holds_iff he
    rcases propagate_in hv hC hS he hw hkB hs hd (by omega) (by omega) (Or.inl hS') with
      ⟨h1, h2, h3⟩ | ⟨h1, h2⟩ | ⟨g', h1, h2, h3, h4, h5, h6, h7⟩
    · refine ⟨g, .unchanged, h1, Shape.refl g, hC, ht, fun _ _ _ => rfl, by decide, fun h => (by cases h), fun _ τ => ⟨fun h => ⟨h, ?_⟩,
        fun h => h.1⟩, fun _ => ?_, fun _ => rfl⟩
      · rw [hdead τ h]
        have a := h _ hs _ hd
        have b := h _ hd _ hs
        refine ⟨?_, ?_⟩ <;> omega
      · intro τ h
        rw [hdead τ h]
        have a := h _ hs _ hd
        have b := h _ hd _ hs
        refine ⟨?_, ?_⟩ <;> omega
    · refine ⟨g, .recovered, h1, Shape.refl g, hC, ht, fun _ _ _ => rfl, by decide, fun _ => ⟨rfl, h2⟩, fun h => absurd rfl h,
        fun h => (by cases h), fun h => ?_⟩
      obtain ⟨τ, t⟩ := hC.sat
      exact absurd (h τ t) (h2 τ t)
    · refine ⟨g', .propagated, h1, h2, h3, h7 W b1 hkW ht, h5, by decide, fun h => (by cases h),
        fun _ => h4, fun h => (by cases h), fun h => ?_⟩
      obtain ⟨τ, t1, t2⟩ := not_implied hC hs hd he hw (by omega)
      exact absurd (h τ t1) t2

/-- histories: what is kept, and the accepted constraints -/
theorem propagateAll_tight {W : Int} (hW : 0 ≤ W) : ∀ {ks : List Constr} {g : Graph}, Valid g → Closed g.size (mat g) →
    Tight W g.size (mat g) → 3 * (g.size : Int) * W < INF → (∀ k ∈ ks, Usable g.size W k) →
    ∃ g' acc, propagateAll g ks = .ok (g', acc) ∧ Shape g g' ∧ Closed g.size (mat g') ∧ Tight W g.size (mat g') ∧
      (∀ a b, (g.size ≤ a ∨ g.size ≤ b) → mat g' a b = mat g a b) ∧
      (∀ τ, MSat g.size (mat g') τ ↔ MSat g.size (mat g) τ ∧ ∀ k ∈ acc, Holds τ k) ∧ acc.Sublist ks ∧
      ((∃ τ, MSat g.size (mat g) τ ∧ ∀ k ∈ ks, Holds τ k) → acc = ks)
  | [], g, hv, hC, ht, hb, hk => ⟨g, [], rfl, Shape.refl g, hC, ht, fun _ _ _ => rfl, fun τ => ⟨fun h => ⟨h, fun k hk => nomatch hk⟩,
      fun h => h.1⟩, List.Sublist.refl _, fun _ => rfl⟩
  | k :: ks, g, hv, hC, ht, hb, hk => by
    obtain ⟨g1, o, e1, s1, c1, t1, m1, nf, r1, a1, -⟩ := propagate_tight hv hW hC ht hb (hk k (by simp))
    have sz := s1.size
    obtain ⟨g2, acc, e2, s2, c2, t2, m2, a2, sub, all⟩ := propagateAll_tight hW (ks := ks) (s1.valid hv) (by rw [sz]; exact c1)
      (by rw [sz]; exact t1) (by rw [sz]; exact hb) (fun k' hk' => by rw [sz]; exact hk k' (by simp [hk']))
    rw [sz] at c2 t2 a2 all m2
    refine ⟨g2, _, by unfold propagateAll; rw [e1, ok_bind]; simp only; rw [e2, ok_bind]; rfl, s1.trans s2, c2, t2,
      fun a b h => by rw [m2 a b h, m1 a b h], fun τ => ?_, ?_, ?_⟩
    · rw [a2]
      by_cases c : o = .recovered
      · rw [if_pos (Or.inl c)]
        obtain ⟨rfl, -⟩ := r1 c
        exact Iff.rfl
      · have hn : ¬ (o = .recovered ∨ o = .fatal) := fun h => h.elim c nf
        rw [if_neg hn, a1 c]
        constructor
        · rintro ⟨⟨h1, h2⟩, h3⟩
          refine ⟨h1, fun k' hk' => ?_⟩
          rcases List.mem_cons.1 hk' with rfl | hk'
          · exact h2
          · exact h3 k' hk'
        · rintro ⟨h1, h2⟩
          exact ⟨⟨h1, h2 k (by simp)⟩, fun k' hk' => h2 k' (by simp [hk'])⟩
    · split
      · exact sub.cons k
      · exact sub.cons_cons k
    · rintro ⟨τ, h1, h2⟩
      have hk1 := h2 k (by simp)
      have c : o ≠ .recovered := fun c => (r1 c).2 τ h1 hk1
      have hn : ¬ (o = .recovered ∨ o = .fatal) := fun h => h.elim c nf
      rw [if_neg hn]
      have := all ⟨τ, (a1 c τ).2 ⟨h1, hk1⟩, fun k' hk' => h2 k' (by simp [hk'])⟩
      simp only
      rw [this]

end Chrono
