import Verif.Lemmas.GraphSem

/-!
# What the global propagation computes
-/

set_option linter.unusedSimpArgs false

namespace Chrono
open Spec

theorem gpRow_eq {g : Graph} (hv : Valid g) {B : Int} (hS : SmallMat B g.size (mat g)) (hB : 2 * B < INF)
    (hB0 : 0 ≤ B) {k i : Nat} (hk : k < g.size) (hi : i < g.size) (hd : mat g k k = 0) :
    ∃ g', g.gpRow k i = .ok g' ∧ Shape g g' ∧
      ∀ a b, mat g' a b = if a = i ∧ b < g.size then stage k (mat g) a b else mat g a b := by
  have z : (0 : Int) ≠ -INF := by decide
  have o0 : oadd (mat g i k) 0 = mat g i k := by
    by_cases c : mat g i k = -INF
    · rw [oadd_bot (Or.inl c), c]
    · rw [oadd_ne c z]; omega
  obtain ⟨g', h1, h2, h3⟩ := row_loop hv hi (fun j g' => do
      let a ← g'.lower i k
      let b ← g'.lower k j
      tvAdd a b) (fun j => oadd (mat g i k) (mat g k j)) (by
    intro j g' hj hs hm
    have hsz := hs.size
    have hv' := hs.valid hv
    rw [lower_eq hv' (by omega) (by omega), ok_bind, lower_eq hv' (by omega) (by omega), ok_bind]
    have e1 : mat g' i k = mat g i k := by
      rw [hm i k]
      split
      · rw [hd, o0]; omega
      · rfl
    have e2 : mat g' k j = mat g k j := by
      rw [hm k j, if_neg (by omega)]
    rw [e1, e2]
    exact tvAdd_small (hS i hi k hk) (hS k hk j hj) (by omega) (by omega) (by omega))
  refine ⟨g', ?_, h2, ?_⟩
  · rw [← h1]
    unfold Graph.gpRow
    congr 1
    funext g' j
    simp only [bind_assoc]
  · intro a b
    rw [h3 a b]
    by_cases c : a = i ∧ b < g.size
    · rw [if_pos c, if_pos c, c.1]; rfl
    · rw [if_neg c, if_neg c]

/-- the first row, when the first diagonal entry is already positive -/
theorem gpRow_first {g : Graph} (hv : Valid g) {W : Int} (hS : SmallMat W g.size (mat g)) (hW : 3 * W < INF)
    (hn : 0 < g.size) (hd : 0 < mat g 0 0) :
    ∃ g', g.gpRow 0 0 = .ok g' ∧ Shape g g' ∧ 0 < mat g' 0 0 := by
  have s0 := hS 0 hn 0 hn
  have z : (0 : Int) < INF := by decide
  unfold Small at s0
  have key : ∃ g', g.gpRow 0 0 = .ok g' ∧ (Shape g g' ∧
      (mat g' 0 0 = if g.size = 0 then mat g 0 0 else mat g 0 0 + mat g 0 0) ∧
      ∀ b, g.size ≤ b → b ≠ 0 → mat g' 0 b = mat g 0 b) := by
    unfold Graph.gpRow
    apply foldlM_range (fun j g' => Shape g g' ∧
      (mat g' 0 0 = if j = 0 then mat g 0 0 else mat g 0 0 + mat g 0 0) ∧
      ∀ b, j ≤ b → b ≠ 0 → mat g' 0 b = mat g 0 b)
    · exact ⟨Shape.refl g, by rw [if_pos rfl], fun _ _ _ => rfl⟩
    · rintro j g' hj ⟨hs, hm, hr⟩
      have hsz := hs.size
      have hv' := hs.valid hv
      rw [lower_eq hv' (by omega) (by omega), ok_bind, lower_eq hv' (by omega) (by omega), ok_bind]
      by_cases cj : j = 0
      · subst cj
        rw [if_pos rfl] at hm
        have ea : tvAdd (mat g' 0 0) (mat g' 0 0) = .ok (mat g 0 0 + mat g 0 0) := by
          rw [hm]
          exact tvAdd_exact (by unfold Date; omega) (by unfold Date; omega) (by unfold Date; omega)
        rw [ea, ok_bind, relax_eq hv' (by omega) (by omega)]
        refine ⟨_, rfl, hs.put _ _ _, ?_, ?_⟩
        · rw [mat_put _ (hv'.ix_lt (by omega) (by omega)), if_pos ⟨rfl, rfl⟩, if_neg (by omega), hm]
          omega
        · intro b h1 h2
          rw [mat_put _ (hv'.ix_lt (by omega) (by omega)), if_neg (by omega)]
          exact hr b (by omega) h2
      · rw [if_neg cj] at hm
        have sj := hS 0 hn j hj
        unfold Small at sj
        have ea : tvAdd (mat g' 0 0) (mat g' 0 j) = .ok (oadd (mat g 0 0 + mat g 0 0) (mat g 0 j)) := by
          rw [hm, hr j (Nat.le_refl _) cj]
          exact tvAdd_small (A := 2 * W) (B := W) (Or.inr (by omega)) sj (by omega) (by omega) (by omega)
        rw [ea, ok_bind, relax_eq hv' (by omega) (by omega)]
        refine ⟨_, rfl, hs.put _ _ _, ?_, ?_⟩
        · rw [mat_put _ (hv'.ix_lt (by omega) (by omega)), if_neg (by omega), if_neg (by omega), hm]
        · intro b h1 h2
          rw [mat_put _ (hv'.ix_lt (by omega) (by omega)), if_neg (by omega)]
          exact hr b (by omega) h2
  obtain ⟨g', h1, h2, h3, -⟩ := key
  refine ⟨g', h1, h2, ?_⟩
  rw [h3, if_neg (by omega)]
  omega

/-- one iteration of the middle loop -/
def gpBody (k : Nat) (p : Graph × Bool) (i : Nat) : Res (Graph × Bool) := do
  if p.2 then return p
  else
    let g ← p.1.gpRow k i
    let d ← g.lower i i
    if isStrictlyPositive d then return ({ g with size := 0 }, true)
    else return (g, false)

theorem gpBody_done {k i : Nat} {p : Graph × Bool} (h : p.2 = true) : gpBody k p i = .ok p := by
  unfold gpBody; rw [if_pos h]; rfl

theorem gpBody_row {k i : Nat} {g g' : Graph} (h : g.gpRow k i = .ok g') (hv : Valid g') (hi : i < g'.size) :
    gpBody k (g, false) i = .ok (if 0 < mat g' i i then ({ g' with size := 0 }, true) else (g', false)) := by
  unfold gpBody
  simp only [Bool.false_eq_true, if_false]
  rw [h, ok_bind, lower_eq hv hi hi, ok_bind]
  have : isStrictlyPositive (mat g' i i) = decide (0 < mat g' i i) := by
    unfold isStrictlyPositive; simp
  rw [this]
  by_cases c : 0 < mat g' i i
  · rw [if_pos c, if_pos (by simp [c])]; rfl
  · rw [if_neg c, if_neg (by simp [c])]; rfl

theorem fold_done {k : Nat} {p : Graph × Bool} (h : p.2 = true) : ∀ l : List Nat, l.foldlM (gpBody k) p = .ok p
  | [] => rfl
  | i :: l => by rw [List.foldlM_cons, gpBody_done h, ok_bind]; exact fold_done h l

/-- one stage -/
theorem gpStage {g : Graph} (hv : Valid g) {B : Int} (hS : SmallMat B g.size (mat g)) (hB : 2 * B < INF)
    (hB0 : 0 ≤ B) {k : Nat} (hk : k < g.size) (hd : mat g k k = 0) :
    ∃ p, (List.range g.size).foldlM (gpBody k) (g, false) = .ok p ∧
      ((p.2 = false ∧ Shape g p.1 ∧
        (∀ a b, mat p.1 a b = if a < g.size ∧ b < g.size then stage k (mat g) a b else mat g a b) ∧
        ∀ a, a < g.size → ¬ 0 < stage k (mat g) a a) ∨
      (p.2 = true ∧ p.1.size = 0 ∧ ∃ a, a < g.size ∧ 0 < stage k (mat g) a a)) := by
  have z : (0 : Int) ≠ -INF := by decide
  have rowk : ∀ b, b < g.size → stage k (mat g) k b = mat g k b := by
    intro b hb
    unfold stage
    rw [hd]
    by_cases c : mat g k b = -INF
    · rw [oadd_bot (Or.inr c)]; omega
    · rw [oadd_ne z c]; omega
  apply foldlM_range (fun i (p : Graph × Bool) =>
      ((p.2 = false ∧ Shape g p.1 ∧
        (∀ a b, mat p.1 a b = if a < i ∧ b < g.size then stage k (mat g) a b else mat g a b) ∧
        ∀ a, a < i → ¬ 0 < stage k (mat g) a a) ∨
      (p.2 = true ∧ p.1.size = 0 ∧ ∃ a, a < g.size ∧ 0 < stage k (mat g) a a)))
  · left
    refine ⟨rfl, Shape.refl g, fun a b => by rw [if_neg (by omega)], fun a ha => by omega⟩
  · intro i p hi hp
    rcases hp with ⟨p1, hs, hm, hn⟩ | ⟨p1, p2, p3⟩
    · obtain ⟨g', f⟩ := p
      simp only at p1 hs hm
      subst p1
      have hsz := hs.size
      have hv' := hs.valid hv
      -- row `k` and the current row are those of `g`
      have rk : ∀ b, b < g.size → mat g' k b = mat g k b := by
        intro b hb
        rw [hm k b]
        split
        · exact rowk b hb
        · rfl
      have ri : ∀ b, mat g' i b = mat g i b := by
        intro b; rw [hm i b, if_neg (by omega)]
      -- the bounds remain small enough for this row
      have st : ∀ b, b < g.size → stage k (mat g') i b = stage k (mat g) i b := by
        intro b hb
        unfold stage
        rw [ri b, ri k, rk b hb]
      have f := fun j g'' (hj : j < g'.size) (hs2 : Shape g' g'') (hm2 : ∀ a b, mat g'' a b =
          if a = i ∧ b < j then max (mat g' a b) (oadd (mat g i k) (mat g k b)) else mat g' a b) =>
        show (do
          let a ← g''.lower i k
          let b ← g''.lower k j
          tvAdd a b) = .ok (oadd (mat g i k) (mat g k j)) from by
        have hsz2 := hs2.size
        have hv2 := hs2.valid hv'
        rw [lower_eq hv2 (by omega) (by omega), ok_bind, lower_eq hv2 (by omega) (by omega), ok_bind]
        have e1 : mat g'' i k = mat g i k := by
          rw [hm2 i k, ri k, hd]
          split
          · by_cases c : mat g i k = -INF
            · rw [oadd_bot (Or.inl c)]; omega
            · rw [oadd_ne c z]; omega
          · rfl
        have e2 : mat g'' k j = mat g k j := by
          rw [hm2 k j, if_neg (by omega), rk j (by omega)]
        rw [e1, e2]
        exact tvAdd_small (hS i hi k hk) (hS k hk j (by omega)) (by omega) (by omega) (by omega)
      obtain ⟨g2, h1, s2, h3⟩ := row_loop hv' (i := i) (by omega) (fun j g'' => do
          let a ← g''.lower i k
          let b ← g''.lower k j
          tvAdd a b) (fun j => oadd (mat g i k) (mat g k j)) f
      have hrow : g'.gpRow k i = .ok g2 := by
        rw [← h1]
        unfold Graph.gpRow
        congr 1
        funext g' j
        simp only [bind_assoc]
      have hv2 := s2.valid hv'
      have sz2 := s2.size
      have m2 : ∀ a b, mat g2 a b = if a < i + 1 ∧ b < g.size then stage k (mat g) a b else mat g a b := by
        intro a b
        rw [h3 a b]
        by_cases c : a = i ∧ b < g'.size
        · obtain ⟨rfl, hb⟩ := c
          rw [if_pos ⟨rfl, hb⟩, if_pos ⟨by omega, by omega⟩, ri b]; rfl
        · rw [if_neg c, hm a b]
          by_cases d : a < i ∧ b < g.size
          · rw [if_pos d, if_pos ⟨by omega, d.2⟩]
          · rw [if_neg d, if_neg (by omega)]
      have dii : mat g2 i i = stage k (mat g) i i := by rw [m2 i i, if_pos ⟨by omega, hi⟩]
      refine ⟨_, gpBody_row hrow hv2 (by omega), ?_⟩
      rw [dii]
      by_cases c : 0 < stage k (mat g) i i
      · rw [if_pos c]
        right
        exact ⟨rfl, rfl, i, hi, c⟩
      · rw [if_neg c]
        left
        refine ⟨rfl, hs.trans s2, m2, ?_⟩
        intro a ha
        by_cases e : a = i
        · rw [e]; exact c
        · exact hn a (by omega)
    · exact ⟨p, gpBody_done p1, Or.inr ⟨p1, p2, p3⟩⟩

theorem globalPropagation_def (g : Graph) : g.globalPropagation = (do
    let p ← (List.range g.size).foldlM (fun p k => (List.range g.size).foldlM (gpBody k) p) (g, false)
    return (p.1, if p.2 then .fatal else .propagated)) := rfl

/-- `global_propagation`: closes the system, or finds out that it has no solution. -/
theorem globalPropagation_spec {g : Graph} (hv : Valid g) {W : Int} (hW : 0 ≤ W) (hS : SmallMat W g.size (mat g))
    (hb : 3 * (g.size : Int) * W < INF) (hd : ∀ i, i < g.size → 0 ≤ mat g i i) :
    (∃ g', g.globalPropagation = .ok (g', .propagated) ∧ Shape g g' ∧ Closed g.size (mat g') ∧
      (∀ τ, MSat g.size (mat g') τ ↔ MSat g.size (mat g) τ) ∧
      (∀ a b, (g.size ≤ a ∨ g.size ≤ b) → mat g' a b = mat g a b) ∧ Tight W g.size (mat g')) ∨
    (∃ g', g.globalPropagation = .ok (g', .fatal) ∧ g'.size = 0 ∧ ∀ τ, ¬ MSat g.size (mat g) τ) := by
  rw [globalPropagation_def]
  have hb2 : 2 * (g.size : Int) * W < INF := by
    have : 0 ≤ (g.size : Int) * W := Int.mul_nonneg (by omega) hW
    have e1 : 3 * (g.size : Int) * W = 3 * (g.size * W) := by grind
    have e2 : 2 * (g.size : Int) * W = 2 * (g.size * W) := by grind
    omega
  by_cases hz : ∀ i, i < g.size → mat g i i = 0
  · have key : ∃ p, (List.range g.size).foldlM (fun p k => (List.range g.size).foldlM (gpBody k) p) (g, false)
        = .ok p ∧ ((p.2 = false ∧ Shape g p.1 ∧ FW W g.size (mat g) g.size (mat p.1) ∧
          (∀ a b, (g.size ≤ a ∨ g.size ≤ b) → mat p.1 a b = mat g a b)) ∨
        (p.2 = true ∧ p.1.size = 0 ∧ ∀ τ, ¬ MSat g.size (mat g) τ)) := by
      apply foldlM_range (fun k (p : Graph × Bool) => ((p.2 = false ∧ Shape g p.1 ∧ FW W g.size (mat g) k (mat p.1) ∧
          (∀ a b, (g.size ≤ a ∨ g.size ≤ b) → mat p.1 a b = mat g a b)) ∨
        (p.2 = true ∧ p.1.size = 0 ∧ ∀ τ, ¬ MSat g.size (mat g) τ)))
      · left
        exact ⟨rfl, Shape.refl g, FW.start hz, fun _ _ _ => rfl⟩
      · intro k p hk hp
        rcases hp with ⟨p1, hs, hf, ho⟩ | ⟨p1, p2, p3⟩
        · obtain ⟨g', f⟩ := p
          simp only at p1 hs hf ho
          subst p1
          have hsz := hs.size
          have hv' := hs.valid hv
          have hsm := hf.small hW (by omega) hS
          have hle : ((k : Int) + 1) * W ≤ g.size * W := Int.mul_le_mul_of_nonneg_right (by omega) hW
          have hp0 : 0 ≤ ((k : Int) + 1) * W := Int.mul_nonneg (by omega) hW
          have e2 : 2 * (g.size : Int) * W = 2 * (g.size * W) := by grind
          have hB2 : 2 * (((k : Int) + 1) * W) < INF := by omega
          obtain ⟨p, h1, h2⟩ := gpStage hv' (B := ((k : Int) + 1) * W) (by rw [hsz]; exact hsm) hB2
            hp0 (k := k) (by omega) (hf.diag k hk)
          rw [hsz] at h1 h2
          refine ⟨p, h1, ?_⟩
          rcases h2 with ⟨q1, q2, q3, q4⟩ | ⟨q1, q2, a, ha, hpos⟩
          · left
            have hst := hf.step hW hk hS hb2 q4
            have me : ∀ a b, a < g.size → b < g.size → mat p.1 a b = stage k (mat g') a b := by
              intro a b ha hb'; rw [q3 a b, if_pos ⟨ha, hb'⟩]
            refine ⟨q1, hs.trans q2, ?_, ?_⟩
            · constructor
              · intro i hi; rw [me i i hi hi]; exact hst.diag i hi
              · intro i hi j hj; rw [me i j hi hj]; exact hst.above i hi j hj
              · intro τ hτ
                exact (mat_eq_sat me τ).2 (hst.sound τ hτ)
              · intro m hm i hi j hj
                have hm' : m < g.size := by omega
                rw [me i m hi hm', me m j hm' hj, me i j hi hj]
                exact hst.closed m hm i hi j hj
              · intro i hi j hj; rw [me i j hi hj]; exact hst.path i hi j hj
            · intro a b hab
              rw [q3 a b, if_neg (by omega)]
              exact ho a b hab
          · right
            refine ⟨q1, q2, fun τ hτ => ?_⟩
            have hτ' := hf.sound τ hτ
            rcases (stage_val hsm hB2 hk ha ha).1 with e | ⟨c1, c2, e, -⟩
            · have := hf.diag a ha; omega
            · have := hτ' a ha k hk
              have := hτ' k hk a ha
              omega
        · exact ⟨p, fold_done p1 _, Or.inr ⟨p1, p2, p3⟩⟩
    obtain ⟨p, h1, h2⟩ := key
    rw [h1, ok_bind]
    rcases h2 with ⟨q1, q2, q3, q4⟩ | ⟨q1, q2, q3⟩
    · left
      have hcl := q3.finish
      refine ⟨p.1, by rw [q1]; rfl, q2, hcl, fun τ => ⟨fun h => ?_, q3.sound τ⟩, q4, ?_⟩
      · intro i hi j hj
        by_cases c : mat g i j = -INF
        · left; exact c
        · right
          have a := q3.above i hi j hj c
          have := h i hi j hj
          omega
      · refine tight_of_walks (M := mat g) hcl ?_
        intro i hi j hj hne
        by_cases e : i = j
        · subst e
          exact ⟨[i], rfl, rfl, by simp [hi], trivial, by rw [q3.diag i hi]; rfl⟩
        · obtain ⟨l, h1, h2, h3, h4⟩ := q3.path i hi j hj e hne
          refine ⟨i :: (l ++ [j]), rfl, by rw [← List.cons_append, last_app]; rfl, ?_, ?_, h4⟩
          · intro x hx
            simp at hx
            rcases hx with hx | hx | hx
            · omega
            · exact h2 x hx
            · omega
          · have hl : ∀ x ∈ i :: (l ++ [j]), x < g.size := by
              intro x hx
              simp at hx
              rcases hx with hx | hx | hx
              · omega
              · exact h2 x hx
              · omega
            refine edges_imp (fun a b h => ?_) _ (edges_and _ h3 (edges_mem (n := g.size)
              (P := fun a b => (mat g a b ≠ -INF → (-W ≤ mat g a b ∧ mat g a b ≤ W) ∧
                mat p.1 a b ≠ -INF ∧ mat g a b ≤ mat p.1 a b)) ?_ _ hl))
            · exact ⟨⟨h.1, (h.2 h.1).1⟩, (h.2 h.1).2⟩
            · intro a ha b hb' hne
              have s := hS a ha b hb'
              unfold Small at s
              exact ⟨by omega, q3.above a ha b hb' hne⟩
    · right
      exact ⟨p.1, by rw [q1]; rfl, q2, q3⟩
  · -- a positive diagonal entry
    obtain ⟨i0, hi0, hpos⟩ : ∃ i, i < g.size ∧ 0 < mat g i i := by
      apply Classical.byContradiction
      intro hno
      apply hz
      intro i hi
      have := hd i hi
      apply Classical.byContradiction
      intro hne
      exact hno ⟨i, hi, by omega⟩
    have hn : 0 < g.size := by omega
    have hWn : W ≤ (g.size : Int) * W := by
      have : 1 * W ≤ (g.size : Int) * W := Int.mul_le_mul_of_nonneg_right (by omega) hW
      omega
    have e3 : 3 * (g.size : Int) * W = 3 * (g.size * W) := by grind
    have unsat : ∀ τ, ¬ MSat g.size (mat g) τ := by
      intro τ hτ
      have := hτ i0 hi0 i0 hi0
      have : (0 : Int) < INF := by decide
      omega
    have hS0 : ∃ p, (List.range g.size).foldlM (gpBody 0) (g, false) = .ok p ∧ p.2 = true ∧ p.1.size = 0 := by
      by_cases c0 : mat g 0 0 = 0
      · obtain ⟨p, h1, h2⟩ := gpStage hv hS (by omega) hW hn c0
        refine ⟨p, h1, ?_⟩
        rcases h2 with ⟨-, -, -, q4⟩ | ⟨q1, q2, -⟩
        · exfalso
          have := (stage_val hS (by omega) hn hi0 hi0).2.1 (by
            have : (0 : Int) < INF := by decide
            omega)
          have := q4 i0 hi0
          omega
        · exact ⟨q1, q2⟩
      · have := hd 0 hn
        obtain ⟨g', h1, h2, h3⟩ := gpRow_first hv hS (by omega) hn (by omega)
        have hsz := h2.size
        have hb1 := gpBody_row h1 (h2.valid hv) (by omega)
        rw [if_pos h3] at hb1
        obtain ⟨m, hm⟩ : ∃ m, g.size = m + 1 := ⟨g.size - 1, by omega⟩
        rw [hm, List.range_succ_eq_map, List.foldlM_cons, hb1, ok_bind]
        exact ⟨_, fold_done rfl _, rfl, rfl⟩
    right
    obtain ⟨p, h1, h2, h3⟩ := hS0
    have all : (List.range g.size).foldlM (fun p k => (List.range g.size).foldlM (gpBody k) p) (g, false) = .ok p := by
      have rest : ∀ l : List Nat, l.foldlM (fun p k => (List.range g.size).foldlM (gpBody k) p) p = .ok p := by
        intro l
        induction l with
        | nil => rfl
        | cons k l ih => rw [List.foldlM_cons, fold_done h2, ok_bind]; exact ih
      obtain ⟨m, hm⟩ : ∃ m, g.size = m + 1 := ⟨g.size - 1, by omega⟩
      have er : List.range g.size = 0 :: (List.range m).map Nat.succ := by rw [hm, List.range_succ_eq_map]
      conv => lhs; arg 3; rw [er]
      rw [List.foldlM_cons, h1, ok_bind]
      exact rest _
    rw [all, ok_bind]
    exact ⟨p.1, by rw [h2]; rfl, h3, unsat⟩

end Chrono
