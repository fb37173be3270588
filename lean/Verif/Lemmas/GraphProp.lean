import Verif.Lemmas.GraphStore

/-!
# What the propagation loops compute
-/

set_option linter.unusedSimpArgs false

namespace Chrono
open Spec

/-- same shape: only stored bounds may differ -/
structure Shape (g g' : Graph) : Prop where
  size : g'.size = g.size
  len : g'.data.length = g.data.length

theorem Shape.refl (g : Graph) : Shape g g := ⟨rfl, rfl⟩
theorem Shape.trans {a b c : Graph} (h1 : Shape a b) (h2 : Shape b c) : Shape a c :=
  ⟨h2.size.trans h1.size, h2.len.trans h1.len⟩
theorem Shape.valid {g g' : Graph} (h : Shape g g') (hv : Valid g) : Valid g' := by
  unfold Valid at *
  rw [h.size, h.len]; exact hv
theorem Shape.put {g g' : Graph} (h : Shape g g') (i j : Nat) (v : Int) : Shape g (put g' i j v) :=
  ⟨h.size, by rw [put_len]; exact h.len⟩

/-- A loop relaxing the row `i` against values which it does not modify. -/
theorem row_loop {g : Graph} (hv : Valid g) {i : Nat} (hi : i < g.size) (f : Nat → Graph → Res Int) (v : Nat → Int)
    (hf : ∀ j g', j < g.size → Shape g g' →
      (∀ a b, mat g' a b = if a = i ∧ b < j then max (mat g a b) (v b) else mat g a b) → f j g' = .ok (v j)) :
    ∃ g', (List.range g.size).foldlM (fun g' j => do g'.relax i j (← f j g')) g = .ok g' ∧ Shape g g' ∧
      ∀ a b, mat g' a b = if a = i ∧ b < g.size then max (mat g a b) (v b) else mat g a b := by
  apply foldlM_range (fun j g' => Shape g g' ∧
    ∀ a b, mat g' a b = if a = i ∧ b < j then max (mat g a b) (v b) else mat g a b)
  · refine ⟨Shape.refl g, fun a b => ?_⟩
    rw [if_neg (by omega)]
  · rintro j g' hj ⟨hs, hm⟩
    have hv' := hs.valid hv
    have hsz := hs.size
    refine ⟨put g' i j (max (mat g' i j) (v j)), ?_, hs.put i j _, ?_⟩
    · rw [hf j g' hj hs hm, ok_bind, relax_eq hv' (by omega) (by omega)]
    · intro a b
      have e : mat g' i j = mat g i j := by rw [hm i j, if_neg (by omega)]
      rw [mat_put _ (hv'.ix_lt (by omega) (by omega)), e, hm a b]
      by_cases c : a = i ∧ b = j
      · obtain ⟨rfl, rfl⟩ := c
        rw [if_pos ⟨rfl, rfl⟩, if_pos ⟨rfl, by omega⟩]
      · rw [if_neg c]
        by_cases d : a = i ∧ b < j
        · rw [if_pos d, if_pos ⟨d.1, by omega⟩]
        · rw [if_neg d, if_neg (by omega)]

/-- A loop relaxing the column `j` against values which it does not modify. -/
theorem col_loop {g : Graph} (hv : Valid g) {j : Nat} (hj : j < g.size) (f : Nat → Graph → Res Int) (v : Nat → Int)
    (hf : ∀ i g', i < g.size → Shape g g' →
      (∀ a b, mat g' a b = if b = j ∧ a < i then max (mat g a b) (v a) else mat g a b) → f i g' = .ok (v i)) :
    ∃ g', (List.range g.size).foldlM (fun g' i => do g'.relax i j (← f i g')) g = .ok g' ∧ Shape g g' ∧
      ∀ a b, mat g' a b = if b = j ∧ a < g.size then max (mat g a b) (v a) else mat g a b := by
  apply foldlM_range (fun i g' => Shape g g' ∧
    ∀ a b, mat g' a b = if b = j ∧ a < i then max (mat g a b) (v a) else mat g a b)
  · refine ⟨Shape.refl g, fun a b => ?_⟩
    rw [if_neg (by omega)]
  · rintro i g' hi ⟨hs, hm⟩
    have hv' := hs.valid hv
    have hsz := hs.size
    refine ⟨put g' i j (max (mat g' i j) (v i)), ?_, hs.put i j _, ?_⟩
    · rw [hf i g' hi hs hm, ok_bind, relax_eq hv' (by omega) (by omega)]
    · intro a b
      have e : mat g' i j = mat g i j := by rw [hm i j, if_neg (by omega)]
      rw [mat_put _ (hv'.ix_lt (by omega) (by omega)), e, hm a b]
      by_cases c : a = i ∧ b = j
      · obtain ⟨rfl, rfl⟩ := c
        rw [if_pos ⟨rfl, rfl⟩, if_pos ⟨rfl, by omega⟩]
      · rw [if_neg c]
        by_cases d : b = j ∧ a < i
        · rw [if_pos d, if_pos ⟨d.1, by omega⟩]
        · rw [if_neg d, if_neg (by omega)]

theorem oadd_small {A B a b : Int} (ha : Small A a) (hb : Small B b) : Small (A + B) (oadd a b) := by
  by_cases c : a = -INF ∨ b = -INF
  · left; exact oadd_bot c
  · rw [oadd_ne (by omega) (by omega)]; unfold Small at *; omega

theorem max_small {A a b : Int} (ha : Small A a) (hb : Small A b) : Small A (max a b) := by
  unfold Small at *; omega

theorem Small.mono {A B a : Int} (h : Small A a) (hle : A ≤ B) : Small B a := by
  unfold Small at *; omega

/-- `propagate_lower_bound` computes `addEdge`. -/
theorem plb_eq {g : Graph} (hv : Valid g) {B : Int} {C : Mat} (hC : Closed g.size C) (hS : SmallMat B g.size C)
    {io jo : Nat} (hio : io < g.size) (hjo : jo < g.size) (hne : io ≠ jo) {v : Int} (hv1 : Small B v)
    (hv2 : v ≠ -INF) (hB0 : 0 ≤ B) (hB : 3 * B < INF)
    (hm : ∀ a b, a < g.size → b < g.size → mat g a b = if a = io ∧ b = jo then v else C a b)
    (hlt : C io jo = -INF ∨ C io jo ≤ v) (hc : C jo io = -INF ∨ C jo io + v ≤ 0) :
    ∃ g', g.propagateLowerBound io jo = .ok g' ∧ Shape g g' ∧
      (∀ a b, a < g.size → b < g.size → mat g' a b = addEdge C io jo v a b) ∧
      (∀ a b, (g.size ≤ a ∨ g.size ≤ b) → mat g' a b = mat g a b) := by
  have vne : v ≠ -INF := hv2
  unfold Graph.propagateLowerBound
  rw [lower_eq hv hio hjo, ok_bind]
  have e0 : mat g io jo = v := by rw [hm io jo hio hjo, if_pos ⟨rfl, rfl⟩]
  rw [e0]
  -- the first loop
  have colio : ∀ a, a < g.size → mat g a io = C a io := by
    intro a ha
    rw [hm a io ha hio, if_neg (by omega)]
  obtain ⟨g1, h1, s1, m1⟩ := col_loop hv hjo (fun i g' => do
      let a ← g'.lower i io
      tvAdd a v) (fun i => oadd (C i io) v) (by
    intro i g' hi hs hm'
    have hsz := hs.size
    rw [lower_eq (hs.valid hv) (by omega) (by omega), ok_bind, hm' i io, if_neg (by omega), colio i hi]
    exact tvAdd_small (hS i hi io hio) hv1 (by omega) (by omega) (by omega))
  have fold1 : (List.range g.size).foldlM (fun g i => do
      let a ← g.lower i io
      let val ← tvAdd a v
      g.relax i jo val) g = .ok g1 := by
    rw [← h1]
    congr 1
    funext g' i
    rw [bind_assoc]
  rw [fold1, ok_bind]
  have hv1' := s1.valid hv
  have sz1 := s1.size
  -- what the first loop leaves
  have M1 : ∀ a b, a < g.size → b < g.size →
      mat g1 a b = if b = jo then max (C a jo) (oadd (C a io) v) else C a b := by
    intro a b ha hb
    rw [m1 a b, hm a b ha hb]
    by_cases cb : b = jo
    · subst cb
      rw [if_pos ⟨rfl, ha⟩, if_pos rfl]
      by_cases ca : a = io
      · subst ca
        rw [if_pos ⟨rfl, rfl⟩, hC.diag a hio, oadd_ne (by decide) vne, Int.zero_add, Int.max_self]
        unfold Small at hv1
        rw [Int.max_eq_right]
        omega
      · rw [if_neg (by omega)]
    · rw [if_neg (by omega), if_neg (by omega), if_neg cb]
  have M1jo : ∀ b, b < g.size → mat g1 jo b = C jo b := by
    intro b hb
    rw [M1 jo b hjo hb]
    by_cases cb : b = jo
    · subst cb
      rw [if_pos rfl, hC.diag b hjo]
      by_cases c : C b io = -INF
      · rw [oadd_bot (Or.inl c)]
        unfold INF at *; omega
      · rw [oadd_ne c vne]; omega
    · rw [if_neg cb]
  have M1s : ∀ a, a < g.size → Small (2 * B) (mat g1 a jo) := by
    intro a ha
    rw [M1 a jo ha hjo, if_pos rfl]
    refine max_small ((hS a ha jo hjo).mono (by omega)) ?_
    exact (oadd_small (hS a ha io hio) hv1).mono (by omega)
  -- the second loop
  have fin : ∀ j, j < g.size → ∀ i, i < g.size →
      max (mat g1 j i) (oadd (mat g1 j jo) (C jo i)) = addEdge C io jo v j i := by
    intro j hj i hi
    unfold addEdge
    rw [M1 j i hj hi, M1 j jo hj hjo, if_pos rfl]
    have t1 := hS j hj jo hjo
    have t2 := hS j hj io hio
    have t3 := hS jo hjo i hi
    have t4 := hS j hj i hi
    have tri := hC.tri j hj jo hjo i hi
    have d := hC.diag jo hjo
    have z : (0 : Int) ≠ -INF := by decide
    by_cases ci : i = jo
    · subst ci
      rw [if_pos rfl, d]
      have : ∀ x : Int, oadd x 0 = x := by
        intro x
        by_cases cx : x = -INF
        · rw [oadd_bot (Or.inl cx), cx]
        · rw [oadd_ne cx z]; omega
      rw [this, this]
      omega
    · rw [if_neg ci]
      unfold Small at *
      by_cases c3 : C jo i = -INF
      · rw [oadd_bot (Or.inr c3), oadd_bot (Or.inr c3)]
      · by_cases c2 : C j io = -INF
        · rw [oadd_bot (Or.inl c2), oadd_bot (a := -INF) (Or.inl rfl)]
          rw [Int.max_eq_left (b := -INF) (by omega)]
          by_cases c1 : C j jo = -INF
          · rw [oadd_bot (Or.inl c1)]
          · rw [oadd_ne c1 c3]
            have := tri c1 c3
            omega
        · have e : C j io + v ≠ -INF := by omega
          rw [oadd_ne c2 vne, oadd_ne e c3]
          by_cases c1 : C j jo = -INF
          · have e2 : max (-INF) (C j io + v) = C j io + v := Int.max_eq_right (by omega)
            rw [c1, e2, oadd_ne e c3]
          · rw [oadd_ne (by omega) c3]
            have := tri c1 c3
            omega
  have key : ∃ g', (List.range g1.size).foldlM (fun g j => do
      let jJo ← g.lower j jo
      (List.range g.size).foldlM (fun g i => do
        let b ← g.lower jo i
        let val ← tvAdd jJo b
        g.relax j i val) g) g1 = .ok g' ∧ Shape g1 g' ∧
      (∀ a b, mat g' a b = if a < g1.size ∧ b < g1.size then addEdge C io jo v a b else mat g1 a b) := by
    apply foldlM_range (fun j g' => Shape g1 g' ∧
      ∀ a b, mat g' a b = if a < j ∧ b < g1.size then addEdge C io jo v a b else mat g1 a b)
    · refine ⟨Shape.refl g1, fun a b => ?_⟩
      rw [if_neg (by omega)]
    · rintro j g' hj ⟨hs, hm'⟩
      have hsz := hs.size
      have hv' := hs.valid hv1'
      -- row `jo` has not changed
      have rowjo : ∀ b, b < g.size → mat g' jo b = C jo b := by
        intro b hb
        rw [hm' jo b, ← fin jo hjo b hb, M1jo b hb, M1jo jo hjo, hC.diag jo hjo]
        have z : (0 : Int) ≠ -INF := by decide
        split
        · by_cases c : C jo b = -INF
          · rw [oadd_bot (Or.inr c)]; omega
          · rw [oadd_ne z c]; omega
        · rfl
      rw [lower_eq hv' (by omega) (by omega), ok_bind]
      have ejjo : mat g' j jo = mat g1 j jo := by rw [hm' j jo, if_neg (by omega)]
      obtain ⟨g2, h2, s2, m2⟩ := row_loop hv' (i := j) (by omega) (fun i g'' => do
          let b ← g''.lower jo i
          tvAdd (mat g' j jo) b) (fun i => oadd (mat g1 j jo) (C jo i)) (by
        intro i g'' hi hs2 hm2
        have hsz2 := hs2.size
        rw [lower_eq (hs2.valid hv') (by omega) (by omega), ok_bind]
        have e : mat g'' jo i = C jo i := by
          rw [hm2 jo i]
          split
          · omega
          · exact rowjo i (by omega)
        rw [e, ejjo]
        exact tvAdd_small (M1s j (by omega)) (hS jo hjo i (by omega)) (by omega) (by omega) (by omega))
      refine ⟨g2, ?_, hs.trans s2, ?_⟩
      · rw [← h2]
        congr 1
        funext g' i
        rw [bind_assoc]
      · intro a b
        rw [m2 a b]
        by_cases c : a = j ∧ b < g'.size
        · obtain ⟨rfl, hb⟩ := c
          rw [if_pos ⟨rfl, hb⟩, if_pos ⟨by omega, by omega⟩, hm' a b, if_neg (by omega)]
          exact fin a (by omega) b (by omega)
        · rw [if_neg c, hm' a b]
          by_cases d : a < j ∧ b < g1.size
          · rw [if_pos d, if_pos ⟨by omega, d.2⟩]
          · rw [if_neg d, if_neg (by omega)]
  obtain ⟨g', h2, s2, m2⟩ := key
  refine ⟨g', h2, s1.trans s2, ?_, ?_⟩
  · intro a b ha hb
    rw [m2 a b, if_pos (by omega)]
  · intro a b hab
    rw [m2 a b, if_neg (by omega), m1 a b, if_neg (by omega)]

end Chrono
