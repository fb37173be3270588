import Verif.Lemmas.Matrix

/-!
# Walks: why the bounds of a closed system stay small, and the Floyd-Warshall stages
-/

namespace Chrono

/-- the sum of the bounds along a list of instants -/
def wsum (M : Mat) : List Nat → Int
  | a :: b :: l => M a b + wsum M (b :: l)
  | _ => 0

/-- a property of all the successive pairs -/
def Edges (P : Nat → Nat → Prop) : List Nat → Prop
  | a :: b :: l => P a b ∧ Edges P (b :: l)
  | _ => True

theorem wsum_append (M : Mat) (x : Nat) (r : List Nat) : ∀ p, wsum M (p ++ x :: r) = wsum M (p ++ [x]) + wsum M (x :: r)
  | [] => by simp [wsum]
  | [a] => by simp [wsum]
  | a :: b :: p => by
    have := wsum_append M x r (b :: p)
    simp only [List.cons_append, wsum] at *
    omega

theorem edges_append (P : Nat → Nat → Prop) (x : Nat) (r : List Nat) :
    ∀ p, Edges P (p ++ x :: r) ↔ Edges P (p ++ [x]) ∧ Edges P (x :: r)
  | [] => by simp [Edges]
  | [a] => by simp [Edges]
  | a :: b :: p => by
    have := edges_append P x r (b :: p)
    simp only [List.cons_append, Edges] at *
    rw [this, and_assoc]

theorem edges_imp {P Q : Nat → Nat → Prop} (h : ∀ a b, P a b → Q a b) : ∀ l, Edges P l → Edges Q l
  | [], _ => trivial
  | [_], _ => trivial
  | a :: b :: l, ⟨h1, h2⟩ => ⟨h a b h1, edges_imp h (b :: l) h2⟩

/-- the bounds along a walk with `m` steps -/
theorem wsum_bound {M : Mat} {W : Int} : ∀ l, Edges (fun a b => -W ≤ M a b ∧ M a b ≤ W) l →
    -((l.length - 1 : Nat) * W) ≤ wsum M l ∧ wsum M l ≤ (l.length - 1 : Nat) * W
  | [], _ => by simp [wsum]
  | [_], _ => by simp [wsum]
  | a :: b :: l, ⟨h1, h2⟩ => by
    have := wsum_bound (b :: l) h2
    have e : ((a :: b :: l).length - 1 : Nat) = ((b :: l).length - 1 : Nat) + 1 := by simp
    rw [e, wsum]
    have e2 : (((b :: l).length - 1 + 1 : Nat) : Int) * W = ((b :: l).length - 1 : Nat) * W + W := by grind
    rw [e2]
    omega

theorem dup_of_not_nodup : ∀ l : List Nat, ¬ l.Nodup → ∃ x p q r, l = p ++ x :: (q ++ x :: r)
  | [], h => absurd List.nodup_nil h
  | a :: t, h => by
    by_cases c : a ∈ t
    · obtain ⟨q, r, rfl⟩ := List.append_of_mem c
      exact ⟨a, [], q, r, rfl⟩
    · have : ¬ t.Nodup := fun ht => h (List.nodup_cons.2 ⟨c, ht⟩)
      obtain ⟨x, p, q, r, rfl⟩ := dup_of_not_nodup t this
      exact ⟨x, a :: p, q, r, rfl⟩

theorem nodup_length : ∀ (n : Nat) (l : List Nat), l.Nodup → (∀ x ∈ l, x < n) → l.length ≤ n
  | 0, [], _, _ => by simp
  | 0, a :: _, _, h => absurd (h a (by simp)) (by omega)
  | n + 1, l, hd, h => by
    by_cases c : n ∈ l
    · obtain ⟨p, q, rfl⟩ := List.append_of_mem c
      rw [List.nodup_append] at hd
      obtain ⟨h1, h2, h3⟩ := hd
      rw [List.nodup_cons] at h2
      have : (p ++ q).length ≤ n := by
        apply nodup_length n
        · rw [List.nodup_append]
          exact ⟨h1, h2.2, fun a ha b hb => h3 a ha b (by simp [hb])⟩
        · intro x hx
          have hx' : x ∈ p ++ n :: q := by
            rw [List.mem_append] at hx ⊢
            rcases hx with hx | hx
            · left; exact hx
            · right; simp [hx]
          have := h x hx'
          have : x ≠ n := by
            rintro rfl
            rw [List.mem_append] at hx
            rcases hx with hx | hx
            · exact h3 x hx x (by simp) rfl
            · exact h2.1 hx
          omega
      simp only [List.length_append, List.length_cons] at *
      omega
    · have : l.length ≤ n := by
        apply nodup_length n l hd
        intro x hx
        have := h x hx
        have : x ≠ n := fun e => c (e ▸ hx)
        omega
      omega

/-! ## Tight systems -/

/-- Every bound is the sum of bounds of absolute value at most `W` along some walk. -/
def Tight (W : Int) (n : Nat) (M : Mat) : Prop :=
  ∀ i, i < n → ∀ j, j < n → M i j ≠ -INF → ∃ L : List Nat, L.head? = some i ∧ L.getLast? = some j ∧
    (∀ x ∈ L, x < n) ∧ Edges (fun a b => M a b ≠ -INF ∧ -W ≤ M a b ∧ M a b ≤ W) L ∧ wsum M L = M i j

theorem Closed.walk {n : Nat} {M : Mat} (h : Closed n M) : ∀ (L : List Nat) (i j : Nat), L.head? = some i →
    L.getLast? = some j → (∀ x ∈ L, x < n) → Edges (fun a b => M a b ≠ -INF) L →
    M i j ≠ -INF ∧ wsum M L ≤ M i j
  | [], i, j, h1, _, _, _ => by simp at h1
  | [a], i, j, h1, h2, h3, _ => by
    simp at h1 h2
    subst h1; subst h2
    rw [h.diag a (h3 a (by simp))]
    exact ⟨by decide, by simp [wsum]⟩
  | a :: b :: l, i, j, h1, h2, h3, ⟨h4, h5⟩ => by
    simp at h1
    subst h1
    have ih := h.walk (b :: l) b j rfl (by simpa using h2) (fun x hx => h3 x (by simp at hx ⊢; right; exact hx)) h5
    have hj : j < n := h3 j (by
      have := List.mem_of_getLast? h2
      exact this)
    have := h.tri a (h3 a (by simp)) b (h3 b (by simp)) j hj h4 ih.1
    refine ⟨this.1, ?_⟩
    rw [wsum]
    omega

theorem head_cut (p q r : List Nat) (x : Nat) : (p ++ x :: (q ++ x :: r)).head? = (p ++ x :: r).head? := by
  cases p <;> rfl

theorem last_app (x : Nat) (r : List Nat) : ∀ p : List Nat, (p ++ x :: r).getLast? = (x :: r).getLast?
  | [] => rfl
  | a :: p => by
    have h := last_app x r p
    cases p with
    | nil => rw [List.singleton_append, List.getLast?_cons_cons]
    | cons b p =>
      rw [List.cons_append, List.cons_append, List.getLast?_cons_cons, ← List.cons_append]
      exact h

theorem last_cut (p q r : List Nat) (x : Nat) :
    (p ++ x :: (q ++ x :: r)).getLast? = (p ++ x :: r).getLast? := by
  rw [last_app, last_app, ← List.cons_append, last_app]

/-- In a tight closed system no bound exceeds `(n-1)·W`. -/
theorem Closed.tight_small {n : Nat} {M : Mat} (h : Closed n M) {W : Int} (hW : 0 ≤ W) (ht : Tight W n M) :
    SmallMat (((n - 1 : Nat) : Int) * W) n M := by
  intro i hi j hj
  by_cases c : M i j = -INF
  · left; exact c
  right
  obtain ⟨L, h1, h2, h3, h4, h5⟩ := ht i hi j hj c
  -- remove the cycles
  have cut : ∀ m (L : List Nat), L.length ≤ m → L.head? = some i → L.getLast? = some j → (∀ x ∈ L, x < n) →
      Edges (fun a b => M a b ≠ -INF ∧ -W ≤ M a b ∧ M a b ≤ W) L → wsum M L = M i j →
      ∃ L' : List Nat, L'.Nodup ∧ (∀ x ∈ L', x < n) ∧ Edges (fun a b => -W ≤ M a b ∧ M a b ≤ W) L' ∧
        wsum M L' = M i j := by
    intro m
    induction m with
    | zero =>
      intro L hm h1
      have : L = [] := List.eq_nil_of_length_eq_zero (by omega)
      subst this
      simp at h1
    | succ m ih =>
      intro L hm h1 h2 h3 h4 h5
      by_cases hd : L.Nodup
      · exact ⟨L, hd, h3, edges_imp (fun a b h => h.2) L h4, h5⟩
      · obtain ⟨x, p, q, r, rfl⟩ := dup_of_not_nodup L hd
        have hx : x < n := h3 x (by simp)
        have e1 := (edges_append _ x (q ++ x :: r) p).1 h4
        have e2 := (edges_append _ x r (x :: q)).1 e1.2
        have w1 := wsum_append M x (q ++ x :: r) p
        have w2 := wsum_append M x r (x :: q)
        have w3 := wsum_append M x r p
        have hc := h.walk (x :: q ++ [x]) x x rfl (by rw [last_app]; rfl) (by
          intro y hy
          apply h3
          simp at hy ⊢
          rcases hy with hy | hy | hy
          · right; left; exact hy
          · right; right; left; exact hy
          · right; left; exact hy) (edges_imp (fun a b h => h.1) _ e2.1)
        rw [h.diag x hx] at hc
        have h1' := head_cut p q r x ▸ h1
        have h2' := last_cut p q r x ▸ h2
        have h3' : ∀ y ∈ p ++ x :: r, y < n := by
          intro y hy
          apply h3
          simp at hy ⊢
          rcases hy with hy | hy | hy
          · left; exact hy
          · right; left; exact hy
          · right; right; right; right; exact hy
        have h4' := (edges_append _ x r p).2 ⟨e1.1, e2.2⟩
        have hw := h.walk (p ++ x :: r) i j h1' h2' h3' (edges_imp (fun a b h => h.1) _ h4')
        refine ih (p ++ x :: r) ?_ h1' h2' h3' h4' ?_
        · simp at hm ⊢; omega
        · simp only [List.cons_append] at w2
          simp only [List.cons_append] at hc
          omega
  obtain ⟨L', a1, a2, a3, a4⟩ := cut L.length L (Nat.le_refl _) h1 h2 h3 h4 h5
  have len := nodup_length n L' a1 a2
  have b := wsum_bound L' a3
  have : ((L'.length - 1 : Nat) : Int) * W ≤ ((n - 1 : Nat) : Int) * W :=
    Int.mul_le_mul_of_nonneg_right (by omega) hW
  omega

/-- If a closed system dominates a smaller one along a walk whose sum is the bound of its ends, the walk is made
of bounds of the greater one. -/
theorem Closed.walk_eq {n : Nat} {M N : Mat} (h : Closed n N) : ∀ (L : List Nat) (i j : Nat), L.head? = some i →
    L.getLast? = some j → (∀ x ∈ L, x < n) → Edges (fun a b => M a b ≠ -INF ∧ N a b ≠ -INF ∧ M a b ≤ N a b) L →
    wsum M L = N i j → Edges (fun a b => M a b = N a b) L ∧ wsum N L = N i j
  | [], i, j, h1, _, _, _, _ => by simp at h1
  | [a], i, j, h1, h2, h3, _, h5 => ⟨trivial, h5⟩
  | a :: b :: l, i, j, h1, h2, h3, ⟨h4, h5⟩, h6 => by
    simp at h1
    subst h1
    have hj : j < n := h3 j (List.mem_of_getLast? h2)
    have hl2 : (b :: l).getLast? = some j := by simpa using h2
    have h3' : ∀ x ∈ b :: l, x < n := fun x hx => h3 x (by simp at hx ⊢; right; exact hx)
    have wN := h.walk (b :: l) b j rfl hl2 h3' (edges_imp (fun a b h => h.2.1) _ h5)
    have t := h.tri a (h3 a (by simp)) b (h3 b (by simp)) j hj h4.2.1 wN.1
    have mono : ∀ l : List Nat, Edges (fun a b => M a b ≠ -INF ∧ N a b ≠ -INF ∧ M a b ≤ N a b) l →
        wsum M l ≤ wsum N l := by
      intro l
      induction l with
      | nil => intro _; simp [wsum]
      | cons x t ih =>
        cases t with
        | nil => intro _; simp [wsum]
        | cons y t => rintro ⟨g1, g2⟩; have := ih g2; simp only [wsum]; omega
    have hm := mono (b :: l) h5
    rw [wsum] at h6
    have e : wsum M (b :: l) = N b j := by omega
    have r := h.walk_eq (b :: l) b j rfl hl2 h3' h5 e
    refine ⟨⟨by omega, r.1⟩, ?_⟩
    rw [wsum]; omega

theorem tight_of_walks {W : Int} {n : Nat} {M N : Mat} (h : Closed n N)
    (hw : ∀ i, i < n → ∀ j, j < n → N i j ≠ -INF → ∃ L : List Nat, L.head? = some i ∧ L.getLast? = some j ∧
      (∀ x ∈ L, x < n) ∧ Edges (fun a b => (M a b ≠ -INF ∧ -W ≤ M a b ∧ M a b ≤ W) ∧
        N a b ≠ -INF ∧ M a b ≤ N a b) L ∧ wsum M L = N i j) : Tight W n N := by
  intro i hi j hj hne
  obtain ⟨L, h1, h2, h3, h4, h5⟩ := hw i hi j hj hne
  obtain ⟨e1, e2⟩ := h.walk_eq L i j h1 h2 h3 (edges_imp (fun a b h => ⟨h.1.1, h.2⟩) L h4) h5
  refine ⟨L, h1, h2, h3, ?_, e2⟩
  have both : ∀ l : List Nat, Edges (fun a b => (M a b ≠ -INF ∧ -W ≤ M a b ∧ M a b ≤ W) ∧
      N a b ≠ -INF ∧ M a b ≤ N a b) l → Edges (fun a b => M a b = N a b) l →
      Edges (fun a b => N a b ≠ -INF ∧ -W ≤ N a b ∧ N a b ≤ W) l := by
    intro l
    induction l with
    | nil => intro _ _; trivial
    | cons x t ih =>
      cases t with
      | nil => intro _ _; trivial
      | cons y t =>
        rintro ⟨g1, g2⟩ ⟨k1, k2⟩
        exact ⟨by show N x y ≠ _ ∧ _ ≤ N x y ∧ N x y ≤ _; rw [← k1]; exact g1.1, ih g2 k2⟩
  exact both L h4 e1

/-- Adding a bound of absolute value at most `W` to a tight closed system keeps it tight. -/
theorem addEdge_tight {n : Nat} {B W : Int} {M : Mat} (hM : Closed n M) (hS : SmallMat B n M) (hWB : W ≤ B)
    (ht : Tight W n M) {io jo : Nat} (hio : io < n) (hjo : jo < n) {v : Int} (hv1 : -W ≤ v) (hv2 : v ≤ W)
    (hB : 3 * B < INF) (hc : M jo io = -INF ∨ M jo io + v ≤ 0) (hgt : M io jo = -INF ∨ M io jo ≤ v) :
    Tight W n (addEdge M io jo v) := by
  have hv' : v ≠ -INF := by omega
  have hv : Small B v := Or.inr (by omega)
  have hcl := addEdge_closed hM hS hio hjo hv hv' hB hc
  have cs := fun {j i : Nat} (hj : j < n) (hi : i < n) => addEdge_val hS hio hjo hv hB hv' hj hi
  -- the system with the new bound, not yet propagated
  let M' : Mat := fun a b => if a = io ∧ b = jo then v else M a b
  have d1 := hM.diag io hio
  have d2 := hM.diag jo hjo
  have hv3 := (cs hio hjo).2.2 (by rw [d1]; decide) (by rw [d2]; decide)
  -- a walk of `M` is a walk of `M'` whose sum is at least the same
  refine tight_of_walks (M := M') hcl ?_
  have key : ∀ l : List Nat, (∀ x ∈ l, x < n) → Edges (fun a b => M a b ≠ -INF ∧ -W ≤ M a b ∧ M a b ≤ W) l →
      Edges (fun a b => (M' a b ≠ -INF ∧ -W ≤ M' a b ∧ M' a b ≤ W) ∧
        addEdge M io jo v a b ≠ -INF ∧ M' a b ≤ addEdge M io jo v a b) l ∧ wsum M l ≤ wsum M' l := by
    intro l
    induction l with
    | nil => intro _ _; exact ⟨trivial, by simp [wsum]⟩
    | cons x t ih =>
      cases t with
      | nil => intro _ _; exact ⟨trivial, by simp [wsum]⟩
      | cons y t =>
        rintro hl ⟨g1, g2⟩
        obtain ⟨i1, i2⟩ := ih (fun z hz => hl z (by simp at hz ⊢; right; exact hz)) g2
        have hx := hl x (by simp)
        have hy := hl y (by simp)
        have hm := (cs hx hy).2.1 g1.1
        have hle : M x y ≤ M' x y := by
          show M x y ≤ if _ then _ else _
          split
          · rename_i c; obtain ⟨rfl, rfl⟩ := c
            rcases hgt with hgt | hgt
            · exact absurd hgt g1.1
            · exact hgt
          · omega
        refine ⟨⟨⟨?_, ?_⟩, i1⟩, ?_⟩
        · show (if _ then _ else _) ≠ _ ∧ _ ≤ (if _ then _ else _) ∧ (if _ then _ else _) ≤ _
          split
          · exact ⟨hv', hv1, hv2⟩
          · exact g1
        · refine ⟨hm.1, ?_⟩
          show (if _ then _ else _) ≤ _
          split
          · rename_i c; obtain ⟨rfl, rfl⟩ := c; omega
          · exact hm.2
        · simp only [wsum]; omega
  have up : ∀ (L : List Nat) (i j : Nat), L.head? = some i → L.getLast? = some j → (∀ x ∈ L, x < n) →
      Edges (fun a b => (M' a b ≠ -INF ∧ -W ≤ M' a b ∧ M' a b ≤ W) ∧
        addEdge M io jo v a b ≠ -INF ∧ M' a b ≤ addEdge M io jo v a b) L →
      wsum M' L ≤ addEdge M io jo v i j := by
    intro L i j h1 h2 h3 h4
    have w := hcl.walk L i j h1 h2 h3 (edges_imp (fun a b h => h.2.1) L h4)
    have mono : ∀ l : List Nat, Edges (fun a b => (M' a b ≠ -INF ∧ -W ≤ M' a b ∧ M' a b ≤ W) ∧
        addEdge M io jo v a b ≠ -INF ∧ M' a b ≤ addEdge M io jo v a b) l →
        wsum M' l ≤ wsum (addEdge M io jo v) l := by
      intro l
      induction l with
      | nil => intro _; simp [wsum]
      | cons x t ih =>
        cases t with
        | nil => intro _; simp [wsum]
        | cons y t => rintro ⟨g1, g2⟩; have := ih g2; simp only [wsum]; omega
    have := mono L h4
    omega
  intro i hi j hj hne
  rcases (cs hi hj).1 with e | ⟨c1, c2, e⟩
  · rw [e] at hne ⊢
    obtain ⟨L, h1, h2, h3, h4, h5⟩ := ht i hi j hj hne
    obtain ⟨k1, k2⟩ := key L h3 h4
    refine ⟨L, h1, h2, h3, k1, ?_⟩
    have := up L i j h1 h2 h3 k1
    omega
  · obtain ⟨L1, a1, a2, a3, a4, a5⟩ := ht i hi io hio c1
    obtain ⟨L2, b1, b2, b3, b4, b5⟩ := ht jo hjo j hj c2
    obtain ⟨k1, k2⟩ := key L1 a3 a4
    obtain ⟨m1, m2⟩ := key L2 b3 b4
    -- the last instant of `L1` is `io`, the first one of `L2` is `jo`
    obtain ⟨p, rfl⟩ : ∃ p, L1 = p ++ [io] := by
      rcases List.eq_nil_or_concat L1 with h | ⟨p, y, h⟩
      · subst h; simp at a2
      · rw [List.concat_eq_append] at h
        subst h
        simp at a2
        exact ⟨p, by rw [a2]⟩
    obtain ⟨q, rfl⟩ : ∃ q, L2 = jo :: q := by
      cases L2 with
      | nil => simp at b1
      | cons y q => simp at b1; exact ⟨q, by rw [b1]⟩
    have hL : (∀ x ∈ p ++ io :: jo :: q, x < n) := by
      intro x hx
      simp at hx
      rcases hx with hx | hx | hx | hx
      · exact a3 x (by simp [hx])
      · omega
      · omega
      · exact b3 x (by simp [hx])
    have hE := (edges_append (fun a b => (M' a b ≠ -INF ∧ -W ≤ M' a b ∧ M' a b ≤ W) ∧
        addEdge M io jo v a b ≠ -INF ∧ M' a b ≤ addEdge M io jo v a b) io (jo :: q) p).2
        ⟨k1, ⟨by
          have e : M' io jo = v := by show (if _ then _ else _) = _; rw [if_pos ⟨rfl, rfl⟩]
          show (M' io jo ≠ _ ∧ _ ≤ M' io jo ∧ M' io jo ≤ _) ∧ _ ∧ M' io jo ≤ _
          rw [e]
          exact ⟨⟨hv', hv1, hv2⟩, hv3.1, by omega⟩, m1⟩⟩
    have hh : (p ++ io :: jo :: q).head? = some i := by
      rw [← a1]; cases p <;> rfl
    have hl : (p ++ io :: jo :: q).getLast? = some j := by
      rw [last_app, List.getLast?_cons_cons]
      exact b2
    refine ⟨p ++ io :: jo :: q, hh, hl, hL, hE, ?_⟩
    have u := up _ i j hh hl hL hE
    have w := wsum_append M' io (jo :: q) p
    have w2 : wsum M' (io :: jo :: q) = M' io jo + wsum M' (jo :: q) := rfl
    have e3 : M' io jo = v := by show (if _ then _ else _) = _; rw [if_pos ⟨rfl, rfl⟩]
    omega

/-! ## Floyd-Warshall stages -/

/-- one stage, in exact arithmetic -/
def stage (k : Nat) (M : Mat) : Mat := fun i j => max (M i j) (oadd (M i k) (M k j))

/-- What holds before stage `k`, `A` being the initial system, if no contradiction has been found yet. -/
structure FW (W : Int) (n : Nat) (A : Mat) (k : Nat) (M : Mat) : Prop where
  diag : ∀ i, i < n → M i i = 0
  above : ∀ i, i < n → ∀ j, j < n → A i j ≠ -INF → M i j ≠ -INF ∧ A i j ≤ M i j
  sound : ∀ τ, MSat n A τ → MSat n M τ
  closed : ∀ m, m < k → ∀ i, i < n → ∀ j, j < n → M i m ≠ -INF → M m j ≠ -INF →
    M i j ≠ -INF ∧ M i m + M m j ≤ M i j
  path : ∀ i, i < n → ∀ j, j < n → i ≠ j → M i j ≠ -INF → ∃ l : List Nat, l.Nodup ∧ (∀ x ∈ l, x < k) ∧
    Edges (fun a b => A a b ≠ -INF) (i :: (l ++ [j])) ∧ wsum A (i :: (l ++ [j])) = M i j

theorem FW.start {W : Int} {n : Nat} {A : Mat} (hd : ∀ i, i < n → A i i = 0) : FW W n A 0 A where
  diag := hd
  above := fun i _ j _ h => ⟨h, Int.le_refl _⟩
  sound := fun _ h => h
  closed := fun m hm => absurd hm (by omega)
  path := fun i _ j _ _ h => ⟨[], List.nodup_nil, by simp, ⟨h, trivial⟩, by simp [wsum]⟩

theorem FW.finish {W : Int} {n : Nat} {A M : Mat} (h : FW W n A n M) : Closed n M :=
  ⟨h.diag, fun i hi k hk j hj h1 h2 => h.closed k hk i hi j hj h1 h2⟩

theorem edges_and {P Q : Nat → Nat → Prop} : ∀ l : List Nat, Edges P l → Edges Q l →
    Edges (fun a b => P a b ∧ Q a b) l
  | [], _, _ => trivial
  | [_], _, _ => trivial
  | a :: b :: l, ⟨h1, h2⟩, ⟨h3, h4⟩ => ⟨⟨h1, h3⟩, edges_and (b :: l) h2 h4⟩

theorem edges_mem {P : Nat → Nat → Prop} {n : Nat} (h : ∀ a, a < n → ∀ b, b < n → P a b) :
    ∀ l : List Nat, (∀ x ∈ l, x < n) → Edges P l
  | [], _ => trivial
  | [_], _ => trivial
  | a :: b :: l, hl => ⟨h a (hl a (by simp)) b (hl b (by simp)),
      edges_mem h (b :: l) (fun x hx => hl x (by simp at hx ⊢; right; exact hx))⟩

theorem FW.small {W : Int} (hW : 0 ≤ W) {n : Nat} {A M : Mat} {k : Nat} (hk : k ≤ n) (hA : SmallMat W n A)
    (h : FW W n A k M) : SmallMat (((k : Int) + 1) * W) n M := by
  intro i hi j hj
  by_cases c : M i j = -INF
  · left; exact c
  right
  have pos : 0 ≤ ((k : Int) + 1) * W := Int.mul_nonneg (by omega) hW
  by_cases e : i = j
  · subst e; rw [h.diag i hi]; omega
  obtain ⟨l, h1, h2, h3, h4⟩ := h.path i hi j hj e c
  have len := nodup_length k l h1 h2
  have hl : ∀ x ∈ i :: (l ++ [j]), x < n := by
    intro x hx
    simp at hx
    rcases hx with hx | hx | hx
    · omega
    · have := h2 x hx; omega
    · omega
  have b := wsum_bound (M := A) (W := W) (i :: (l ++ [j]))
    (edges_imp (fun _ _ h => by
      obtain ⟨h1, h2⟩ := h
      rcases h2 with h2 | h2
      · exact absurd h2 h1
      · exact h2) _ (edges_and _ h3 (edges_mem (fun a ha b hb => hA a ha b hb) _ hl)))
  have e2 : ((i :: (l ++ [j])).length - 1 : Nat) = l.length + 1 := by simp
  rw [e2, h4] at b
  have : ((l.length + 1 : Nat) : Int) * W ≤ ((k : Int) + 1) * W :=
    Int.mul_le_mul_of_nonneg_right (by omega) hW
  omega

/-- walks through the instants already processed are accounted for -/
theorem FW.walk {W : Int} {n : Nat} {A M : Mat} {k : Nat} (hk : k ≤ n) (h : FW W n A k M) {j : Nat} (hj : j < n) :
    ∀ (l : List Nat) (i : Nat), i < n → (∀ x ∈ l, x < k) → Edges (fun a b => A a b ≠ -INF) (i :: (l ++ [j])) →
    M i j ≠ -INF ∧ wsum A (i :: (l ++ [j])) ≤ M i j
  | [], i, hi, _, hE => by
    have := h.above i hi j hj hE.1
    exact ⟨this.1, by simp [wsum]; exact this.2⟩
  | m :: l, i, hi, hl, hE => by
    have hm := hl m (by simp)
    have ih := h.walk hk hj l m (by omega) (fun x hx => hl x (by simp [hx])) hE.2
    have a := h.above i hi m (by omega) hE.1
    have c := h.closed m hm i hi j hj a.1 ih.1
    refine ⟨c.1, ?_⟩
    simp only [List.cons_append, wsum] at *
    omega

theorem stage_val {B : Int} {n : Nat} {M : Mat} (hS : SmallMat B n M) (hB : 2 * B < INF) {k i j : Nat} (hk : k < n)
    (hi : i < n) (hj : j < n) :
    (stage k M i j = M i j ∨ (M i k ≠ -INF ∧ M k j ≠ -INF ∧ stage k M i j = M i k + M k j ∧
      (M i j = -INF ∨ M i j < M i k + M k j))) ∧
    (M i j ≠ -INF → stage k M i j ≠ -INF ∧ M i j ≤ stage k M i j) ∧
    (M i k ≠ -INF → M k j ≠ -INF → stage k M i j ≠ -INF ∧ M i k + M k j ≤ stage k M i j) := by
  have s1 := hS i hi k hk
  have s2 := hS k hk j hj
  have s3 := hS i hi j hj
  unfold Small at *
  unfold stage
  by_cases c1 : M i k = -INF
  · rw [oadd_bot (Or.inl c1)]
    refine ⟨Or.inl (by omega), fun _ => by omega, fun h => absurd c1 h⟩
  · by_cases c2 : M k j = -INF
    · rw [oadd_bot (Or.inr c2)]
      refine ⟨Or.inl (by omega), fun _ => by omega, fun _ h => absurd c2 h⟩
    · rw [oadd_ne c1 c2]
      refine ⟨?_, fun _ => by omega, fun _ _ => by omega⟩
      by_cases c : M i j < M i k + M k j
      · right; exact ⟨c1, c2, by omega, Or.inr c⟩
      · left; omega

/-- A stage without positive diagonal entry preserves the invariant. -/
theorem FW.step {W : Int} (hW : 0 ≤ W) {n : Nat} {A M : Mat} {k : Nat} (hk : k < n) (hA : SmallMat W n A)
    (hb : 2 * (n : Int) * W < INF) (h : FW W n A k M)
    (hd : ∀ i, i < n → ¬ 0 < stage k M i i) : FW W n A (k + 1) (stage k M) := by
  have hS := h.small hW (by omega) hA
  have hB : 2 * (((k : Int) + 1) * W) < INF := by
    have : ((k : Int) + 1) * W ≤ n * W := Int.mul_le_mul_of_nonneg_right (by omega) hW
    have e : 2 * (n : Int) * W = 2 * (n * W) := by grind
    omega
  have sv := fun {i j : Nat} (hi : i < n) (hj : j < n) => stage_val hS hB hk hi hj
  have dk := h.diag k hk
  have z : (0 : Int) ≠ -INF := by decide
  -- row and column `k` do not change
  have colk : ∀ i, i < n → stage k M i k = M i k := by
    intro i hi
    rcases (sv hi hk).1 with e | ⟨c1, c2, e, hlt⟩
    · exact e
    · omega
  have rowk : ∀ j, j < n → stage k M k j = M k j := by
    intro j hj
    rcases (sv hk hj).1 with e | ⟨c1, c2, e, hlt⟩
    · exact e
    · omega
  constructor
  · intro i hi
    have := (sv hi hi).2.1 (by rw [h.diag i hi]; exact z)
    have := hd i hi
    have := h.diag i hi
    omega
  · intro i hi j hj hne
    have a := h.above i hi j hj hne
    have b := (sv hi hj).2.1 a.1
    exact ⟨b.1, by omega⟩
  · intro τ hτ i hi j hj
    have hM := h.sound τ hτ
    rcases (sv hi hj).1 with e | ⟨c1, c2, e, -⟩
    · rw [e]; exact hM i hi j hj
    · right
      have a := hM i hi k hk
      have b := hM k hk j hj
      omega
  · intro m hm i hi j hj h1 h2
    rcases Nat.lt_or_ge m k with hmk | hmk
    · -- an instant processed before
      have hmn : m < n := by omega
      have key : ∀ x, x < n → ∀ y, y < n → M x m ≠ -INF → M m y ≠ -INF → M x y ≠ -INF ∧ M x m + M m y ≤ M x y :=
        fun x hx y hy => h.closed m hmk x hx y hy
      rcases (sv hi hmn).1 with e1 | ⟨p1, p2, e1, -⟩
      · rw [e1] at h1 ⊢
        rcases (sv hmn hj).1 with e2 | ⟨q1, q2, e2, -⟩
        · rw [e2] at h2 ⊢
          have c := key i hi j hj h1 h2
          have := (sv hi hj).2.1 c.1
          exact ⟨this.1, by omega⟩
        · have c := key i hi k hk h1 q1
          have := (sv hi hj).2.2 c.1 q2
          exact ⟨this.1, by omega⟩
      · rcases (sv hmn hj).1 with e2 | ⟨q1, q2, e2, -⟩
        · rw [e2] at h2 ⊢
          have c := key k hk j hj p2 h2
          have := (sv hi hj).2.2 p1 c.1
          exact ⟨this.1, by omega⟩
        · have c := key k hk k hk p2 q1
          have := (sv hi hj).2.2 p1 q2
          exact ⟨this.1, by omega⟩
    · have : m = k := by omega
      subst this
      rw [colk i hi] at h1 ⊢
      rw [rowk j hj] at h2 ⊢
      exact (sv hi hj).2.2 h1 h2
  · intro i hi j hj hij hne
    rcases (sv hi hj).1 with e | ⟨c1, c2, e, hlt⟩
    · rw [e] at hne ⊢
      obtain ⟨l, a1, a2, a3, a4⟩ := h.path i hi j hj hij hne
      exact ⟨l, a1, fun x hx => by have := a2 x hx; omega, a3, a4⟩
    · rw [e]
      have hik : i ≠ k := by
        rintro rfl
        omega
      have hkj : k ≠ j := by
        rintro rfl
        omega
      obtain ⟨l1, a1, a2, a3, a4⟩ := h.path i hi k hk hik c1
      obtain ⟨l2, b1, b2, b3, b4⟩ := h.path k hk j hj hkj c2
      have eq : i :: (l1 ++ k :: l2 ++ [j]) = (i :: l1) ++ k :: (l2 ++ [j]) := by simp
      refine ⟨l1 ++ k :: l2, ?_, ?_, ?_, ?_⟩
      · rw [List.nodup_append]
        refine ⟨a1, List.nodup_cons.2 ⟨fun hx => by have := b2 k hx; omega, b1⟩, ?_⟩
        rintro x hx y hy rfl
        simp at hy
        rcases hy with hy | hy
        · have := a2 x hx; omega
        · -- a shared instant: the new bound would not be better
          exfalso
          have hxk := a2 x hx
          have hxn : x < n := by omega
          obtain ⟨p, q, rfl⟩ := List.append_of_mem hx
          obtain ⟨p', q', rfl⟩ := List.append_of_mem hy
          have f1 : i :: (p ++ x :: q ++ [k]) = (i :: p) ++ x :: (q ++ [k]) := by simp
          have f2 : k :: (p' ++ x :: q' ++ [j]) = (k :: p') ++ x :: (q' ++ [j]) := by simp
          rw [f1] at a3 a4
          rw [f2] at b3 b4
          have a5 := (edges_append _ _ _ _).1 a3
          have b5 := (edges_append _ _ _ _).1 b3
          rw [wsum_append] at a4 b4
          have w1 := h.walk (by omega) hxn p i hi (fun y hy => a2 y (by simp [hy])) (by simpa using a5.1)
          have w2 := h.walk (by omega) hk q x hxn (fun y hy => a2 y (by simp [hy])) (by simpa using a5.2)
          have w3 := h.walk (by omega) hxn p' k hk (fun y hy => b2 y (by simp [hy])) (by simpa using b5.1)
          have w4 := h.walk (by omega) hj q' x hxn (fun y hy => b2 y (by simp [hy])) (by simpa using b5.2)
          have c := h.closed x hxk i hi j hj w1.1 w4.1
          have d := (sv hxn hxn).2.2 w2.1 w3.1
          have d' := hd x hxn
          simp only [List.cons_append] at a4 b4
          omega
      · intro x hx
        simp at hx
        rcases hx with hx | hx | hx
        · have := a2 x hx; omega
        · omega
        · have := b2 x hx; omega
      · rw [eq]
        refine (edges_append _ k (l2 ++ [j]) (i :: l1)).2 ⟨by simpa using a3, b3⟩
      · rw [eq, wsum_append]
        simp only [List.cons_append] at *
        omega

end Chrono
