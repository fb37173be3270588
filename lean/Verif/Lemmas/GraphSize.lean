import Verif.Lemmas.GraphFW

/-!
# Resizing, resetting, inserting, merging
-/

set_option linter.unusedSimpArgs false

namespace Chrono
open Spec

/-! ## Resizing -/

theorem vresize_len (d : List Int) (m : Nat) (v : Int) : (Graph.vresize d m v).length = m := by
  unfold Graph.vresize
  simp; omega

theorem vresize_get (d : List Int) (m : Nat) {c : Nat} (h : c < m) :
    (Graph.vresize d m (-INF)).getD c (-INF) = d.getD c (-INF) := by
  unfold Graph.vresize
  rw [List.getD_eq_getElem?_getD, List.getD_eq_getElem?_getD, List.getElem?_append]
  split
  · rename_i c1
    rw [List.getElem?_take, if_pos h]
  · rename_i c1
    simp only [List.length_take] at c1
    rw [List.getElem?_replicate]
    rw [List.getElem?_eq_none (l := d) (by omega)]
    split <;> rfl

/-- set the diagonal entries of the new instants -/
theorem diag_loop {g : Graph} {n : Nat} (hn : n ≤ 65535) (hl : n * n ≤ g.data.length) (s : Nat) :
    ∃ g', (List.range' s (n - s)).foldlM (fun g i => Graph.setLower g i i 0) g = .ok g' ∧ Shape g g' ∧
      ∀ a b, mat g' a b = if a = b ∧ s ≤ a ∧ a < n then 0 else mat g a b := by
  rcases Nat.lt_or_ge s n with h | h
  · have key := foldlM_range_aux (f := fun g i => Graph.setLower g i i 0) (n := n) (fun i g' => s ≤ i ∧ Shape g g' ∧
        ∀ a b, mat g' a b = if a = b ∧ s ≤ a ∧ a < i then 0 else mat g a b) (n - s) s g (by omega)
      ⟨Nat.le_refl s, Shape.refl g, fun a b => by rw [if_neg (by omega)]⟩ ?_
    · obtain ⟨g', h1, -, h2⟩ := key
      exact ⟨g', h1, h2⟩
    · rintro i g' hi ⟨hsi, hs, hm⟩
      have hx : ix i i < g'.data.length := by
        have := ix_lt hi hi
        rw [hs.len]; omega
      refine ⟨put g' i i 0, setLower_cell (by omega) (by omega) hx 0, by omega, hs.put _ _ _, ?_⟩
      intro a b
      rw [mat_put _ hx, hm a b]
      by_cases c : a = i ∧ b = i
      · rw [if_pos c, if_pos (by omega)]
      · rw [if_neg c]
        by_cases d : a = b ∧ s ≤ a ∧ a < i
        · rw [if_pos d, if_pos (by omega)]
        · rw [if_neg d, if_neg (by omega)]
  · have : n - s = 0 := by omega
    rw [this]
    exact ⟨g, rfl, Shape.refl g, fun a b => by rw [if_neg (by omega)]⟩

theorem chkSq {n : Nat} (h : n ≤ 65535) : chkU32 ((n : Int) * n) = .ok (n * n) := by
  have b := sq_bound h
  have e : (n : Int) * n = ((n * n : Nat) : Int) := by simp
  rw [e, chkU32_ok (by omega) (by omega)]
  congr 1

theorem chkSq_over {n : Nat} (h : 65536 ≤ n) : chkU32 ((n : Int) * n) = .error .overflow := by
  have b : 65536 * 65536 ≤ n * n := Nat.mul_le_mul h h
  have e : (n : Int) * n = ((n * n : Nat) : Int) := by simp
  rw [e]
  unfold chkU32
  rw [if_neg (by omega)]

theorem resize_eq (g : Graph) {n : Nat} (hn : n ≤ 65535) :
    ∃ g', g.resize n = .ok g' ∧ g'.size = n ∧ g'.data.length = n * n ∧
      ∀ a b, a < n → b < n → mat g' a b = if a = b ∧ g.size ≤ a then 0 else mat g a b := by
  obtain ⟨g', h1, h2, h3⟩ := diag_loop (g := { g with data := Graph.vresize g.data (n * n) (-INF) }) hn
    (by simp only; rw [vresize_len]; exact Nat.le_refl _) g.size
  refine ⟨{ g' with size := n }, ?_, rfl, ?_, ?_⟩
  · unfold Graph.resize
    rw [chkSq hn, ok_bind, h1, ok_bind]; rfl
  · show g'.data.length = _
    rw [h2.len]; exact vresize_len _ _ _
  · intro a b ha hb
    show mat g' a b = _
    rw [h3 a b]
    by_cases c : a = b ∧ g.size ≤ a
    · rw [if_pos c, if_pos (by omega)]
    · rw [if_neg c, if_neg (by omega)]
      exact vresize_get _ _ (ix_lt ha hb)

/-- nothing is stored beyond the instants -/
def CleanMem (g : Graph) : Prop :=
  ∀ i j, i ≤ 65534 → j ≤ 65534 → i ≠ j → (g.size ≤ i ∨ g.size ≤ j) → mat g i j = -INF

theorem mat_oob {g : Graph} {i j : Nat} (h : g.data.length ≤ ix i j) : mat g i j = -INF := by
  unfold mat
  rw [List.getD_eq_getElem?_getD, List.getElem?_eq_none h]; rfl

theorem clean_iff {g : Graph} : Clean g ↔ CleanMem g := by
  constructor
  · intro h i j hi hj hij ho
    by_cases c : g.size ≤ max i j + 1
    · obtain ⟨g', h1, h2⟩ := h (max i j + 1) c (by omega)
      obtain ⟨g'', k1, k2, k3, k4⟩ := resize_eq g (n := max i j + 1) (by omega)
      rw [h1] at k1
      cases k1
      have v : Valid g' := ⟨by omega, by rw [k2, k3]; exact Nat.le_refl _⟩
      have := h2 i j (by omega) (by omega) hij ho
      rw [timespan_eq v (by omega) (by omega), k4 i j (by omega) (by omega), if_neg (by omega)] at this
      exact congrArg Iv.lower (Except.ok.inj this)
    · omega
  · intro h n hn hn2
    obtain ⟨g', k1, k2, k3, k4⟩ := resize_eq g (n := n) hn2
    have v : Valid g' := ⟨by omega, by rw [k2, k3]; exact Nat.le_refl _⟩
    refine ⟨g', k1, ?_⟩
    intro i j hi hj hij ho
    rw [timespan_eq v (by omega) (by omega), k4 i j hi hj, if_neg (by omega), k4 j i hj hi, if_neg (by omega),
      h i j (by omega) (by omega) hij ho, h j i (by omega) (by omega) (Ne.symm hij) ho.symm]
    rfl

theorem Shape.clean {g g' : Graph} (h : Shape g g') (ho : ∀ a b, (g.size ≤ a ∨ g.size ≤ b) → mat g' a b = mat g a b)
    (hc : CleanMem g) : CleanMem g' := by
  intro i j hi hj hij hs
  rw [h.size] at hs
  rw [ho i j hs]
  exact hc i j hi hj hij hs

/-- growing a clean graph -/
theorem grow {g : Graph} (hc : CleanMem g) {n : Nat} (hn : n ≤ 65535) :
    ∃ g', g.resize n = .ok g' ∧ g'.size = n ∧ Valid g' ∧ CleanMem g' ∧
      (∀ a b, a < n → b < n → mat g' a b =
        if a < g.size ∧ b < g.size then mat g a b else if a = b then 0 else -INF) := by
  obtain ⟨g', k1, k2, k3, k4⟩ := resize_eq g (n := n) hn
  refine ⟨g', k1, k2, ⟨by omega, by rw [k2, k3]; exact Nat.le_refl _⟩, ?_, ?_⟩
  · intro i j hi hj hij ho
    apply mat_oob
    rw [k3]
    exact ix_ge_sq (by omega)
  · intro a b ha hb
    rw [k4 a b ha hb]
    by_cases c : a < g.size ∧ b < g.size
    · rw [if_neg (by omega), if_pos c]
    · rw [if_neg c]
      by_cases e : a = b
      · rw [if_pos (by omega), if_pos e]
      · rw [if_neg (by omega), if_neg e]
        exact hc a b (by omega) (by omega) e (by omega)

theorem grow_sat {g g' : Graph} {n : Nat} (h1 : g.size ≤ n) (hm : ∀ a b, a < n → b < n → mat g' a b =
        if a < g.size ∧ b < g.size then mat g a b else if a = b then 0 else -INF) (τ : Nat → Int) :
    MSat n (mat g') τ ↔ MSat g.size (mat g) τ := by
  constructor
  · intro h i hi j hj
    have := h i (by omega) j (by omega)
    rw [hm i j (by omega) (by omega), if_pos ⟨hi, hj⟩] at this
    exact this
  · intro h i hi j hj
    rw [hm i j hi hj]
    split
    · rename_i c; exact h i c.1 j c.2
    · split
      · rename_i c; subst c; right; omega
      · left; rfl

theorem grow_closed {g g' : Graph} {n : Nat} (hm : ∀ a b, a < n → b < n → mat g' a b =
        if a < g.size ∧ b < g.size then mat g a b else if a = b then 0 else -INF) (hC : Closed g.size (mat g)) :
    Closed n (mat g') := by
  constructor
  · intro i hi
    rw [hm i i hi hi]
    split
    · rename_i c; exact hC.diag i c.1
    · rw [if_pos rfl]
  · intro i hi k hk j hj
    rw [hm i k hi hk, hm k j hk hj, hm i j hi hj]
    by_cases c1 : i < g.size ∧ k < g.size
    · rw [if_pos c1]
      by_cases c2 : k < g.size ∧ j < g.size
      · rw [if_pos c2, if_pos ⟨c1.1, c2.2⟩]
        exact hC.tri i c1.1 k c1.2 j c2.2
      · rw [if_neg c2, if_neg (by omega), if_neg (by omega), if_neg (by omega)]
        intro _ h; exact absurd rfl h
    · rw [if_neg c1]
      by_cases c2 : k < g.size ∧ j < g.size
      · rw [if_pos c2, if_neg (by omega), if_neg (by omega), if_neg (by omega)]
        intro h; exact absurd rfl h
      · rw [if_neg c2]
        by_cases e1 : i = k
        · subst e1
          rw [if_pos rfl]
          by_cases e2 : i = j
          · subst e2
            rw [if_pos rfl, if_neg (by omega)]
            intro _ _; exact ⟨by decide, by omega⟩
          · rw [if_neg e2]
            intro _ h; exact absurd rfl h
        · rw [if_neg e1]
          intro h; exact absurd rfl h

theorem grow_small {g g' : Graph} {n : Nat} {B : Int} (hB : 0 ≤ B) (hm : ∀ a b, a < n → b < n → mat g' a b =
        if a < g.size ∧ b < g.size then mat g a b else if a = b then 0 else -INF) (hS : SmallMat B g.size (mat g)) :
    SmallMat B n (mat g') := by
  intro i hi j hj
  rw [hm i j hi hj]
  split
  · rename_i c; exact hS i c.1 j c.2
  · unfold Small; split
    · right; omega
    · left; rfl

/-- the empty graph, and a graph with `n` unconstrained instants -/
theorem default_valid : Valid Graph.default := by
  unfold Valid Graph.default; exact ⟨by decide, by decide⟩

theorem default_clean : CleanMem Graph.default := by
  intro i j _ _ _ _
  exact mat_oob (by show 0 ≤ _; omega)

theorem withSize_eq {n : Nat} (hn : n ≤ 65535) : ∃ g, Graph.withSize n = .ok g ∧ g.size = n ∧ Valid g ∧ CleanMem g ∧
    ∀ a b, a < n → b < n → mat g a b = if a = b then 0 else -INF := by
  obtain ⟨g, h1, h2, h3, h4, h5⟩ := grow default_clean (n := n) hn
  refine ⟨g, h1, h2, h3, h4, ?_⟩
  intro a b ha hb
  rw [h5 a b ha hb, if_neg]
  rintro ⟨h, -⟩
  exact absurd h (by show ¬ a < 0; omega)

theorem unconstrained_closed {n : Nat} {M : Mat} (hm : ∀ a b, a < n → b < n → M a b = if a = b then 0 else -INF) :
    Closed n M := by
  constructor
  · intro i hi; rw [hm i i hi hi, if_pos rfl]
  · intro i hi k hk j hj
    rw [hm i k hi hk, hm k j hk hj, hm i j hi hj]
    by_cases e1 : i = k
    · subst e1
      rw [if_pos rfl]
      by_cases e2 : i = j
      · rw [if_pos e2]; intro _ _; exact ⟨by decide, by omega⟩
      · rw [if_neg e2]; intro _ h; exact absurd rfl h
    · rw [if_neg e1]; intro h; exact absurd rfl h

theorem unconstrained_sat {n : Nat} {M : Mat} (hm : ∀ a b, a < n → b < n → M a b = if a = b then 0 else -INF)
    (τ : Nat → Int) : MSat n M τ := by
  intro i hi j hj
  rw [hm i j hi hj]
  split
  · rename_i c; subst c; right; omega
  · left; rfl

theorem unconstrained_small {n : Nat} {M : Mat} (hm : ∀ a b, a < n → b < n → M a b = if a = b then 0 else -INF)
    {B : Int} (hB : 0 ≤ B) : SmallMat B n M := by
  intro i hi j hj
  rw [hm i j hi hj]
  unfold Small
  split
  · right; omega
  · left; rfl

theorem unconstrained_tight {n : Nat} {M : Mat} (hm : ∀ a b, a < n → b < n → M a b = if a = b then 0 else -INF)
    {W : Int} : Tight W n M := by
  intro i hi j hj hne
  have e := hm i j hi hj
  by_cases c : i = j
  · subst c
    rw [if_pos rfl] at e
    exact ⟨[i], rfl, rfl, by simp [hi], trivial, by rw [e]; rfl⟩
  · rw [if_neg c] at e
    exact absurd e hne

/-! ## Reset -/

theorem reset_eq {g : Graph} (hv : Valid g) : ∃ g', g.reset = .ok g' ∧ Shape g g' ∧
    ∀ a b, mat g' a b = if a = b ∧ a < g.size then 0 else -INF := by
  obtain ⟨g', h1, h2, h3⟩ := diag_loop (g := { g with data := g.data.map (fun _ => -INF) }) hv.1
    (by simp only [List.length_map]; exact hv.2) 0
  refine ⟨g', ?_, ⟨h2.size, by rw [h2.len]; simp⟩, ?_⟩
  · unfold Graph.reset
    rw [List.range_eq_range']
    exact h1
  · intro a b
    rw [h3 a b]
    have e : mat { g with data := g.data.map (fun _ => -INF) } a b = -INF := by
      unfold mat
      simp only [List.getD_eq_getElem?_getD, List.getElem?_map]
      cases g.data[ix a b]? <;> rfl
    rw [e]
    by_cases c : a = b ∧ a < g.size
    · rw [if_pos c, if_pos (by omega)]
    · rw [if_neg c, if_neg (by omega)]

/-! ## Shrinking -/

theorem anyM_ok {f : Nat → Res Bool} {p : Nat → Bool} : ∀ l : List Nat, (∀ x ∈ l, f x = .ok (p x)) →
    l.anyM f = .ok (l.any p)
  | [], _ => rfl
  | x :: l, h => by
    rw [List.anyM, h x (by simp), ok_bind, List.any_cons]
    cases p x with
    | true => rfl
    | false => simp only [Bool.false_or]; exact anyM_ok l (fun y hy => h y (by simp [hy]))

theorem constrained_eq {g : Graph} (hv : Valid g) {i : Nat} (hi : i < g.size) :
    ∃ b, g.constrainedWithSmaller i = .ok b ∧
      (b = true ↔ ∃ j, j < i ∧ (mat g i j ≠ -INF ∨ mat g j i ≠ -INF)) := by
  have hs := hv.1
  have b1 := sq_bound (i := i) (by omega)
  have hlen : i * i + 2 * i < g.data.length := by
    have h1 := sq_mono (a := i + 1) (b := g.size) (by omega)
    have h2 : (i + 1) * (i + 1) = i * i + 2 * i + 1 := by grind
    have := hv.2
    omega
  have e : (i : Int) * i + 2 * i = ((i * i + 2 * i : Nat) : Int) := by simp
  refine ⟨((List.range' (i * i) (2 * i + 1)).filter (fun x => x != i * i + i)).any
    (fun x => !isPastInfinite (g.data.getD x (-INF))), ?_, ?_⟩
  · unfold Graph.constrainedWithSmaller
    rw [chkSq (by omega), ok_bind, e, chkU32_ok (by omega) (by omega), ok_bind]
    rw [anyM_ok (p := fun x => !isPastInfinite (g.data.getD x (-INF)))]
    intro x hx
    rw [List.mem_filter, List.mem_range'_1] at hx
    rw [vget_ok (by omega), ok_bind]; rfl
  · rw [List.any_eq_true]
    constructor
    · rintro ⟨x, hx, hp⟩
      rw [List.mem_filter, List.mem_range'_1] at hx
      obtain ⟨⟨h1, h2⟩, h3⟩ := hx
      have h3' : x ≠ i * i + i := by simpa using h3
      have hp' : g.data.getD x (-INF) ≠ -INF := by
        intro h
        rw [h] at hp
        simp [isPastInfinite] at hp
      rcases Nat.lt_or_ge x (i * i + i) with c | c
      · refine ⟨x - i * i, by omega, Or.inl ?_⟩
        unfold mat
        rw [ix_ge (by omega)]
        have : i * i + (x - i * i) = x := by omega
        rw [this]; exact hp'
      · refine ⟨i * i + 2 * i - x, by omega, Or.inr ?_⟩
        unfold mat
        rw [ix_lt'' (by omega)]
        have : i * i + (2 * i - (i * i + 2 * i - x)) = x := by omega
        rw [this]; exact hp'
    · rintro ⟨j, hj, h⟩
      rcases h with h | h
      · refine ⟨ix i j, ?_, ?_⟩
        · rw [List.mem_filter, List.mem_range'_1, ix_ge (by omega)]
          refine ⟨by omega, ?_⟩
          have : i * i + j ≠ i * i + i := by omega
          simpa using this
        · have : isPastInfinite (mat g i j) = false := by
            rw [← Bool.not_eq_true, isPastInfinite_iff]; exact h
          show (!isPastInfinite (mat g i j)) = true
          rw [this]; rfl
      · refine ⟨ix j i, ?_, ?_⟩
        · rw [List.mem_filter, List.mem_range'_1, ix_lt'' (by omega)]
          refine ⟨by omega, ?_⟩
          have : i * i + (2 * i - j) ≠ i * i + i := by omega
          simpa using this
        · have : isPastInfinite (mat g j i) = false := by
            rw [← Bool.not_eq_true, isPastInfinite_iff]; exact h
          show (!isPastInfinite (mat g j i)) = true
          rw [this]; rfl

theorem shrunk_eq {g : Graph} (hv : Valid g) : ∀ m, m ≤ g.size → ∃ n, g.shrunkSize m = .ok n ∧ n ≤ m ∧
    (∀ i j, i ≠ j → (n ≤ i ∨ n ≤ j) → i < m → j < m → mat g i j = -INF) ∧
    (0 < n → ∃ j, j < n - 1 ∧ (mat g (n - 1) j ≠ -INF ∨ mat g j (n - 1) ≠ -INF))
  | 0, _ => ⟨0, rfl, Nat.le_refl _, fun i j _ _ hi => by omega, fun h => by omega⟩
  | m + 1, hm => by
    obtain ⟨b, h1, h2⟩ := constrained_eq hv (i := m) (by omega)
    unfold Graph.shrunkSize
    rw [h1, ok_bind]
    cases b with
    | true =>
      refine ⟨m + 1, rfl, Nat.le_refl _, fun i j _ h hi hj => by omega, fun _ => ?_⟩
      exact h2.1 rfl
    | false =>
      obtain ⟨n, k1, k2, k3, k4⟩ := shrunk_eq hv m (by omega)
      refine ⟨n, k1, by omega, ?_, k4⟩
      have no : ∀ j, j < m → mat g m j = -INF ∧ mat g j m = -INF := by
        intro j hj
        constructor
        · apply Classical.byContradiction
          intro c
          have := h2.2 ⟨j, hj, Or.inl c⟩
          cases this
        · apply Classical.byContradiction
          intro c
          have := h2.2 ⟨j, hj, Or.inr c⟩
          cases this
      intro i j hij h hi hj
      by_cases e1 : i = m
      · subst e1; exact (no j (by omega)).1
      · by_cases e2 : j = m
        · subst e2; exact (no i (by omega)).2
        · exact k3 i j hij h (by omega) (by omega)

/-! ## Insertion -/

theorem insert_eq_relax {g : Graph} (hv : Valid g) {k : Constr} (hs : k.src < g.size) (hd : k.dst < g.size) :
    g.insert k = .ok (put (put g k.src k.dst (max (mat g k.src k.dst) k.lower)) k.dst k.src
      (max (mat (put g k.src k.dst (max (mat g k.src k.dst) k.lower)) k.dst k.src) (-k.upper))) := by
  have r1 := relax_eq hv hs hd k.lower
  have hv1 := hv.put k.src k.dst (max (mat g k.src k.dst) k.lower)
  have r2 := relax_eq hv1 (i := k.dst) (j := k.src) hd hs (-k.upper)
  unfold Graph.relax at r1 r2
  unfold Graph.insert
  have c : ¬ (max k.src k.dst ≥ g.size) := by omega
  simp only [c, if_false]
  rw [show (pure g : Res Graph) = .ok g from rfl, ok_bind]
  rw [lower_eq hv hs hd, ok_bind] at r1 ⊢
  rw [lower_eq hv1 (i := k.dst) (j := k.src) hd hs, ok_bind] at r2
  by_cases c1 : mat g k.src k.dst < k.lower
  · rw [if_pos c1] at r1 ⊢
    rw [r1, ok_bind, lower_eq hv1 (i := k.dst) (j := k.src) hd hs, ok_bind]
    exact r2
  · rw [if_neg c1] at r1 ⊢
    have e : put g k.src k.dst (max (mat g k.src k.dst) k.lower) = g := (Except.ok.inj r1).symm
    rw [e] at r2 ⊢
    rw [show (pure g : Res Graph) = .ok g from rfl, ok_bind, lower_eq hv hd hs, ok_bind]
    exact r2

theorem insert_def (g : Graph) (k : Constr) (h : g.size ≤ max k.src k.dst) (hm : max k.src k.dst < 65535) {g1 : Graph}
    (h1 : g.resize (max k.src k.dst + 1) = .ok g1) (hs : g1.size = max k.src k.dst + 1) : g.insert k = g1.insert k := by
  unfold Graph.insert
  have c1 : max k.src k.dst ≥ g.size := h
  have c2 : ¬ (max k.src k.dst ≥ g1.size) := by omega
  simp only [c1, c2, if_true, if_false]
  have e : ((max k.src k.dst : Nat) : Int) + 1 = ((max k.src k.dst + 1 : Nat) : Int) := by omega
  rw [e, chkU32_ok (by omega) (by omega), ok_bind]
  have e2 : ((max k.src k.dst + 1 : Nat) : Int).toNat = max k.src k.dst + 1 := by omega
  rw [e2, h1, ok_bind]
  rfl

/-- the bounds of a constraint, whether it is declared empty or not -/
def BoundsHold (τ : Nat → Int) (k : Constr) : Prop :=
  (k.lower = -INF ∨ k.lower ≤ τ k.dst - τ k.src) ∧ (k.upper = INF ∨ τ k.dst - τ k.src ≤ k.upper)

theorem insert_in {g : Graph} (hv : Valid g) {B : Int} (hB : B ≤ INF) (hS : SmallMat B g.size (mat g)) {k : Constr}
    (hk : WithinK B k) (hs : k.src < g.size) (hd : k.dst < g.size) :
    ∃ g', g.insert k = .ok g' ∧ Shape g g' ∧ SmallMat B g.size (mat g') ∧
      (∀ a b, a < g.size → b < g.size → mat g a b ≤ mat g' a b) ∧
      (∀ a b, (g.size ≤ a ∨ g.size ≤ b) → mat g' a b = mat g a b) ∧
      ∀ τ, MSat g.size (mat g') τ ↔ MSat g.size (mat g) τ ∧ BoundsHold τ k := by
  obtain ⟨k1, k2⟩ := hk
  have x1 := hv.ix_lt hs hd
  have x2 : ix k.dst k.src < (put g k.src k.dst (max (mat g k.src k.dst) k.lower)).data.length := by
    rw [put_len]; exact hv.ix_lt hd hs
  -- the matrix after the insertion
  have hm : ∀ a b, mat (put (put g k.src k.dst (max (mat g k.src k.dst) k.lower)) k.dst k.src
      (max (mat (put g k.src k.dst (max (mat g k.src k.dst) k.lower)) k.dst k.src) (-k.upper))) a b =
      max (max (mat g a b) (if a = k.src ∧ b = k.dst then k.lower else mat g a b))
        (if a = k.dst ∧ b = k.src then -k.upper else mat g a b) := by
    intro a b
    rw [mat_put _ x2, mat_put _ x1, mat_put _ x1]
    by_cases c1 : a = k.src ∧ b = k.dst
    · obtain ⟨rfl, rfl⟩ := c1
      rw [if_pos (c := k.src = k.src ∧ k.dst = k.dst) ⟨rfl, rfl⟩]
      by_cases c2 : k.src = k.dst ∧ k.dst = k.src
      · obtain ⟨e1, -⟩ := c2
        rw [← e1] at *
        simp
      · rw [if_neg c2, if_neg c2, if_pos ⟨rfl, rfl⟩]
        omega
    · rw [if_neg c1, if_neg c1]
      by_cases c2 : a = k.dst ∧ b = k.src
      · obtain ⟨rfl, rfl⟩ := c2
        rw [if_neg c1]
        simp
      · rw [if_neg c2, if_neg c2]
        omega
  refine ⟨_, insert_eq_relax hv hs hd, ((Shape.refl g).put _ _ _).put _ _ _, ?_, ?_, ?_, ?_⟩
  · intro i hi j hj
    have := hS i hi j hj
    rw [hm i j]
    unfold Small at *
    split <;> split <;> omega
  · intro a b _ _
    rw [hm a b]; omega
  · intro a b hab
    rw [hm a b, if_neg (by omega), if_neg (by omega)]; omega
  · intro τ
    constructor
    · intro h
      refine ⟨fun i hi j hj => ?_, ?_, ?_⟩
      · have h1 := h i hi j hj
        have s := hS i hi j hj
        rw [hm i j] at h1
        unfold Small at s
        omega
      · have h1 := h _ hs _ hd
        have s := hS _ hs _ hd
        rw [hm, if_pos ⟨rfl, rfl⟩] at h1
        unfold Small at s
        omega
      · have h1 := h _ hd _ hs
        have s := hS _ hd _ hs
        rw [hm, if_pos (c := k.dst = k.dst ∧ k.src = k.src) ⟨rfl, rfl⟩] at h1
        unfold Small at s
        omega
    · rintro ⟨h, b1, b2⟩ i hi j hj
      have h1 := h i hi j hj
      have s := hS i hi j hj
      rw [hm i j]
      unfold Small at s
      by_cases c1 : i = k.src ∧ j = k.dst
      · obtain ⟨rfl, rfl⟩ := c1
        rw [if_pos ⟨rfl, rfl⟩]
        by_cases c2 : k.src = k.dst ∧ k.dst = k.src
        · rw [if_pos c2]
          have := c2.1
          rw [← this] at b1 b2 h1 s ⊢
          omega
        · rw [if_neg c2]; omega
      · rw [if_neg c1]
        by_cases c2 : i = k.dst ∧ j = k.src
        · obtain ⟨rfl, rfl⟩ := c2
          rw [if_pos ⟨rfl, rfl⟩]; omega
        · rw [if_neg c2]; omega

/-- one insertion, growing the graph if needed -/
theorem insert_spec {g : Graph} (hv : Valid g) (hc : CleanMem g) {B : Int} (hB0 : 0 ≤ B) (hB : B ≤ INF)
    (hS : SmallMat B g.size (mat g)) {k : Constr}
    (hk : WithinK B k) (hm : max k.src k.dst < 65535) :
    ∃ g', g.insert k = .ok g' ∧ g'.size = max g.size (max k.src k.dst + 1) ∧ Valid g' ∧ CleanMem g' ∧
      SmallMat B g'.size (mat g') ∧ ((∀ i, i < g.size → 0 ≤ mat g i i) → ∀ i, i < g'.size → 0 ≤ mat g' i i) ∧
      ∀ τ, MSat g'.size (mat g') τ ↔ MSat g.size (mat g) τ ∧ BoundsHold τ k := by
  have step : ∀ g1 : Graph, Valid g1 → CleanMem g1 → SmallMat B g1.size (mat g1) →
      ((∀ i, i < g.size → 0 ≤ mat g i i) → ∀ i, i < g1.size → 0 ≤ mat g1 i i) → k.src < g1.size → k.dst < g1.size →
      (∀ τ, MSat g1.size (mat g1) τ ↔ MSat g.size (mat g) τ) →
      ∃ g', g1.insert k = .ok g' ∧ g'.size = g1.size ∧ Valid g' ∧ CleanMem g' ∧
      SmallMat B g'.size (mat g') ∧ ((∀ i, i < g.size → 0 ≤ mat g i i) → ∀ i, i < g'.size → 0 ≤ mat g' i i) ∧
      ∀ τ, MSat g'.size (mat g') τ ↔ MSat g.size (mat g) τ ∧ BoundsHold τ k := by
    intro g1 v1 cl1 s1 d1 a1 a2 sat1
    obtain ⟨g', i1, i2, i3, i4, i5, i6⟩ := insert_in v1 hB s1 hk a1 a2
    have sz := i2.size
    refine ⟨g', i1, sz, i2.valid v1, i2.clean i5 cl1, by rw [sz]; exact i3, ?_, ?_⟩
    · intro hdg i hi
      rw [sz] at hi
      have := i4 i i hi hi
      have := d1 hdg i hi
      omega
    · intro τ
      rw [sz, i6, sat1]
  by_cases c : g.size ≤ max k.src k.dst
  · obtain ⟨g1, r1, r2, r3, r4, r5⟩ := grow hc (n := max k.src k.dst + 1) (by omega)
    rw [insert_def g k c hm r1 r2]
    obtain ⟨g', e1, e2, e3⟩ := step g1 r3 r4 (by rw [r2]; exact grow_small hB0 r5 hS) (by
      intro hdg i hi
      rw [r2] at hi
      rw [r5 i i hi hi]
      split
      · rename_i c; exact hdg i c.1
      · rw [if_pos rfl]; omega) (by omega) (by omega) (by
      intro τ
      rw [r2]; exact grow_sat (by omega) r5 τ)
    exact ⟨g', e1, by rw [e2, r2]; omega, e3⟩
  · obtain ⟨g', e1, e2, e3⟩ := step g hv hc hS id (by omega) (by omega) (fun τ => Iff.rfl)
    exact ⟨g', e1, by rw [e2]; omega, e3⟩

/-- the size needed for a list of constraints -/
def needed : List Constr → Nat
  | [] => 0
  | k :: ks => max (max k.src k.dst + 1) (needed ks)

theorem insertAll_spec {B : Int} (hB0 : 0 ≤ B) (hB : B ≤ INF) : ∀ (ks : List Constr) (g : Graph), Valid g → CleanMem g →
    SmallMat B g.size (mat g) → (∀ k ∈ ks, WithinK B k) →
    (∀ k ∈ ks, max k.src k.dst < 65535) →
    ∃ g', ks.foldlM Graph.insert g = .ok g' ∧ g'.size = max g.size (needed ks) ∧ Valid g' ∧ CleanMem g' ∧
      SmallMat B g'.size (mat g') ∧ ((∀ i, i < g.size → 0 ≤ mat g i i) → ∀ i, i < g'.size → 0 ≤ mat g' i i) ∧
      ∀ τ, MSat g'.size (mat g') τ ↔ MSat g.size (mat g) τ ∧ ∀ k ∈ ks, BoundsHold τ k
  | [], g, hv, hc, hS, _, _ => ⟨g, rfl, by simp [needed], hv, hc, hS, id, fun τ => by simp⟩
  | k :: ks, g, hv, hc, hS, h1, h2 => by
    obtain ⟨g1, a1, a2, a3, a4, a5, a6, a7⟩ := insert_spec hv hc hB0 hB hS (h1 k (by simp)) (h2 k (by simp))
    obtain ⟨g2, b1, b2, b3, b4, b5, b6, b7⟩ := insertAll_spec hB0 hB ks g1 a3 a4 a5
      (fun k' hk' => h1 k' (by simp [hk'])) (fun k' hk' => h2 k' (by simp [hk']))
    refine ⟨g2, ?_, ?_, b3, b4, b5, fun h => b6 (a6 h), ?_⟩
    · rw [List.foldlM_cons, a1, ok_bind]; exact b1
    · rw [b2, a2]; simp only [needed]; omega
    · intro τ
      rw [b7, a7]
      simp [and_assoc]

/-! ## Merging -/

theorem zipMax_len : ∀ a b : List Int, (Graph.zipMax a b).1.length = a.length
  | [], _ => by simp [Graph.zipMax]
  | x :: a, [] => by simp [Graph.zipMax]
  | x :: a, y :: b => by
    have := zipMax_len a b
    simp only [Graph.zipMax]
    split <;> simp [this]

theorem zipMax_get : ∀ (a b : List Int) (c : Nat), c < a.length → -INF ≤ a.getD c (-INF) →
    (Graph.zipMax a b).1.getD c (-INF) = max (a.getD c (-INF)) (b.getD c (-INF))
  | [], _, c, h, _ => by simp at h
  | x :: a, [], c, h, ha => by
    simp only [Graph.zipMax]
    have e : ([] : List Int).getD c (-INF) = -INF := by simp
    rw [e]; omega
  | x :: a, y :: b, c, h, ha => by
    cases c with
    | zero =>
      simp only [Graph.zipMax]
      split
      · rename_i c
        simp; omega
      · rename_i c
        simp; omega
    | succ c =>
      have ih := zipMax_get a b c (by simpa using h) (by simpa using ha)
      simp only [Graph.zipMax]
      split
      · simpa using ih
      · simpa using ih

theorem zipMax_same : ∀ (a b : List Int), (Graph.zipMax a b).2 = false → (Graph.zipMax a b).1 = a ∧
    ∀ c, c < a.length → c < b.length → b.getD c (-INF) ≤ a.getD c (-INF)
  | [], _, _ => ⟨by simp [Graph.zipMax], fun c h => by simp at h⟩
  | x :: a, [], _ => ⟨by simp [Graph.zipMax], fun c _ h => by simp at h⟩
  | x :: a, y :: b, h => by
    simp only [Graph.zipMax] at h ⊢
    split at h
    · cases h
    · rename_i c
      rw [if_neg c]
      obtain ⟨h1, h2⟩ := zipMax_same a b h
      refine ⟨by simp only [h1], ?_⟩
      intro d h3 h4
      cases d with
      | zero => simp; omega
      | succ d => simpa using h2 d (by simpa using h3) (by simpa using h4)

end Chrono
