import Verif.Lemmas.GraphSize
set_option linter.unusedSimpArgs false

/-!
# The iterators over the constraints
-/

namespace Chrono
open Chrono.Spec

/-- the pair is constrained -/
def Rel (g : Graph) (i j : Nat) : Prop := mat g i j ≠ -INF ∨ mat g j i ≠ -INF

instance (g : Graph) (i j : Nat) : Decidable (Rel g i j) := inferInstanceAs (Decidable (_ ∨ _))

/-- what is read of a pair -/
def viewOf (g : Graph) (i j : Nat) : Constr := ⟨i, j, false, mat g i j, -mat g j i⟩

/-- the pair `(a,b)` comes after `(i,j)` in the iteration -/
def After (i j a b : Nat) : Prop := i < a ∨ (i = a ∧ j < b)

theorem view_eq {g : Graph} (hv : Valid g) {i j : Nat} (hi : i < g.size) (hj : j < g.size) :
    g.view i j = .ok (viewOf g i j) := by
  unfold Graph.view
  rw [lower_eq hv hi hj, ok_bind, lower_eq hv hj hi, ok_bind]; rfl

theorem related_eq {g : Graph} (hv : Valid g) {i j : Nat} (hi : i < g.size) (hj : j < g.size) :
    g.related i j = .ok (decide (Rel g i j)) := by
  unfold Graph.related Rel
  rw [lower_eq hv hi hj, ok_bind]
  have e : ∀ x : Int, (!isPastInfinite x) = decide (x ≠ -INF) := by
    intro x
    unfold isPastInfinite
    by_cases c : x = -INF
    · simp [c]
    · have : (x == -INF) = false := by simpa using c
      rw [this]; simp [c]
  rw [e]
  by_cases c : mat g i j = -INF
  · rw [if_neg (by simp [c]), lower_eq hv hj hi, ok_bind, e]
    show Except.ok _ = _
    simp [c]
  · rw [if_pos (by simp [c])]
    show Except.ok _ = _
    simp [c]

theorem iterLoop_spec {g : Graph} (hv : Valid g) (i j : Nat) (hi : i < g.size) (hj : j < g.size) (hij : i ≤ j) :
    (g.iterLoop i j = .ok (none, (g.size, g.size)) ∧
      ∀ a b, After i j a b → a < b → b < g.size → ¬ Rel g a b) ∨
    (∃ a b, g.iterLoop i j = .ok (some (viewOf g a b), (a, b)) ∧ After i j a b ∧ a < b ∧ b < g.size ∧ Rel g a b ∧
      ∀ c d, After i j c d → c < d → d < g.size → Rel g c d → (c = a ∧ d = b) ∨ After a b c d) := by
  unfold Graph.iterLoop
  rw [dif_neg (by omega)]
  by_cases c1 : j + 1 = g.size
  · rw [if_pos c1]
    by_cases c2 : i + 1 = g.size
    · left
      rw [if_pos c2, c1, c2]
      refine ⟨rfl, fun a b h1 h2 h3 => ?_⟩
      unfold After at h1
      omega
    · rw [if_neg c2]
      have eqv : ∀ a b, a < b → b < g.size → (After i j a b ↔ After (i + 1) (i + 1) a b) := by
        intro a b h1 h2
        unfold After
        omega
      rcases iterLoop_spec hv (i + 1) (i + 1) (by omega) (by omega) (by omega) with ⟨h1, h2⟩ | ⟨a, b, h1, h2, h3, h4, h5, h6⟩
      · left
        exact ⟨h1, fun a b p q r => h2 a b ((eqv a b q r).1 p) q r⟩
      · right
        exact ⟨a, b, h1, (eqv a b h3 h4).2 h2, h3, h4, h5, fun c d p q r => h6 c d ((eqv c d q r).1 p) q r⟩
  · rw [if_neg c1, related_eq hv hi (by omega)]
    by_cases c2 : Rel g i (j + 1)
    · right
      rw [decide_eq_true c2]
      simp only
      rw [view_eq hv hi (by omega)]
      refine ⟨i, j + 1, rfl, Or.inr ⟨rfl, by omega⟩, by omega, by omega, c2, ?_⟩
      intro c d h1 h2 h3 h4
      unfold After at *
      omega
    · rw [decide_eq_false c2]
      simp only
      have eqv : ∀ a b, Rel g a b → (After i j a b ↔ After i (j + 1) a b) := by
        intro a b h
        have : ¬ (a = i ∧ b = j + 1) := by
          rintro ⟨rfl, rfl⟩
          exact c2 h
        unfold After
        omega
      rcases iterLoop_spec hv i (j + 1) hi (by omega) (by omega) with ⟨h1, h2⟩ | ⟨a, b, h1, h2, h3, h4, h5, h6⟩
      · left
        exact ⟨h1, fun a b p q r s => h2 a b ((eqv a b s).1 p) q r s⟩
      · right
        exact ⟨a, b, h1, (eqv a b h5).2 h2, h3, h4, h5, fun c d p q r s => h6 c d ((eqv c d s).1 p) q r s⟩
termination_by (g.size - i, g.size - j)

theorem measure_lt {n i j a b : Nat} (hj : j < n) (ha : a < n) (h : After i j a b) :
    (n - a) * n - b < (n - i) * n - j := by
  have e : ∀ x, x < n → (n - x) * n = (n - x - 1) * n + n := by
    intro x hx
    have : n - x = (n - x - 1) + 1 := by omega
    rw [this, Nat.add_mul]
    simp
  unfold After at h
  rcases h with h | ⟨rfl, h⟩
  · have h1 := e i (by omega)
    have h2 : (n - a) * n ≤ (n - i - 1) * n := Nat.mul_le_mul_right n (by omega)
    omega
  · have h1 := e i ha
    omega

theorem runIter_spec {g : Graph} (hv : Valid g) : ∀ (f i j : Nat), i < g.size → j < g.size → i ≤ j →
    (g.size - i) * g.size - j < f →
    ∃ ks, Graph.runIter g.iterNext f (i, j) = .ok ks ∧
      ks.Pairwise (fun k l => After k.src k.dst l.src l.dst) ∧
      (∀ k ∈ ks, k = viewOf g k.src k.dst ∧ After i j k.src k.dst ∧ k.src < k.dst ∧ k.dst < g.size ∧ Rel g k.src k.dst) ∧
      (∀ a b, After i j a b → a < b → b < g.size → Rel g a b → viewOf g a b ∈ ks)
  | 0, i, j, _, _, _, hf => by omega
  | f + 1, i, j, hi, hj, hij, hf => by
    unfold Graph.runIter
    have e : g.iterNext (i, j) = g.iterLoop i j := by
      unfold Graph.iterNext
      rw [if_neg (by show ¬ i = _; omega)]
    rw [e]
    rcases iterLoop_spec hv i j hi hj hij with ⟨h1, h2⟩ | ⟨a, b, h1, h2, h3, h4, h5, h6⟩
    · rw [h1, ok_bind]
      exact ⟨[], rfl, List.Pairwise.nil, fun k hk => (nomatch hk), fun a b p q r s => absurd s (h2 a b p q r)⟩
    · rw [h1, ok_bind]
      have := measure_lt hj (a := a) (by omega) h2
      obtain ⟨ks, r1, r2, r3, r4⟩ := runIter_spec hv f a b (by omega) h4 (by omega) (by omega)
      simp only
      rw [r1, ok_bind]
      refine ⟨viewOf g a b :: ks, rfl, List.Pairwise.cons (fun k hk => (r3 k hk).2.1) r2, ?_, ?_⟩
      · intro k hk
        rcases List.mem_cons.1 hk with rfl | hk
        · exact ⟨rfl, h2, h3, h4, h5⟩
        · obtain ⟨p1, p2, p3⟩ := r3 k hk
          refine ⟨p1, ?_, p3⟩
          unfold After at *
          omega
      · intro c d p q r s
        rcases h6 c d p q r s with ⟨rfl, rfl⟩ | h
        · exact List.mem_cons_self
        · exact List.mem_cons_of_mem _ (r4 c d h q r s)

theorem iterAll_spec {g : Graph} (hv : Valid g) :
    ∃ ks, g.iterAll = .ok ks ∧ ks.Pairwise (fun k l => After k.src k.dst l.src l.dst) ∧
      (∀ k ∈ ks, k = viewOf g k.src k.dst ∧ k.src < k.dst ∧ k.dst < g.size ∧ Rel g k.src k.dst) ∧
      (∀ a b, a < b → b < g.size → Rel g a b → viewOf g a b ∈ ks) := by
  by_cases c : g.size = 0
  · refine ⟨[], ?_, List.Pairwise.nil, fun k hk => (nomatch hk), fun a b h1 h2 => by omega⟩
    unfold Graph.iterAll
    rw [c]
    unfold Graph.runIter Graph.iterNext Graph.iterInit
    rw [if_pos c.symm]; rfl
  · obtain ⟨ks, h1, h2, h3, h4⟩ := runIter_spec hv (g.size * g.size + 1) 0 0 (by omega) (by omega) (by omega) (by simp)
    refine ⟨ks, h1, h2, fun k hk => ?_, fun a b p q r => h4 a b ?_ p q r⟩
    · obtain ⟨p1, -, p2⟩ := h3 k hk
      exact ⟨p1, p2⟩
    · unfold After; omega

/-! ## constraints_from -/

theorem fromLoop_spec {g : Graph} (hv : Valid g) (i j : Nat) (hi : i < g.size) (hj : j < g.size) :
    (g.fromLoop i j = .ok (g.size, g.size) ∧ ∀ b, j < b → b < g.size → b ≠ i → ¬ Rel g i b) ∨
    (∃ b, g.fromLoop i j = .ok (i, b) ∧ j < b ∧ b < g.size ∧ b ≠ i ∧ Rel g i b ∧
      ∀ d, j < d → d < g.size → d ≠ i → Rel g i d → b ≤ d) := by
  unfold Graph.fromLoop
  rw [dif_neg (by omega)]
  by_cases c1 : j + 1 = g.size
  · left
    rw [if_pos c1, c1]
    exact ⟨rfl, fun b h1 h2 => by omega⟩
  · rw [if_neg c1]
    by_cases c0 : i ≠ j + 1
    · rw [if_pos c0, related_eq hv hi (by omega)]
      by_cases c2 : Rel g i (j + 1)
      · right
        rw [decide_eq_true c2]
        exact ⟨j + 1, rfl, by omega, by omega, by omega, c2, fun d h1 _ _ _ => by omega⟩
      · rw [decide_eq_false c2]
        simp only
        have eqv : ∀ b, Rel g i b → j < b → j + 1 < b := by
          intro b h hb
          have : b ≠ j + 1 := by rintro rfl; exact c2 h
          omega
        rcases fromLoop_spec hv i (j + 1) hi (by omega) with ⟨h1, h2⟩ | ⟨b, h1, h2, h3, h4, h5, h6⟩
        · left
          exact ⟨h1, fun b p q r s => h2 b (eqv b s p) q r s⟩
        · right
          exact ⟨b, h1, by omega, h3, h4, h5, fun d p q r s => h6 d (eqv d s p) q r s⟩
    · rw [if_neg c0]
      rcases fromLoop_spec hv i (j + 1) hi (by omega) with ⟨h1, h2⟩ | ⟨b, h1, h2, h3, h4, h5, h6⟩
      · left
        exact ⟨h1, fun b p q r s => h2 b (by omega) q r s⟩
      · right
        exact ⟨b, h1, by omega, h3, h4, h5, fun d p q r s => h6 d (by omega) q r s⟩
termination_by g.size - j

theorem runFrom_spec {g : Graph} (hv : Valid g) {i : Nat} (hi : i < g.size) : ∀ (f j : Nat), j < g.size →
    g.size - j < f →
    ∃ ks, Graph.runIter g.fromNext f (i, j) = .ok (viewOf g i j :: ks) ∧
      ks.Pairwise (fun k l => k.dst < l.dst) ∧
      (∀ k ∈ ks, k = viewOf g i k.dst ∧ j < k.dst ∧ k.dst < g.size ∧ k.dst ≠ i ∧ Rel g i k.dst) ∧
      (∀ b, j < b → b < g.size → b ≠ i → Rel g i b → viewOf g i b ∈ ks)
  | 0, j, _, hf => by omega
  | f + 1, j, hj, hf => by
    unfold Graph.runIter Graph.fromNext
    rw [if_neg (by show ¬ g.size ≤ i; omega), view_eq hv hi hj, ok_bind]
    rcases fromLoop_spec hv i j hi hj with ⟨h1, h2⟩ | ⟨b, h1, h2, h3, h4, h5, h6⟩
    · rw [h1, ok_bind]
      refine ⟨[], ?_, List.Pairwise.nil, fun k hk => (nomatch hk), fun b p q r s => absurd s (h2 b p q r)⟩
      show (Graph.runIter g.fromNext f (g.size, g.size) >>= _) = _
      have : Graph.runIter g.fromNext f (g.size, g.size) = .ok [] := by
        cases f with
        | zero => omega
        | succ f =>
          unfold Graph.runIter Graph.fromNext
          rw [if_pos (Nat.le_refl _)]; rfl
      rw [this]; rfl
    · rw [h1, ok_bind]
      obtain ⟨ks, r1, r2, r3, r4⟩ := runFrom_spec hv hi f b h3 (by omega)
      refine ⟨viewOf g i b :: ks, ?_, List.Pairwise.cons (fun k hk => (r3 k hk).2.1) r2, ?_, ?_⟩
      · show (Graph.runIter g.fromNext f (i, b) >>= _) = _
        rw [r1]; rfl
      · intro k hk
        rcases List.mem_cons.1 hk with rfl | hk
        · exact ⟨rfl, h2, h3, h4, h5⟩
        · obtain ⟨p1, p2, p3⟩ := r3 k hk
          exact ⟨p1, by omega, p3⟩
      · intro d p q r s
        by_cases e : d = b
        · rw [e]; exact List.mem_cons_self
        · have := h6 d p q r s
          exact List.mem_cons_of_mem _ (r4 d (by omega) q r s)

/-! ## size_hint -/

theorem advance_spec {next : Nat × Nat → Res (Option Constr × (Nat × Nat))} {Inv : Nat × Nat → Prop}
    (step : ∀ s k s', Inv s → next s = .ok (some k, s') → Inv s') : ∀ (m f : Nat) (s : Nat × Nat) (ks : List Constr),
    Graph.runIter next f s = .ok ks → m ≤ ks.length → Inv s →
    ∃ s' f', advance next m s = .ok s' ∧ Graph.runIter next f' s' = .ok (ks.drop m) ∧ Inv s'
  | 0, f, s, ks, h, _, hi => ⟨s, f, rfl, h, hi⟩
  | m + 1, 0, s, ks, h, _, _ => by cases h
  | m + 1, f + 1, s, ks, h, hm, hi => by
    unfold Graph.runIter at h
    obtain ⟨⟨o, s'⟩, h1, h2⟩ : ∃ p, next s = .ok p ∧ _ := by
      cases hn : next s with
      | error e => rw [hn] at h; cases h
      | ok p => rw [hn, ok_bind] at h; exact ⟨p, rfl, h⟩
    cases o with
    | none =>
      simp only at h2
      cases h2
      simp at hm
    | some k =>
      simp only at h2
      obtain ⟨l, h3, h4⟩ : ∃ l, Graph.runIter next f s' = .ok l ∧ ks = k :: l := by
        cases hr : Graph.runIter next f s' with
        | error e => rw [hr] at h2; cases h2
        | ok l => rw [hr, ok_bind] at h2; cases h2; exact ⟨l, rfl, rfl⟩
      subst h4
      obtain ⟨s2, f2, a1, a2, a3⟩ := advance_spec step m f s' l h3 (by simpa using hm) (step s k s' hi h1)
      refine ⟨s2, f2, ?_, a2, a3⟩
      unfold advance
      rw [h1, ok_bind]
      exact a1

/-- `0 + 1 + ... + (m-1)` -/
def tri (m : Nat) : Nat := m * (m - 1) / 2

theorem tri_two (m : Nat) : 2 * tri m = m * (m - 1) := by
  unfold tri
  have : m * (m - 1) % 2 = 0 := by
    rcases Nat.mod_two_eq_zero_or_one m with h | h
    · rw [Nat.mul_mod, h]; simp
    · have : (m - 1) % 2 = 0 := by omega
      rw [Nat.mul_mod, this]; simp
  omega

theorem tri_succ (m : Nat) : tri (m + 1) = tri m + m := by
  have h1 := tri_two (m + 1)
  have h2 := tri_two m
  cases m with
  | zero => rfl
  | succ m =>
    simp only [Nat.add_sub_cancel] at h1 h2
    have : (m + 1 + 1) * (m + 1) = (m + 1) * m + 2 * (m + 1) := by grind
    omega

theorem tri_mono {a b : Nat} (h : a ≤ b) : tri a ≤ tri b := by
  induction h with
  | refl => exact Nat.le_refl _
  | step _ ih => rw [tri_succ]; omega

theorem runIter_len {g : Graph} (hv : Valid g) : ∀ (f i j : Nat) (ks : List Constr), i < g.size → j < g.size → i ≤ j →
    Graph.runIter g.iterNext f (i, j) = .ok ks → ks.length ≤ g.size - 1 - j + tri (g.size - 1 - i)
  | 0, i, j, ks, _, _, _, h => by cases h
  | f + 1, i, j, ks, hi, hj, hij, h => by
    unfold Graph.runIter at h
    have e : g.iterNext (i, j) = g.iterLoop i j := by
      unfold Graph.iterNext
      rw [if_neg (by show ¬ i = _; omega)]
    rw [e] at h
    rcases iterLoop_spec hv i j hi hj hij with ⟨h1, h2⟩ | ⟨a, b, h1, h2, h3, h4, h5, h6⟩
    · rw [h1, ok_bind] at h
      cases h
      exact Nat.zero_le _
    · rw [h1, ok_bind] at h
      simp only at h
      cases hr : Graph.runIter g.iterNext f (a, b) with
      | error e => rw [hr] at h; cases h
      | ok l =>
        rw [hr, ok_bind] at h
        cases h
        have ih := runIter_len hv f a b l (by omega) h4 (by omega) hr
        simp only [List.length_cons]
        unfold After at h2
        rcases h2 with h2 | ⟨rfl, h2⟩
        · have := tri_succ (g.size - 1 - a)
          have := tri_mono (a := g.size - 1 - a + 1) (b := g.size - 1 - i) (by omega)
          omega
        · omega

theorem chkU32_nat {n : Nat} (h : n ≤ 4294967295) : chkU32 (n : Int) = .ok n := by
  rw [chkU32_ok (by omega) (by omega)]; rfl

theorem graphSizeHint_eq {g : Graph} (hv : Valid g) {i j : Nat} (hi : i < g.size) (hj : j < g.size) :
    ∃ h, g.graphSizeHint (i, j) = .ok h ∧ g.size - 1 - j + tri (g.size - 1 - i) ≤ h ∧ g.size - j ≤ h := by
  have hs := hv.1
  have hn := sq_bound hs
  obtain ⟨d, hd⟩ : ∃ d, g.size = i + d + 1 := ⟨g.size - i - 1, by omega⟩
  have t1 := tri_two (g.size - 1 - i)
  have e0 : g.size - 1 - i = d := by omega
  rw [e0] at t1 ⊢
  have t2 := tri_two g.size
  have t3 := tri_two i
  rw [hd] at t2
  simp only [Nat.add_sub_cancel] at t2
  have x1 : (i + d + 1) * (i + d) = i * i + 2 * (i * d) + d * d + i + d := by grind
  have x2 : i * (i - 1) = i * i - i := by rw [Nat.mul_sub]; simp
  have x3 : d * (d - 1) = d * d - d := by rw [Nat.mul_sub]; simp
  have y2 : i ≤ i * i := by
    cases i with
    | zero => simp
    | succ i => exact Nat.le_mul_of_pos_left _ (by omega)
  have y3 : d ≤ d * d := by
    cases d with
    | zero => simp
    | succ d => exact Nat.le_mul_of_pos_left _ (by omega)
  have x4 : g.size * g.size = i * i + 2 * (i * d) + d * d + 2 * i + 2 * d + 1 := by rw [hd]; grind
  have eN : g.size * g.size - g.size = 2 * tri g.size := by rw [hd] at x4 ⊢; omega
  have eI : i * i - i = 2 * tri i := by omega
  have hh : tri i ≤ tri g.size := tri_mono (by omega)
  rw [hd] at hh
  refine ⟨tri g.size - tri i + 1 - j, ?_, ?_, ?_⟩
  · unfold Graph.graphSizeHint
    have c1 : chkU32 ((g.size : Int) * g.size) = .ok (g.size * g.size) := by
      rw [← Int.natCast_mul]; exact chkU32_nat (by omega)
    have c2 : chkU32 (((g.size * g.size : Nat) : Int) - g.size) = .ok (2 * tri g.size) := by
      have : ((g.size * g.size : Nat) : Int) - g.size = ((2 * tri g.size : Nat) : Int) := by
        rw [← eN]; rw [hd] at x4 ⊢; omega
      rw [this]; exact chkU32_nat (by omega)
    have c3 : chkU32 ((i : Int) * i) = .ok (i * i) := by
      rw [← Int.natCast_mul]; exact chkU32_nat (by omega)
    have c4 : chkU32 (((i * i : Nat) : Int) - i) = .ok (2 * tri i) := by
      have : ((i * i : Nat) : Int) - i = ((2 * tri i : Nat) : Int) := by omega
      rw [this]; exact chkU32_nat (by omega)
    have d1 : 2 * tri g.size / 2 = tri g.size := by omega
    have d2 : 2 * tri i / 2 = tri i := by omega
    rw [← hd] at hh t2
    have c5 : chkU32 ((tri g.size : Nat) - ((tri i : Nat) : Int)) = .ok (tri g.size - tri i) := by
      have : ((tri g.size : Nat) : Int) - ((tri i : Nat) : Int) = ((tri g.size - tri i : Nat) : Int) := by omega
      rw [this]; exact chkU32_nat (by omega)
    have c6 : chkU32 (((tri g.size - tri i : Nat) : Int) + 1) = .ok (tri g.size - tri i + 1) := by
      have : ((tri g.size - tri i : Nat) : Int) + 1 = ((tri g.size - tri i + 1 : Nat) : Int) := by omega
      rw [this]; exact chkU32_nat (by omega)
    have c7 : chkU32 (((tri g.size - tri i + 1 : Nat) : Int) - j) = .ok (tri g.size - tri i + 1 - j) := by
      have : ((tri g.size - tri i + 1 : Nat) : Int) - j = ((tri g.size - tri i + 1 - j : Nat) : Int) := by omega
      rw [this]; exact chkU32_nat (by omega)
    simp only
    rw [c1, ok_bind, c2, ok_bind, c3, ok_bind, c4, ok_bind, d1, d2, c5, ok_bind, c6, ok_bind, c7]
  · rw [hd]; omega
  · rw [hd]; omega

end Chrono
