import Verif.Lemmas.GraphHist
import Verif.Lemmas.GraphFW
import Verif.Lemmas.Hoare
set_option linter.unusedSimpArgs false

/-!
# Batches: `extend` and `merge`
-/

namespace Chrono
open Chrono.Spec

theorem tight_of_small {W : Int} {n : Nat} {M : Mat} (h : SmallMat W n M) : Tight W n M := by
  intro i hi j hj hne
  refine ⟨[i, j], rfl, rfl, ?_, ⟨⟨hne, ?_⟩, trivial⟩, ?_⟩
  · intro x hx
    simp only [List.mem_cons, List.not_mem_nil, or_false] at hx
    omega
  · rcases h i hi j hj with h | h
    · exact absurd h hne
    · exact h
  · show M i j + 0 = M i j
    omega

/-! ## The memory beyond the instants -/

theorem tidy_iff {g : Graph} : Tidy g ↔
    ∀ i j, (g.size ≤ i ∨ g.size ≤ j) → mat g i j = -INF ∨ (i = j ∧ mat g i j = 0) := by
  constructor
  · intro h i j hij
    by_cases c : ix i j < g.data.length
    · have e : mat g i j = g.data[ix i j] := by
        unfold mat
        rw [List.getD_eq_getElem?_getD, List.getElem?_eq_getElem c]; rfl
      rcases h (ix i j) g.data[ix i j] (ix_ge_sq hij) (List.getElem?_eq_getElem c) with h | ⟨h, a, ha⟩
      · left; rw [e, h]
      · right
        rw [← ix_ge (Nat.le_refl a)] at ha
        have := ix_inj ha
        exact ⟨by omega, by rw [e, h]⟩
    · left; exact mat_oob (by omega)
  · intro h c v hc hv
    obtain ⟨i, j, -, -, e⟩ := ix_surj (c := c) (n := c + 1) (by grind)
    have hij : g.size ≤ i ∨ g.size ≤ j := by
      by_cases d : i < g.size ∧ j < g.size
      · have := ix_lt d.1 d.2
        omega
      · omega
    have em : mat g i j = v := by
      unfold mat
      rw [List.getD_eq_getElem?_getD, e, hv]; rfl
    rcases h i j hij with h | ⟨rfl, h⟩
    · left; rw [← em, h]
    · right
      exact ⟨by rw [← em, h], i, by rw [← e, ix_ge (Nat.le_refl i)]⟩

theorem tidy_clean {g : Graph} (h : Tidy g) : CleanMem g := by
  intro i j _ _ hij ho
  rcases tidy_iff.1 h i j ho with h | h
  · exact h
  · omega

theorem Shape.tidy {g g' : Graph} (h : Shape g g') (ho : ∀ a b, (g.size ≤ a ∨ g.size ≤ b) → mat g' a b = mat g a b)
    (ht : Tidy g) : Tidy g' := by
  rw [tidy_iff] at ht ⊢
  intro i j hij
  rw [h.size] at hij
  rw [ho i j hij]
  exact ht i j hij

theorem tidy_of_len {g : Graph} (h : g.data.length = g.size * g.size) : Tidy g := by
  intro c v hc hv
  rw [List.getElem?_eq_none (by omega)] at hv
  cases hv

theorem zeroDiag_iff {g : Graph} (hv : Valid g) : ZeroDiag g ↔ ∀ i, i < g.size → mat g i i = 0 := by
  constructor
  · intro h i hi
    have := h i hi
    rw [timespan_eq hv hi hi] at this
    exact congrArg Iv.lower (Except.ok.inj this)
  · intro h i hi
    rw [timespan_eq hv hi hi, h i hi]; rfl

theorem Closed.zeroDiag {g : Graph} (hv : Valid g) (hC : Closed g.size (mat g)) : ZeroDiag g :=
  (zeroDiag_iff hv).2 hC.diag

/-! ## extend -/

theorem holds_bounds {n : Nat} {W : Int} (hW : W ≤ INF) {k : Constr} (hk : Batchable n W k) (τ : Nat → Int) :
    Holds τ k ↔ BoundsHold τ k := by
  obtain ⟨-, -, ⟨h1, h2⟩, h3⟩ := hk
  cases he : k.isEmpty with
  | false => rw [holds_iff he]; rfl
  | true =>
    have := h3 he
    unfold Holds BoundsHold
    rw [he]
    constructor
    · rintro ⟨h, -⟩; cases h
    · rintro ⟨h4, h5⟩
      have : (0 : Int) < INF := by decide
      omega

theorem needed_le {n : Nat} : ∀ {ks : List Constr}, (∀ k ∈ ks, k.src < n ∧ k.dst < n) → needed ks ≤ n
  | [], _ => Nat.zero_le _
  | k :: ks, h => by
    have h1 := h k (by simp)
    have h2 := needed_le (ks := ks) (fun k' hk' => h k' (by simp [hk']))
    simp only [needed]
    omega

theorem lt_needed : ∀ {ks : List Constr} {k : Constr}, k ∈ ks → k.src < needed ks ∧ k.dst < needed ks
  | [], k, h => nomatch h
  | k' :: ks, k, h => by
    simp only [needed]
    rcases List.mem_cons.1 h with rfl | h
    · omega
    · have := lt_needed h
      omega

theorem extend_spec {g : Graph} (hv : Valid g) (hc : CleanMem g) (hz : ∀ i, i < g.size → mat g i i = 0) {W : Int}
    (hW : 0 ≤ W) (hg : SmallMat W g.size (mat g)) {n : Nat} (hn0 : 0 < n) (hn : g.size ≤ n) (hn2 : n ≤ 65535)
    (hB : 3 * (n : Int) * W < INF) {ks : List Constr} (hks : ∀ k ∈ ks, Batchable n W k) {hint : Option Nat}
    (h0 : hint ≠ some 0) (h1 : hint ≠ some 1) :
    (∃ g', g.extend hint ks = .ok (g', .propagated) ∧ g'.size = max g.size (needed ks) ∧ Valid g' ∧ CleanMem g' ∧
      Closed g'.size (mat g') ∧ Tight W g'.size (mat g') ∧
      ∀ τ, MSat g'.size (mat g') τ ↔ MSat g.size (mat g) τ ∧ ∀ k ∈ ks, Holds τ k) ∨
    (∃ g', g.extend hint ks = .ok (g', .fatal) ∧ g'.size = 0 ∧
      ∀ τ, ¬ (MSat g.size (mat g) τ ∧ ∀ k ∈ ks, Holds τ k)) := by
  obtain ⟨b1, -, b3⟩ := nW_bounds (n := n) hW hn0
  have hWI : W < INF := by omega
  obtain ⟨g1, a1, a2, a3, a4, a5, a6, a7⟩ := insertAll_spec hW (Int.le_of_lt hWI) ks g hv hc hg (fun k hk => (hks k hk).2.2.1)
    (fun k hk => by have := hks k hk; have := this.1; have := (hks k hk).2.1; omega)
  have sz : g1.size ≤ n := by
    have := needed_le (n := n) (ks := ks) (fun k hk => ⟨(hks k hk).1, (hks k hk).2.1⟩)
    omega
  have hB' : 3 * (g1.size : Int) * W < INF := by
    have e : 3 * (g1.size : Int) * W = 3 * (g1.size * W) := by grind
    have := Int.mul_le_mul_of_nonneg_right (c := W) (show (g1.size : Int) ≤ n by omega) hW
    omega
  have hsat : ∀ τ, MSat g1.size (mat g1) τ ↔ MSat g.size (mat g) τ ∧ ∀ k ∈ ks, Holds τ k := by
    intro τ
    rw [a7]
    constructor
    · rintro ⟨x, y⟩
      exact ⟨x, fun k hk => (holds_bounds (Int.le_of_lt hWI) (hks k hk) τ).2 (y k hk)⟩
    · rintro ⟨x, y⟩
      exact ⟨x, fun k hk => (holds_bounds (Int.le_of_lt hWI) (hks k hk) τ).1 (y k hk)⟩
  have e : ∀ r, g1.globalPropagation = r → g.extend hint ks = r := by
    intro r hr
    unfold Graph.extend
    rw [if_neg h0, if_neg h1, a1, ok_bind]
    exact hr
  rcases globalPropagation_spec a3 hW a5 hB'
      (a6 (fun i hi => by rw [hz i hi]; exact Int.le_refl 0)) with ⟨g', p1, p2, p3, p4, p5, p6⟩ | ⟨g', p1, p2, p3⟩
  · left
    refine ⟨g', e _ p1, by rw [p2.size, a2], p2.valid a3, p2.clean p5 a4, by rw [p2.size]; exact p3,
      by rw [p2.size]; exact p6, fun τ => ?_⟩
    rw [p2.size, p4, hsat]
  · right
    exact ⟨g', e _ p1, p2, fun τ h => p3 τ ((hsat τ).2 h)⟩

/-! ## fatal failures -/

theorem gp_fatal_size {g g' : Graph} (h : g.globalPropagation = .ok (g', .fatal)) : g'.size = 0 := by
  rw [globalPropagation_def] at h
  obtain ⟨p, h1, h2⟩ := bind_ok h
  have key : p.2 = true → p.1.size = 0 := by
    refine foldlM_ok (fun p : Graph × Bool => p.2 = true → p.1.size = 0) h1 (fun h => by cases h) ?_
    intro x k x' hx h
    refine foldlM_ok (fun p : Graph × Bool => p.2 = true → p.1.size = 0) h hx ?_
    intro y i y' hy h
    unfold gpBody at h
    split at h
    · cases h; exact hy
    · obtain ⟨g1, -, h⟩ := bind_ok h
      obtain ⟨d, -, h⟩ := bind_ok h
      split at h
      · cases h; exact fun _ => rfl
      · cases h; exact fun h => by cases h
  cases hp : p.2 with
  | true =>
    have := key hp
    have e : p.1 = g' := congrArg Prod.fst (Except.ok.inj h2)
    rw [← e]
    exact this
  | false =>
    rw [hp] at h2
    cases h2

theorem propagate_not_fatal {g g' : Graph} {k : Constr} : g.propagate k ≠ .ok (g', .fatal) := by
  intro h
  unfold Graph.propagate at h
  split at h
  · cases h
  · simp only at h
    split at h
    · obtain ⟨_, -, h⟩ := bind_ok h
      obtain ⟨_, -, h⟩ := bind_ok h
      obtain ⟨_, -, h⟩ := bind_ok h
      obtain ⟨_, -, h⟩ := bind_ok h
      cases h
    · obtain ⟨_, -, h⟩ := bind_ok h
      obtain ⟨_, -, h⟩ := bind_ok h
      split at h
      · split at h
        · cases h
        · split at h
          · cases h
          · obtain ⟨_, -, h⟩ := bind_ok h
            obtain ⟨_, -, h⟩ := bind_ok h
            cases h
      · split at h
        · cases h
        · obtain ⟨_, -, h⟩ := bind_ok h
          obtain ⟨_, -, h⟩ := bind_ok h
          obtain ⟨_, -, h⟩ := bind_ok h
          split at h
          · obtain ⟨_, -, h⟩ := bind_ok h
            obtain ⟨_, -, h⟩ := bind_ok h
            cases h
          · cases h

theorem extend_fatal_size {g g' : Graph} {hint : Option Nat} {ks : List Constr}
    (h : g.extend hint ks = .ok (g', .fatal)) : g'.size = 0 := by
  unfold Graph.extend at h
  split at h
  · cases h
  · split at h
    · split at h
      · cases h
      · exact absurd h propagate_not_fatal
    · obtain ⟨_, -, h⟩ := bind_ok h
      exact gp_fatal_size h

theorem merge_fatal_size {g k g' : Graph} (h : g.merge k = .ok (g', .fatal)) : g'.size = 0 := by
  unfold Graph.merge at h
  simp only at h
  have key : ∀ (c s : Bool) (x : Graph), (if c = true then x.globalPropagation
      else if s = true then pure (x, Outcome.propagated) else pure (x, Outcome.unchanged)) = .ok (g', .fatal) →
      g'.size = 0 := by
    intro c s x h
    split at h
    · exact gp_fatal_size h
    · split at h <;> cases h
  split at h <;> exact key _ _ _ h

/-! ## merge -/

/-- whether `zipMax` changes something -/
theorem zipMax_unchanged (a b : List Int) :
    (Graph.zipMax a b).2 = false ↔ ∀ (c : Nat) x y, a[c]? = some x → b[c]? = some y → y ≤ x := by
  induction a generalizing b with
  | nil => cases b <;> simp [Graph.zipMax]
  | cons x a ih =>
    cases b with
    | nil => simp [Graph.zipMax]
    | cons y b =>
      have e : (Graph.zipMax (x :: a) (y :: b)).2 = false ↔ y ≤ x ∧ (Graph.zipMax a b).2 = false := by
        rw [Graph.zipMax]
        by_cases c : x < y
        · simp only [c, if_true]
          exact ⟨fun e => (nomatch e), fun e => absurd c (by omega)⟩
        · simp only [c, if_false]
          exact ⟨fun e => ⟨by omega, e⟩, fun e => e.2⟩
      rw [e, ih]
      constructor
      · rintro ⟨h1, h2⟩ c u v hu hv
        cases c with
        | zero => simp at hu hv; omega
        | succ c => exact h2 c u v (by simpa using hu) (by simpa using hv)
      · intro h
        exact ⟨h 0 x y rfl rfl, fun c u v hu hv => h (c + 1) u v (by simpa using hu) (by simpa using hv)⟩

/-- a global propagation never answers `Unchanged` -/
theorem globalPropagation_ne {g g' : Graph} : g.globalPropagation ≠ .ok (g', .unchanged) := by
  intro h
  unfold Graph.globalPropagation at h
  obtain ⟨p, -, h⟩ := bind_ok h
  obtain ⟨g1, f⟩ := p
  cases f <;> cases h

/-- the merge of two graphs, the second one being the smaller -/
theorem merge_le {g h : Graph} (hg : Valid g) (hh : Valid h) (hl : h.size ≤ g.size) (ht : Tidy h)
    (zg : ∀ i, i < g.size → mat g i i = 0) {W : Int} (hW : 0 ≤ W)
    (sg : SmallMat W g.size (mat g)) (sh : SmallMat W h.size (mat h)) (hB : 3 * (g.size : Int) * W < INF) :
    let p := Graph.zipMax g.data h.data
    (p.2 = false ∧ p.1 = g.data ∧ ∀ τ, MSat g.size (mat g) τ → MSat h.size (mat h) τ) ∨
    (p.2 = true ∧ ((∃ g', Graph.globalPropagation { g with data := p.1 } = .ok (g', .propagated) ∧ g'.size = g.size ∧
      Valid g' ∧ (Tidy g → Tidy g') ∧ Closed g.size (mat g') ∧ Tight W g.size (mat g') ∧
      ∀ τ, MSat g.size (mat g') τ ↔ MSat g.size (mat g) τ ∧ MSat h.size (mat h) τ) ∨
    (∃ g', Graph.globalPropagation { g with data := p.1 } = .ok (g', .fatal) ∧ g'.size = 0 ∧
      ∀ τ, ¬ (MSat g.size (mat g) τ ∧ MSat h.size (mat h) τ)))) := by
  intro p
  have hth := tidy_iff.1 ht
  have hWI : 0 < g.size → W < INF := by
    intro g0
    obtain ⟨b1, -, b3⟩ := nW_bounds (n := g.size) hW g0
    omega
  cases hp : p.2 with
  | false =>
    left
    obtain ⟨e1, e2⟩ := zipMax_same g.data h.data hp
    refine ⟨rfl, e1, fun τ t i hi j hj => ?_⟩
    have a := t i (by omega) j (by omega)
    have b := e2 (ix i j) (hg.ix_lt (by omega) (by omega)) (hh.ix_lt hi hj)
    have hWI := hWI (by omega)
    have s1 := sg i (by omega) j (by omega)
    have s2 := sh i hi j hj
    have b' : mat h i j ≤ mat g i j := b
    unfold Small at s1 s2
    omega
  | true =>
    right
    refine ⟨rfl, ?_⟩
    have hm : ∀ i j, i < g.size → j < g.size → mat { g with data := p.1 } i j = max (mat g i j) (mat h i j) := by
      intro i j hi hj
      have hWI := hWI (by omega)
      have s1 := sg i hi j hj
      refine zipMax_get g.data h.data (ix i j) (hg.ix_lt hi hj) ?_
      show -INF ≤ mat g i j
      unfold Small at s1
      omega
    have hv' : Valid { g with data := p.1 } := ⟨hg.1, by show _ ≤ p.1.length; rw [zipMax_len]; exact hg.2⟩
    have hsm : SmallMat W g.size (mat { g with data := p.1 }) := by
      intro i hi j hj
      have hWI := hWI (by omega)
      have s1 := sg i hi j hj
      rw [hm i j hi hj]
      by_cases c : i < h.size ∧ j < h.size
      · have s2 := sh i c.1 j c.2
        unfold Small at *
        omega
      · have := hth i j (by omega)
        unfold Small at *
        omega
    have hsat : ∀ τ, MSat g.size (mat { g with data := p.1 }) τ ↔ MSat g.size (mat g) τ ∧ MSat h.size (mat h) τ := by
      intro τ
      constructor
      · intro t
        refine ⟨fun i hi j hj => ?_, fun i hi j hj => ?_⟩
        · have a := t i hi j hj
          have hWI := hWI (by omega)
          have s1 := sg i hi j hj
          rw [hm i j hi hj] at a
          unfold Small at s1
          omega
        · have a := t i (by omega) j (by omega)
          have hWI := hWI (by omega)
          have s2 := sh i hi j hj
          rw [hm i j (by omega) (by omega)] at a
          unfold Small at s2
          omega
      · rintro ⟨t1, t2⟩ i hi j hj
        rw [hm i j hi hj]
        have a := t1 i hi j hj
        have hWI := hWI (by omega)
        by_cases c : i < h.size ∧ j < h.size
        · have b := t2 i c.1 j c.2
          omega
        · have := hth i j (by omega)
          by_cases e : i = j
          · subst e; omega
          · omega
    have off : Tidy g → Tidy { g with data := p.1 } := by
      intro tg
      rw [tidy_iff] at tg ⊢
      intro i j hij
      have hij' : g.size ≤ i ∨ g.size ≤ j := hij
      have x := tg i j hij'
      have y := hth i j (by omega)
      by_cases c : ix i j < g.data.length
      · have : mat { g with data := p.1 } i j = max (mat g i j) (mat h i j) := by
          refine zipMax_get g.data h.data (ix i j) c ?_
          show -INF ≤ mat g i j
          have : (0 : Int) < INF := by decide
          omega
        rw [this]
        have : (0 : Int) < INF := by decide
        omega
      · left
        exact mat_oob (by show p.1.length ≤ _; rw [zipMax_len]; omega)
    rcases globalPropagation_spec hv' hW hsm hB (by
      intro i hi
      have hi' : i < g.size := hi
      rw [hm i i hi' hi', zg i hi']; omega) with ⟨g', p1, p2, p3, p4, p5, p6⟩ | ⟨g', p1, p2, p3⟩
    · left
      exact ⟨g', p1, p2.size, p2.valid hv', fun t => p2.tidy p5 (off t), p3, p6, fun τ => by rw [p4 τ, hsat τ]⟩
    · right
      exact ⟨g', p1, p2, fun τ t => p3 τ ((hsat τ).2 t)⟩

end Chrono
