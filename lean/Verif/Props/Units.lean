import Verif.Props.Rename

/-!
# C124: units of time and origins of time do not matter
-/

namespace Chrono
open Spec

theorem floor_iff {m : Int} (hm : 0 < m) (x y l : Int) : m * l ≤ y - x ↔ ∀ c, l ≤ (y + c) / m - (x + c) / m := by
  constructor
  · intro h c
    have e : (x + c + l * m) / m = (x + c) / m + l := Int.add_mul_ediv_right _ _ (by omega)
    have : (x + c + l * m) / m ≤ (y + c) / m := Int.ediv_le_ediv hm (by rw [Int.mul_comm l m]; omega)
    omega
  · intro h
    have h := h (-x)
    have e : x + -x = 0 := by omega
    rw [e, Int.zero_ediv, Int.sub_zero] at h
    have := (Int.le_ediv_iff_mul_le hm).1 h
    rw [Int.mul_comm] at this
    omega

/-- the assignments of the first graph which are read off an assignment `τ` of the second one, by rounding -/
def read (m : Int) (p : Nat → Int) (c : Int) (τ : Nat → Int) (i : Nat) : Int := (τ i - p i + c) / m

theorem read_iff {m : Int} (hm : 0 < m) (p τ : Nat → Int) (i j : Nat) (l : Int) :
    m * l + (p j - p i) ≤ τ j - τ i ↔ ∀ c, l ≤ read m p c τ j - read m p c τ i := by
  have := floor_iff hm (τ i - p i) (τ j - p j) l
  unfold read
  rw [← this]
  omega

theorem affine_near {m c x W P : Int} (hm : 1 ≤ m) (hx : -W ≤ x ∧ x ≤ W) (hc : -P ≤ c ∧ c ≤ P) (hB : m * W + P < INF) :
    affine m c x = m * x + c ∧ -(m * W + P) ≤ m * x + c ∧ m * x + c ≤ m * W + P ∧ x ≠ INF ∧ x ≠ -INF := by
  have h1 : m * x ≤ m * W := Int.mul_le_mul_of_nonneg_left hx.2 (by omega)
  have h2 : m * (-W) ≤ m * x := Int.mul_le_mul_of_nonneg_left hx.1 (by omega)
  have h3 : W ≤ m * W := by
    have := Int.mul_le_mul_of_nonneg_right (a := 1) (b := m) (c := W) hm (by omega)
    omega
  rw [Int.mul_neg] at h2
  unfold affine
  rw [if_neg (by omega)]
  omega

theorem affine_inj {m c x y W P : Int} (hm : 1 ≤ m) (hc : -P ≤ c ∧ c ≤ P) (hP : 0 ≤ P) (hW : 0 ≤ W) (hB : m * W + P < INF)
    (hx : x = -INF ∨ -W ≤ x ∧ x ≤ W) (hy : y = INF ∨ -W ≤ y ∧ y ≤ W) : affine m c x ≤ affine m c y ↔ x ≤ y := by
  have hWm : W ≤ m * W := by
    have := Int.mul_le_mul_of_nonneg_right (a := 1) (b := m) (c := W) hm (by omega)
    omega
  have top : affine m c INF = INF := by unfold affine; rw [if_pos (Or.inr rfl)]
  have bot : affine m c (-INF) = -INF := by unfold affine; rw [if_pos (Or.inl rfl)]
  rcases hx with rfl | hx <;> rcases hy with rfl | hy
  · rw [top, bot]
  · obtain ⟨e, h1, h2, -⟩ := affine_near hm hy hc hB
    rw [bot, e]; omega
  · obtain ⟨e, h1, h2, -⟩ := affine_near hm hx hc hB
    rw [top, e]; omega
  · rw [(affine_near hm hy hc hB).1, (affine_near hm hx hc hB).1]
    constructor
    · intro h
      exact Int.le_of_mul_le_mul_left (by omega : m * x ≤ m * y) (by omega)
    · intro h
      have := Int.mul_le_mul_of_nonneg_left h (by omega : 0 ≤ m)
      omega

theorem units_change {n : Nat} {m W P : Int} {p : Nat → Int} (hm : 1 ≤ m) (hW : 0 ≤ W) (hP : 0 ≤ P)
    (hp : ∀ i j, i < n → j < n → p j - p i ≤ P) (hB : m * W + P < INF) :
    Change n W (m * W + P) (rescaled m p) (read m p) (fun τ i => m * τ i + p i) := by
  have hWm : W ≤ m * W := by
    have := Int.mul_le_mul_of_nonneg_right (a := 1) (b := m) (c := W) hm (by omega)
    omega
  have hc : ∀ k : Constr, k.src < n → k.dst < n → -P ≤ p k.dst - p k.src ∧ p k.dst - p k.src ≤ P := fun k h1 h2 => by
    have a := hp _ _ h1 h2
    have b := hp _ _ h2 h1
    omega
  have within : ∀ k : Constr, k.src < n → k.dst < n → WithinK W k → WithinK (m * W + P) (rescaled m p k) := by
    intro k h1 h2 ⟨w1, w2⟩
    constructor
    · show affine _ _ _ = -INF ∨ _ ≤ affine _ _ _ ∧ affine _ _ _ ≤ _
      rcases w1 with e | w1
      · left; rw [e]; unfold affine; rw [if_pos (Or.inl rfl)]
      · obtain ⟨e, a, b, -⟩ := affine_near hm w1 (hc k h1 h2) hB
        right; rw [e]; exact ⟨a, b⟩
    · show affine _ _ _ = INF ∨ _ ≤ affine _ _ _ ∧ affine _ _ _ ≤ _
      rcases w2 with e | w2
      · left; rw [e]; unfold affine; rw [if_pos (Or.inr rfl)]
      · obtain ⟨e, a, b, -⟩ := affine_near hm w2 (hc k h1 h2) hB
        right; rw [e]; exact ⟨a, b⟩
  have low : ∀ k : Constr, k.src < n → k.dst < n → WithinK W k → ∀ d : Int,
      ((rescaled m p k).lower = -INF ∨ (rescaled m p k).lower ≤ d) ↔ (k.lower = -INF ∨ m * k.lower + (p k.dst - p k.src) ≤ d) := by
    intro k h1 h2 ⟨w1, _⟩ d
    show (affine _ _ _ = -INF ∨ affine _ _ _ ≤ d) ↔ _
    rcases w1 with e | w1
    · rw [e]; unfold affine; rw [if_pos (Or.inl rfl)]; simp
    · obtain ⟨e, a, b, -⟩ := affine_near hm w1 (hc k h1 h2) hB
      rw [e]; omega
  have high : ∀ k : Constr, k.src < n → k.dst < n → WithinK W k → ∀ d : Int,
      ((rescaled m p k).upper = INF ∨ d ≤ (rescaled m p k).upper) ↔ (k.upper = INF ∨ m * (-k.upper) + (p k.src - p k.dst) ≤ -d) := by
    intro k h1 h2 ⟨_, w2⟩ d
    show (affine _ _ _ = INF ∨ d ≤ affine _ _ _) ↔ _
    rcases w2 with e | w2
    · rw [e]; unfold affine; rw [if_pos (Or.inr rfl)]; simp
    · obtain ⟨e, a, b, -⟩ := affine_near hm w2 (hc k h1 h2) hB
      rw [e, Int.mul_neg]; omega
  constructor
  · exact ⟨0⟩
  · intro k h1 h2 hw τ
    cases ke : k.isEmpty with
    | true =>
      refine ⟨fun h => ?_, fun h => ?_⟩
      · have := h.1; rw [show (rescaled m p k).isEmpty = k.isEmpty from rfl, ke] at this; cases this
      · have := (h 0).1; rw [ke] at this; cases this
    | false =>
      have hw := hw ke
      have r1 := read_iff (by omega : 0 < m) p τ k.src k.dst k.lower
      have r2 := read_iff (by omega : 0 < m) p τ k.dst k.src (-k.upper)
      have e1 := low k h1 h2 hw (τ k.dst - τ k.src)
      have e2 := high k h1 h2 hw (τ k.dst - τ k.src)
      rw [show -(τ k.dst - τ k.src) = τ k.src - τ k.dst by omega] at e2
      constructor
      · intro h c
        refine ⟨ke, ?_, ?_⟩
        · rcases e1.1 h.2.1 with e | e
          · exact Or.inl e
          · exact Or.inr (r1.1 e c)
        · rcases e2.1 h.2.2 with e | e
          · exact Or.inl e
          · have := r2.1 e c
            right; simp only; omega
      · intro h
        refine ⟨ke, e1.2 ?_, e2.2 ?_⟩
        · by_cases x : k.lower = -INF
          · exact Or.inl x
          · exact Or.inr (r1.2 fun c => (h c).2.1.resolve_left x)
        · by_cases x : k.upper = INF
          · exact Or.inl x
          · refine Or.inr (r2.2 fun c => ?_)
            have := (h c).2.2.resolve_left x
            simp only at this
            omega
  · intro k h1 h2 hw τ
    cases ke : k.isEmpty with
    | true =>
      refine ⟨fun h => ?_, fun h => ?_⟩
      · have := h.1; rw [ke] at this; cases this
      · have := h.1; rw [show (rescaled m p k).isEmpty = k.isEmpty from rfl, ke] at this; cases this
    | false =>
      have hw := hw ke
      have e1 := low k h1 h2 hw (m * τ k.dst + p k.dst - (m * τ k.src + p k.src))
      have e2 := high k h1 h2 hw (m * τ k.dst + p k.dst - (m * τ k.src + p k.src))
      have r1 : m * k.lower + (p k.dst - p k.src) ≤ m * τ k.dst + p k.dst - (m * τ k.src + p k.src) ↔ k.lower ≤ τ k.dst - τ k.src := by
        rw [← Int.mul_le_mul_left (show 0 < m by omega) (b := k.lower), Int.mul_sub]
        omega
      have r2 : m * (-k.upper) + (p k.src - p k.dst) ≤ -(m * τ k.dst + p k.dst - (m * τ k.src + p k.src)) ↔ τ k.dst - τ k.src ≤ k.upper := by
        rw [← Int.mul_le_mul_left (show 0 < m by omega) (c := k.upper), Int.mul_sub, Int.mul_neg]
        omega
      rw [r1] at e1
      rw [r2] at e2
      exact ⟨fun h => ⟨ke, e1.2 h.2.1, e2.2 h.2.2⟩, fun h => ⟨ke, e1.1 h.2.1, e2.1 h.2.2⟩⟩
  · intro k hk
    refine ⟨hk.1, hk.2.1, fun ke => ?_⟩
    obtain ⟨wf, w⟩ := hk.2.2 ke
    refine ⟨?_, within k hk.1 hk.2.1 w⟩
    obtain ⟨x1, x2⟩ := within k hk.1 hk.2.1 w
    have le : (rescaled m p k).lower ≤ (rescaled m p k).upper := (affine_inj hm (hc k hk.1 hk.2.1) hP hW hB w.1 w.2).2 wf.le
    have : 0 ≤ m * W := Int.mul_nonneg (by omega) hW
    constructor <;> simp only <;> ticks
  · intro k hk
    refine ⟨hk.1, hk.2.1, within k hk.1 hk.2.1 hk.2.2.1, fun ke => ?_⟩
    have lt := hk.2.2.2 ke
    obtain ⟨w1, w2⟩ := hk.2.2.1
    have := (affine_inj hm (hc k hk.1 hk.2.1) hP hW hB w1 w2)
    show affine _ _ _ < affine _ _ _
    omega

/-- the delays announced by the two graphs -/
theorem units_span {n : Nat} {m W P : Int} {p : Nat → Int} (hm : 1 ≤ m) (hW : 0 ≤ W) (hP : 0 ≤ P)
    (hp : ∀ i j, i < n → j < n → p j - p i ≤ P) (hB : m * W + P < INF) {h h' : Graph} (v : Valid h) (v' : Valid h') (s : h.size = n)
    (s' : h'.size = n) (a : Alike n (read m p) (fun τ i => m * τ i + p i) (mat h) (mat h')) (small : SmallMat W n (mat h))
    {i j : Nat} (hi : i < n) (hj : j < n) :
    ∃ l u, h.timespan i j = .ok ⟨l, u⟩ ∧ h'.timespan i j = .ok ⟨affine m (p j - p i) l, affine m (p j - p i) u⟩ := by
  have hc : ∀ i j, i < n → j < n → -P ≤ p j - p i ∧ p j - p i ≤ P := fun i j h1 h2 => by
    have a := hp _ _ h1 h2
    have b := hp _ _ h2 h1
    omega
  have bot : ∀ c, affine m c (-INF) = -INF := fun c => by unfold affine; rw [if_pos (Or.inl rfl)]
  have near : ∀ x y, x < n → y < n → mat h x y = -INF ∨ (affine m (p y - p x) (mat h x y) = m * mat h x y + (p y - p x) ∧
      affine m (p y - p x) (mat h x y) ≠ -INF ∧ mat h x y ≠ -INF) := fun x y hx hy => by
    rcases small x hx y hy with e | e
    · exact Or.inl e
    · obtain ⟨f, f1, f2, f3, f4⟩ := affine_near hm e (hc x y hx hy) hB
      exact Or.inr ⟨f, by omega, f4⟩
  have hC : Closed n (fun x y => affine m (p y - p x) (mat h x y)) := by
    constructor
    · intro x hx
      have d := a.closed.diag x hx
      rcases near x x hx hx with e | ⟨e, -⟩
      · rw [d] at e; exact absurd e (by decide)
      · rw [e, d]; omega
    · intro x hx y hy z hz h1 h2
      rcases near x y hx hy with e | ⟨e1, -, f1⟩
      · rw [e, bot] at h1; exact absurd rfl h1
      rcases near y z hy hz with e | ⟨e2, -, f2⟩
      · rw [e, bot] at h2; exact absurd rfl h2
      obtain ⟨t1, t2⟩ := a.closed.tri x hx y hy z hz f1 f2
      rcases near x z hx hz with e | ⟨e3, f3, -⟩
      · exact absurd e t1
      · refine ⟨f3, ?_⟩
        rw [e1, e2, e3]
        have := Int.mul_le_mul_of_nonneg_left t2 (by omega : 0 ≤ m)
        rw [Int.mul_add] at this
        omega
  have hS : ∀ τ, MSat n (mat h') τ ↔ MSat n (fun x y => affine m (p y - p x) (mat h x y)) τ := by
    intro τ
    rw [a.to]
    constructor
    · intro q x hx y hy
      simp only
      rcases near x y hx hy with e | ⟨e, -, f⟩
      · left; rw [e, bot]
      · right
        rw [e]
        exact (read_iff (by omega) p τ x y _).2 fun c => (q c x hx y hy).resolve_left f
    · intro q c x hx y hy
      rcases near x y hx hy with e | ⟨e, f0, f⟩
      · exact Or.inl e
      · right
        have := (q x hx y hy).resolve_left f0
        simp only at this
        rw [e] at this
        exact (read_iff (by omega) p τ x y _).1 this c
  refine ⟨_, _, timespan_eq v (by omega) (by omega), ?_⟩
  rw [timespan_eq v' (by omega) (by omega), a.closed'.unique hC hS hi hj, a.closed'.unique hC hS hj hi]
  have e : -affine m (p i - p j) (mat h j i) = affine m (p j - p i) (-mat h j i) := by
    unfold affine
    by_cases c : mat h j i = -INF ∨ mat h j i = INF
    · rw [if_pos c, if_pos (by omega)]
    · rw [if_neg c, if_neg (by omega), Int.mul_neg]; omega
  rw [e]

theorem units_bounds {n : Nat} (hn : 0 < n) {m W P : Int} (hm : 1 ≤ m) (hW : 0 ≤ W) (hP : 0 ≤ P) (hB : 3 * (n : Int) * (m * W + P) < INF) :
    0 ≤ m * W + P ∧ 3 * (n : Int) * W < INF ∧ m * W + P < INF ∧ 0 ≤ ((n - 1 : Nat) : Int) * W ∧ m * (((n - 1 : Nat) : Int) * W) + P < INF := by
  have h1 : 0 ≤ m * W := Int.mul_nonneg (by omega) hW
  have h2 : W ≤ m * W := by
    have := Int.mul_le_mul_of_nonneg_right (a := 1) (b := m) (c := W) hm (by omega)
    omega
  have e : 3 * (n : Int) * (m * W + P) = 3 * (n * (m * W + P)) := Int.mul_assoc ..
  have e' : 3 * (n : Int) * W = 3 * (n * W) := Int.mul_assoc ..
  have h3 : (n : Int) * W ≤ n * (m * W + P) := Int.mul_le_mul_of_nonneg_left (by omega) (by omega)
  have h4 : 0 ≤ (n : Int) * W := Int.mul_nonneg (by omega) hW
  have h5 : 1 * (m * W + P) ≤ n * (m * W + P) := Int.mul_le_mul_of_nonneg_right (by omega) (by omega)
  have h6 : 0 ≤ ((n - 1 : Nat) : Int) * W := Int.mul_nonneg (by omega) hW
  have e6 : m * (((n - 1 : Nat) : Int) * W) = ((n - 1 : Nat) : Int) * (m * W) := Int.mul_left_comm ..
  have e7 : ((n - 1 : Nat) : Int) * (m * W) = n * (m * W) - m * W := by
    rw [show ((n - 1 : Nat) : Int) = n - 1 by omega, Int.sub_mul, Int.one_mul]
  have e8 : (n : Int) * (m * W + P) = n * (m * W) + n * P := Int.mul_add ..
  have h9 : 1 * P ≤ (n : Int) * P := Int.mul_le_mul_of_nonneg_right (by omega) hP
  have h10 : 0 ≤ (n : Int) * (m * W) := Int.mul_nonneg (by omega) h1
  rw [e6, e7]
  refine ⟨by omega, by omega, by omega, h6, by omega⟩

/-- C124. Other units (one tick becomes `m` ticks) and other origins (the date `t` of the instant `i` becomes `m * t + p i`): each call of
`propagate` with the constraints written accordingly gives the same answer, whatever has been accepted or rejected before, and the graph
announces the same delays, written accordingly. -/
theorem C124_history {n : Nat} (hn : n ≤ 65535) {m W P : Int} {p : Nat → Int} (hm : 1 ≤ m) (hW : 0 ≤ W) (hP : 0 ≤ P)
    (hp : ∀ i j, i < n → j < n → p j - p i ≤ P) (hB : 3 * (n : Int) * (m * W + P) < INF) {ks : List Constr} (hk : ∀ k ∈ ks, Usable n W k) :
    ∃ g g' os, (Graph.withSize n >>= fun g => answers g ks) = .ok (g, os) ∧
      (Graph.withSize n >>= fun g => answers g (ks.map (rescaled m p))) = .ok (g', os) ∧ g.size = n ∧ g'.size = n ∧
      ∀ i j, i < n → j < n →
        ∃ l u, g.timespan i j = .ok ⟨l, u⟩ ∧ g'.timespan i j = .ok ⟨affine m (p j - p i) l, affine m (p j - p i) u⟩ := by
  cases n with
  | zero =>
    cases ks with
    | cons k _ => exact absurd (hk k (by simp)).1 (by omega)
    | nil =>
      obtain ⟨g0, e0, n0, -, -, -⟩ := withSize_eq hn
      exact ⟨g0, g0, [], by rw [e0]; rfl, by rw [e0]; rfl, n0, n0, fun i j hi => absurd hi (by omega)⟩
  | succ n =>
    obtain ⟨b1, b2, b3, b4, b5⟩ := units_bounds (Nat.succ_pos n) hm hW hP hB
    obtain ⟨h, h', os, e, e', v, v', s, s', a, t⟩ := history_alike hn (units_change hm hW hP hp b3) hW b1 b2 hB hk
    exact ⟨h, h', os, e, e', s, s', fun i j hi hj => units_span hm b4 hP hp b5 v v' s s' a (a.closed.tight_small hW t) hi hj⟩

/-- C124 for batches: the same answer, and when the batch is accepted, the same delays, written accordingly. -/
theorem C124_batch {n : Nat} (hn0 : 0 < n) (hn : n ≤ 65535) {m W P : Int} {p : Nat → Int} (hm : 1 ≤ m) (hW : 0 ≤ W) (hP : 0 ≤ P)
    (hp : ∀ i j, i < n → j < n → p j - p i ≤ P) (hB : 3 * (n : Int) * (m * W + P) < INF) {ks : List Constr}
    (hk : ∀ k ∈ ks, Batchable n W k) {hint : Option Nat} (h0 : hint ≠ some 0) (h1 : hint ≠ some 1) :
    ∃ g g' o, (Graph.withSize n >>= fun g => g.extend hint ks) = .ok (g, o) ∧
      (Graph.withSize n >>= fun g => g.extend hint (ks.map (rescaled m p))) = .ok (g', o) ∧
      (o = .fatal ∨ o = .propagated ∧ ∀ i j, i < n → j < n →
        ∃ l u, g.timespan i j = .ok ⟨l, u⟩ ∧ g'.timespan i j = .ok ⟨affine m (p j - p i) l, affine m (p j - p i) u⟩) := by
  obtain ⟨b1, b2, b3, b4, b5⟩ := units_bounds hn0 hm hW hP hB
  obtain ⟨h, h', o, e, e', x⟩ := batch_alike hn0 hn (units_change hm hW hP hp b3) hW b1 b2 hB hk h0 h1
  refine ⟨h, h', o, e, e', ?_⟩
  rcases x with ⟨x, -⟩ | ⟨x, v, v', s, s', a, t⟩
  · exact Or.inl x
  · exact Or.inr ⟨x, fun i j hi hj => units_span hm b4 hP hp b5 v v' s s' a (a.closed.tight_small hW t) hi hj⟩

/-- three instants, one tick written as a thousand, instant 1 counted from 7 and instant 2 from -40: two constraints which hold and one which
contradicts them, through the theorem -/
example : ∃ g g', (Graph.withSize 3 >>= fun g => answers g [⟨0, 1, false, 10, 20⟩, ⟨1, 2, false, 5, INF⟩, ⟨0, 2, false, 0, 3⟩]) =
      .ok (g, [.propagated, .propagated, .recovered]) ∧
    (Graph.withSize 3 >>= fun g => answers g [⟨0, 1, false, 10007, 20007⟩, ⟨1, 2, false, 4953, INF⟩, ⟨0, 2, false, -40, 2960⟩]) =
      .ok (g', [.propagated, .propagated, .recovered]) ∧
    g.timespan 0 2 = .ok ⟨15, INF⟩ ∧ g'.timespan 0 2 = .ok ⟨14960, INF⟩ := by
  let ks : List Constr := [⟨0, 1, false, 10, 20⟩, ⟨1, 2, false, 5, INF⟩, ⟨0, 2, false, 0, 3⟩]
  let p : Nat → Int := fun i => if i = 1 then 7 else if i = 2 then -40 else 0
  have usable : ∀ k ∈ ks, Usable 3 100 k := by
    intro k hk
    simp only [ks, List.mem_cons, List.not_mem_nil, or_false] at hk
    rcases hk with rfl | rfl | rfl <;> exact ⟨by decide, by decide, fun _ => ⟨by constructor <;> decide, by decide⟩⟩
  obtain ⟨g, g', os, e, e', -, -, h⟩ := C124_history (n := 3) (m := 1000) (W := 100) (P := 50) (p := p) (by decide) (by decide) (by decide)
    (by decide) (fun i j _ _ => by simp only [p]; split <;> split <;> (try split) <;> (try split) <;> decide) (by decide) usable
  have eg : (Graph.withSize 3 >>= fun g => answers g ks) = .ok (⟨3, [0, -20, 0, 10, -INF, -INF, 0, 5, 15]⟩, [.propagated, .propagated, .recovered]) := by
    decide +kernel
  rw [eg] at e
  cases e
  have em : ks.map (rescaled 1000 p) = [⟨0, 1, false, 10007, 20007⟩, ⟨1, 2, false, 4953, INF⟩, ⟨0, 2, false, -40, 2960⟩] := by decide +kernel
  rw [em] at e'
  obtain ⟨l, u, h1, h2⟩ := h 0 2 (by decide) (by decide)
  have e1 : Graph.timespan ⟨3, [0, -20, 0, 10, -INF, -INF, 0, 5, 15]⟩ 0 2 = .ok ⟨15, INF⟩ := by decide +kernel
  rw [e1] at h1
  cases h1
  refine ⟨_, g', eg, e', e1, ?_⟩
  rw [h2]
  decide +kernel

end Chrono
