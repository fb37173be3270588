import Verif.Spec.Steps
import Verif.Props.Graph

/-!
# C155: plans made of steps
-/

set_option linter.unusedSimpArgs false

namespace Chrono
open Spec

/-- the date of an instant, when the delays are chosen -/
noncomputable def placed (origin : Nat → Nat) (ks : List Constr) (e : Nat → Int) : Nat → Nat → Int
  | 0, _ => 0
  | f + 1, m => open Classical in if ∃ k ∈ ks, k.dst = m then placed origin ks e f (origin m) + e m else 0

theorem placed_fuel {origin : Nat → Nat} {step : Nat → Iv} {rank : Nat → Nat} {ks : List Constr} (h : Forest origin step rank ks)
    (e : Nat → Int) : ∀ f f' m, rank m < f → rank m < f' → placed origin ks e f m = placed origin ks e f' m
  | 0, _, _, h1, _ => by omega
  | _ + 1, 0, _, _, h2 => by omega
  | f + 1, f' + 1, m, h1, h2 => by
    unfold placed
    split
    · rename_i c
      obtain ⟨k, hk, rfl⟩ := c
      have r := h.rises k hk
      rw [h.from_origin k hk] at r
      rw [placed_fuel h e f f' (origin k.dst) (by omega) (by omega)]
    · rfl

/-- any choice of the delays gives dates -/
theorem forest_dates {origin : Nat → Nat} {step : Nat → Iv} {rank : Nat → Nat} {ks : List Constr} (h : Forest origin step rank ks)
    (e : Nat → Int) : ∃ τ : Nat → Int, ∀ k ∈ ks, τ k.dst = τ k.src + e k.dst := by
  refine ⟨fun m => placed origin ks e (rank m + 1) m, fun k hk => ?_⟩
  have r := h.rises k hk
  show placed origin ks e (rank k.dst + 1) k.dst = placed origin ks e (rank k.src + 1) k.src + e k.dst
  rw [placed, if_pos ⟨k, hk, rfl⟩, ← h.from_origin k hk, placed_fuel h e (rank k.dst) (rank k.src + 1) k.src (by omega) (by omega)]

theorem inExt_some {s : Iv} (h : WF s) : ∃ e, InExt e s := by
  unfold InExt
  obtain ⟨h', -, -, -, -⟩ := h
  by_cases h1 : s.lower = -INF
  · by_cases h2 : s.upper = INF
    · exact ⟨0, Or.inl h1, Or.inl h2⟩
    · exact ⟨s.upper, Or.inl h1, Or.inr (by omega)⟩
  · exact ⟨s.lower, Or.inr (by omega), by omega⟩

theorem steps_rank {origin : Nat → Nat} {step : Nat → Iv} {rank : Nat → Nat} {ks : List Constr} (h : Forest origin step rank ks)
    {i j : Nat} {d : Int} (s : StepsTo origin step ks i j d) : rank i ≤ rank j := by
  induction s with
  | here => exact Nat.le_refl _
  | @next j d x s c hx ih =>
    obtain ⟨k, hk, rfl⟩ := c
    have r := h.rises k hk
    rw [h.from_origin k hk] at r
    omega

/-- steps which add up to `d` are choices of the delays, after which the instants are at the delay `d`: only the delays of
the instants between matter -/
theorem steps_choice {origin : Nat → Nat} {step : Nat → Iv} {rank : Nat → Nat} {ks : List Constr} (h : Forest origin step rank ks)
    {e0 : Nat → Int} (h0 : ∀ k ∈ ks, InExt (e0 k.dst) (step k.dst)) {i j : Nat} {d : Int} (s : StepsTo origin step ks i j d) :
    ∃ e : Nat → Int, (∀ k ∈ ks, InExt (e k.dst) (step k.dst)) ∧
      ∀ τ : Nat → Int, (∀ k ∈ ks, (∃ x, StepsTo origin step ks i k.dst x) → (∃ x, StepsTo origin step ks k.dst j x) →
        k.dst ≠ i → τ k.dst = τ k.src + e k.dst) → τ j - τ i = d := by
  induction s with
  | here => exact ⟨e0, h0, fun τ _ => by omega⟩
  | @next j d x s c hx ih =>
    obtain ⟨e, he, ht⟩ := ih
    obtain ⟨k, hk, rfl⟩ := c
    have r := h.rises k hk
    rw [h.from_origin k hk] at r
    refine ⟨fun m => if m = k.dst then x else e m, fun k' hk' => ?_, fun τ hτ => ?_⟩
    · by_cases c : k'.dst = k.dst
      · simp only [if_pos c]; rw [c]; exact hx
      · simp only [if_neg c]; exact he k' hk'
    · have a := hτ k hk ⟨_, s.next ⟨k, hk, rfl⟩ hx⟩ ⟨_, .here⟩ (by
        intro c
        have := steps_rank h s
        rw [← c] at this
        omega)
      simp only [if_pos rfl] at a
      rw [h.from_origin k hk] at a
      have b := ht τ (fun k' hk' h1 h2 h3 => by
        obtain ⟨y, h2⟩ := h2
        have r2 := steps_rank h h2
        have := hτ k' hk' h1 ⟨_, h2.next ⟨k, hk, rfl⟩ hx⟩ h3
        simp only [] at this
        rw [if_neg (by rintro c; rw [c] at r2; omega)] at this
        exact this)
      simp only [if_true] at a
      omega

theorem steps_of {origin : Nat → Nat} {step : Nat → Iv} {rank : Nat → Nat} {ks : List Constr} (h : Forest origin step rank ks)
    {i j : Nat} {d : Int} (s : StepsTo origin step ks i j d) {τ : Nat → Int} (hτ : ∀ k ∈ ks, Holds τ k) :
    StepsTo origin step ks i j (τ j - τ i) := by
  induction s with
  | here => rw [show τ i - τ i = 0 by omega]; exact .here
  | @next j d x s c hx ih =>
    obtain ⟨k, hk, rfl⟩ := c
    have a := (hτ k hk).2
    rw [h.delay k hk, h.from_origin k hk] at a
    have := StepsTo.next ih ⟨k, hk, rfl⟩ a
    rw [show τ (origin k.dst) - τ i + (τ k.dst - τ (origin k.dst)) = τ k.dst - τ i by omega] at this
    exact this

theorem forest_holds {origin : Nat → Nat} {step : Nat → Iv} {rank : Nat → Nat} {ks : List Constr} (h : Forest origin step rank ks)
    {e τ : Nat → Int} (he : ∀ k ∈ ks, InExt (e k.dst) (step k.dst)) (ht : ∀ k ∈ ks, τ k.dst = τ k.src + e k.dst) :
    ∀ k ∈ ks, Holds τ k := by
  intro k hk
  refine ⟨h.some k hk, ?_⟩
  rw [h.delay k hk, show τ k.dst - τ k.src = e k.dst by have := ht k hk; omega]
  exact he k hk

/-- such a plan is accepted whole, and its delays are those of the dates which satisfy it -/
theorem forest_built {n : Nat} (hn : n ≤ 65535) {W : Int} (hW : 0 ≤ W) (hB : 3 * (n : Int) * W < INF)
    {origin : Nat → Nat} {step : Nat → Iv} {rank : Nat → Nat} {ks : List Constr} (h : Forest origin step rank ks)
    (hks : ∀ k ∈ ks, Usable n W k) :
    (∃ e0 : Nat → Int, ∀ k ∈ ks, InExt (e0 k.dst) (step k.dst)) ∧
    ∃ g, (Graph.withSize n >>= fun g => propagateAll g ks) = .ok (g, ks) ∧ g.size = n ∧ Minimal g ∧
      ∀ i j, i < n → j < n → ∃ s, g.timespan i j = .ok s ∧
        ∀ d, InExt d s ↔ ∃ τ, (∀ k ∈ ks, Holds τ k) ∧ τ j - τ i = d := by
  have pick : ∀ m, ∃ x, ∀ k ∈ ks, k.dst = m → InExt x (step m) := by
    intro m
    by_cases c : ∃ k ∈ ks, k.dst = m
    · obtain ⟨k, hk, rfl⟩ := c
      obtain ⟨x, hx⟩ := inExt_some ((hks k hk).2.2 (h.some k hk)).1
      rw [h.delay k hk] at hx
      exact ⟨x, fun _ _ _ => hx⟩
    · exact ⟨0, fun k hk e => absurd ⟨k, hk, e⟩ c⟩
  obtain ⟨e0, h0⟩ := Classical.axiomOfChoice pick
  have h0 : ∀ k ∈ ks, InExt (e0 k.dst) (step k.dst) := fun k hk => h0 k.dst k hk rfl
  refine ⟨⟨e0, h0⟩, ?_⟩
  obtain ⟨g0, z0, n0, v0, -, m0⟩ := withSize_eq hn
  obtain ⟨g, acc, e1, s1, c1, -, -, a1, -, all⟩ := propagateAll_tight hW v0 (unconstrained_closed (by rw [n0]; exact m0))
    (unconstrained_tight (by rw [n0]; exact m0)) (by rw [n0]; exact hB) (by rw [n0]; exact hks)
  have un : ∀ τ, MSat g0.size (mat g0) τ := unconstrained_sat (by rw [n0]; exact m0)
  obtain ⟨τ0, t0⟩ := forest_dates h e0
  have ea := all ⟨τ0, un τ0, forest_holds h h0 t0⟩
  subst ea
  have sz := s1.size
  have hv := s1.valid v0
  have hmin := (minimal_iff hv).2 (by rw [sz]; exact c1)
  have hsat : ∀ τ, Sat τ g ↔ ∀ k ∈ acc, Holds τ k := by
    intro τ
    rw [sat_iff hv, sz, a1]
    exact ⟨fun h => h.2, fun h => ⟨un τ, h⟩⟩
  refine ⟨g, by rw [z0, ok_bind]; exact e1, by omega, hmin, fun i j hi hj => ?_⟩
  refine ⟨_, timespan_eq hv (i := i) (j := j) (by omega) (by omega), fun d => ⟨fun hd => ?_, ?_⟩⟩
  · obtain ⟨τ, t1, t2⟩ := hmin.2 i j (by omega) (by omega) _ (timespan_eq hv (by omega) (by omega)) d hd
    exact ⟨τ, (hsat τ).1 t1, t2⟩
  · rintro ⟨τ, t1, t2⟩
    obtain ⟨s, t3, t4⟩ := (hsat τ).2 t1 i j (by omega) (by omega)
    rw [timespan_eq hv (by omega) (by omega)] at t3
    cases t3
    rw [← t2]
    exact t4

/-- C155: a plan in which each instant is placed with respect to at most one other instant, without coming back, is
accepted whole, in whatever order it is given. Between two instants joined by steps, the delays announced are exactly the
sums of delays which the steps allow: nothing is lost, nothing is added. Between two instants placed from a same instant `c`,
by steps which have no other instant in common, they are exactly the differences of such sums. -/
theorem C155_steps {n : Nat} (hn : n ≤ 65535) {W : Int} (hW : 0 ≤ W) (hB : 3 * (n : Int) * W < INF)
    {origin : Nat → Nat} {step : Nat → Iv} {rank : Nat → Nat} {ks : List Constr} (h : Forest origin step rank ks)
    (hks : ∀ k ∈ ks, Usable n W k) :
    ∃ g, (Graph.withSize n >>= fun g => propagateAll g ks) = .ok (g, ks) ∧ g.size = n ∧ Minimal g ∧
      (∀ i j, i < n → j < n → (∃ d, StepsTo origin step ks i j d) → ∃ s, g.timespan i j = .ok s ∧
        ∀ d, InExt d s ↔ StepsTo origin step ks i j d) ∧
      ∀ c i j, i < n → j < n → (∃ a, StepsTo origin step ks c i a) → (∃ b, StepsTo origin step ks c j b) →
        (∀ m, (∃ x, StepsTo origin step ks m i x) → (∃ y, StepsTo origin step ks m j y) →
          (∃ z, StepsTo origin step ks c m z) → m = c) →
        ∃ s, g.timespan i j = .ok s ∧
          ∀ d, InExt d s ↔ ∃ a b, StepsTo origin step ks c i a ∧ StepsTo origin step ks c j b ∧ d = b - a := by
  obtain ⟨⟨e0, h0⟩, g, e1, sz, hmin, spans⟩ := forest_built hn hW hB h hks
  refine ⟨g, e1, sz, hmin, fun i j hi hj hs => ?_, fun c i j hi hj hci hcj hm => ?_⟩
  · obtain ⟨s, es, hd⟩ := spans i j hi hj
    refine ⟨s, es, fun d => (hd d).trans ⟨?_, fun hd => ?_⟩⟩
    · rintro ⟨τ, t1, t2⟩
      obtain ⟨d', hs⟩ := hs
      rw [← t2]
      exact steps_of h hs t1
    · obtain ⟨e, he, ht⟩ := steps_choice h h0 hd
      obtain ⟨τ, t⟩ := forest_dates h e
      exact ⟨τ, forest_holds h he t, ht τ (fun k hk _ _ _ => t k hk)⟩
  · obtain ⟨s, es, hd⟩ := spans i j hi hj
    refine ⟨s, es, fun d => (hd d).trans ⟨?_, ?_⟩⟩
    · rintro ⟨τ, t1, t2⟩
      obtain ⟨a', ha⟩ := hci
      obtain ⟨b', hb⟩ := hcj
      exact ⟨_, _, steps_of h ha t1, steps_of h hb t1, by omega⟩
    · rintro ⟨a, b, ha, hb, rfl⟩
      obtain ⟨e, he, ht⟩ := steps_choice h h0 ha
      obtain ⟨e', he', ht'⟩ := steps_choice h h0 hb
      obtain ⟨w, hw⟩ : ∃ w : Nat → Int, w = open Classical in fun m => if ∃ x, StepsTo origin step ks m i x then e m else e' m := ⟨_, rfl⟩
      obtain ⟨τ, t⟩ := forest_dates h w
      refine ⟨τ, forest_holds h (fun k hk => ?_) t, ?_⟩
      · rw [hw]
        simp only []
        split
        · exact he k hk
        · exact he' k hk
      · have p := ht τ (fun k hk _ h2 _ => by
          have := t k hk
          simp only [hw, if_pos h2] at this
          exact this)
        have q := ht' τ (fun k hk h1 h2 h3 => by
          have := t k hk
          simp only [hw, if_neg (fun x => h3 (hm k.dst x h2 h1))] at this
          exact this)
        omega

theorem sums_le {lo up : Nat → Int} {n : Nat} (fin : ∀ m, m + 1 < n → lo m ≤ up m ∧ lo m ≠ -INF ∧ up m ≠ INF) (i : Nat) : ∀ m, i + m < n →
    ((List.range m).map fun x => lo (i + x)).sum ≤ ((List.range m).map fun x => up (i + x)).sum
  | 0, _ => Int.le_refl _
  | m + 1, h => by
    have := sums_le fin i m (by omega)
    have := fin (i + m) (by omega)
    simp only [List.range_succ, List.map_append, List.map_cons, List.map_nil, List.sum_append, List.sum_cons, List.sum_nil]
    omega

theorem steps_le {step : Nat → Iv} {ks : List Constr} (pos : ∀ k ∈ ks, 0 < k.dst) {i j : Nat} {d : Int}
    (s : StepsTo (· - 1) step ks i j d) : i ≤ j ∧ (i = j → d = 0) := by
  induction s with
  | here => exact ⟨Nat.le_refl _, fun _ => rfl⟩
  | @next j d x s c hx ih =>
    obtain ⟨k, hk, rfl⟩ := c
    have := pos k hk
    have := ih.1
    exact ⟨by omega, fun h => by omega⟩

theorem steps_sum {lo up : Nat → Int} {n : Nat} {ks : List Constr}
    (fin : ∀ m, m + 1 < n → lo m ≤ up m ∧ lo m ≠ -INF ∧ up m ≠ INF) (pos : ∀ k ∈ ks, 0 < k.dst)
    (all : ∀ m, m + 1 < n → ∃ k ∈ ks, k.dst = m + 1) (i : Nat) : ∀ m d, i + m < n →
    (StepsTo (· - 1) (fun j => ⟨lo (j - 1), up (j - 1)⟩) ks i (i + m) d ↔
      ((List.range m).map fun x => lo (i + x)).sum ≤ d ∧ d ≤ ((List.range m).map fun x => up (i + x)).sum)
  | 0, d, _ => by
    simp only [List.range_zero, List.map_nil, List.sum_nil, Nat.add_zero]
    constructor
    · intro h
      have := (steps_le pos h).2 rfl
      omega
    · intro h
      rw [show d = 0 by omega]
      exact .here
  | m + 1, d, hm => by
    have ih := steps_sum fin pos all i m
    obtain ⟨f1, f2, f3⟩ := fin (i + m) (by omega)
    simp only [List.range_succ, List.map_append, List.map_cons, List.map_nil, List.sum_append, List.sum_cons, List.sum_nil]
    constructor
    · intro h
      generalize hj : i + (m + 1) = j at h
      cases h with
      | here => omega
      | @next _ d e s c he =>
        simp only [show j - 1 = i + m by omega, InExt] at s he
        have := (ih d (by omega)).1 s
        omega
    · intro h
      have key : ∃ e, (lo (i + m) ≤ e ∧ e ≤ up (i + m)) ∧ ((List.range m).map fun x => lo (i + x)).sum ≤ d - e ∧
          d - e ≤ ((List.range m).map fun x => up (i + x)).sum := by
        have := sums_le fin i m (by omega)
        by_cases c : ((List.range m).map fun x => up (i + x)).sum ≤ d - lo (i + m)
        · exact ⟨d - ((List.range m).map fun x => up (i + x)).sum, by omega, by omega, by omega⟩
        · exact ⟨lo (i + m), by omega, by omega, by omega⟩
      obtain ⟨e, he, hd⟩ := key
      have := StepsTo.next (origin := (· - 1)) (step := fun j => (⟨lo (j - 1), up (j - 1)⟩ : Iv)) (j := i + (m + 1)) (e := e)
        ((ih (d - e) (by omega)).2 hd) (all (i + m) (by omega))
        (by simp only [show i + (m + 1) - 1 = i + m by omega, InExt]; omega)
      rw [show d - e + e = d by omega] at this
      exact this

/-- an interval is known by the delays it allows, when they are bounded -/
theorem inExt_bounds {s : Iv} {a b : Int} (hab : a ≤ b) (h : ∀ d, InExt d s ↔ a ≤ d ∧ d ≤ b) : s = ⟨a, b⟩ := by
  obtain ⟨l, u⟩ := s
  simp only [InExt] at h
  have h1 := (h a).2 (by omega)
  have h2 := (h b).2 (by omega)
  have l1 : l = a := by
    have x := h (a - 1)
    have y := h l
    by_cases c : l = -INF
    · have := x.1 ⟨Or.inl c, by omega⟩; omega
    · have := y.1 ⟨by omega, by omega⟩; omega
  have u1 : u = b := by
    have x := h (b + 1)
    have y := h u
    by_cases c : u = INF
    · have := x.1 ⟨by omega, Or.inl c⟩; omega
    · have := y.1 ⟨by omega, by omega⟩; omega
  rw [l1, u1]

/-- C155: a chain of steps from each instant to the next one, of at least `lo m` and at most `up m` ticks from the instant
`m`, given in any order, possibly repeated, is accepted whole, and the delay announced from an instant to a later
one is from the sum of the least delays of the steps between to the sum of the greatest ones. -/
theorem C155_chain {n : Nat} (hn : n ≤ 65535) {W : Int} (hW : 0 ≤ W) (hB : 3 * (n : Int) * W < INF)
    {lo up : Nat → Int} {ks : List Constr} (hks : ∀ k ∈ ks, Usable n W k)
    (fin : ∀ m, m + 1 < n → lo m ≤ up m ∧ lo m ≠ -INF ∧ up m ≠ INF)
    (steps : ∀ k ∈ ks, k = ⟨k.src, k.src + 1, false, lo k.src, up k.src⟩) (all : ∀ m, m + 1 < n → ∃ k ∈ ks, k.src = m) :
    ∃ g, (Graph.withSize n >>= fun g => propagateAll g ks) = .ok (g, ks) ∧ g.size = n ∧ Minimal g ∧
      ∀ i m, i + m < n → g.timespan i (i + m) =
        .ok ⟨((List.range m).map fun x => lo (i + x)).sum, ((List.range m).map fun x => up (i + x)).sum⟩ := by
  have hd : ∀ k ∈ ks, k.dst = k.src + 1 := fun k hk => by rw [steps k hk]
  have hf : Forest (· - 1) (fun j => ⟨lo (j - 1), up (j - 1)⟩) (fun m => m) ks := by
    refine ⟨fun k hk => by rw [steps k hk], fun k hk => ?_, fun k hk => ?_, fun k hk => ?_⟩
    · have := hd k hk
      show k.src = k.dst - 1
      omega
    · have := hd k hk
      show (⟨k.lower, k.upper⟩ : Iv) = ⟨lo (k.dst - 1), up (k.dst - 1)⟩
      rw [show k.dst - 1 = k.src by omega]
      conv => lhs; rw [steps k hk]
    · have := hd k hk
      show k.src < k.dst
      omega
  have pos : ∀ k ∈ ks, 0 < k.dst := fun k hk => by rw [hd k hk]; omega
  have all' : ∀ m, m + 1 < n → ∃ k ∈ ks, k.dst = m + 1 := fun m hm => by
    obtain ⟨k, hk, e⟩ := all m hm
    exact ⟨k, hk, by rw [hd k hk, e]⟩
  obtain ⟨g, e, sz, hm, hs, -⟩ := C155_steps hn hW hB hf hks
  refine ⟨g, e, sz, hm, fun i m him => ?_⟩
  have le := sums_le fin i m him
  obtain ⟨s, es, hs⟩ := hs i (i + m) (by omega) him ⟨_, (steps_sum fin pos all' i m _ him).2 ⟨Int.le_refl _, le⟩⟩
  rw [es, inExt_bounds le fun d => (hs d).trans (steps_sum fin pos all' i m d him)]

/-! ## The hypotheses are met: two branches from the instant 0, given in an order which is not that of the steps -/

/-- the steps `1 → 2`, `0 → 1` and `0 → 3` -/
def branches : List Constr := [⟨1, 2, false, 5, INF⟩, ⟨0, 1, false, 10, 20⟩, ⟨0, 3, false, -4, 7⟩]

/-- the origins of the instants of `branches` -/
def branchOf (m : Nat) : Nat := if m = 2 then 1 else 0

/-- the steps of the instants of `branches` -/
def branchStep (m : Nat) : Iv := if m = 2 then ⟨5, INF⟩ else if m = 1 then ⟨10, 20⟩ else ⟨-4, 7⟩

theorem branches_forest : Forest branchOf branchStep (fun m => m) branches := by
  constructor <;> decide

example : (4 : Nat) ≤ 65535 ∧ 3 * ((4 : Nat) : Int) * 20 < INF ∧ (∀ k ∈ branches, Usable 4 20 k) ∧
    StepsTo branchOf branchStep branches 0 2 33 ∧ StepsTo branchOf branchStep branches 0 3 (-1) := by
  refine ⟨by decide, by decide, ?_, ?_, ?_⟩
  · decide
  · show StepsTo branchOf branchStep branches 0 2 (0 + 12 + 21)
    exact .next (d := 0 + 12) (e := 21) (.next (d := 0) (e := 12) .here ⟨_, .tail _ (.head _), rfl⟩ (by decide))
      ⟨_, .head _, rfl⟩ (by decide)
  · show StepsTo branchOf branchStep branches 0 3 (0 + -1)
    exact .next (j := 3) (d := 0) (e := -1) .here ⟨_, .tail _ (.tail _ (.head _)), rfl⟩ (by decide)

/-- the steps to 3 and those to 2 have only the instant 0 in common -/
example : ∀ m, (∃ x, StepsTo branchOf branchStep branches m 3 x) → (∃ y, StepsTo branchOf branchStep branches m 2 y) →
    (∃ z, StepsTo branchOf branchStep branches 0 m z) → m = 0 := by
  rintro m ⟨x, hx⟩ ⟨y, hy⟩ -
  generalize hj : (3 : Nat) = j at hx
  cases hx with
  | here =>
    subst hj
    have := steps_rank branches_forest hy
    omega
  | next s c _ =>
    subst hj
    have := steps_rank branches_forest s
    rw [show branchOf 3 = 0 by decide] at this
    omega

example : (Graph.withSize 4 >>= fun g => do (← propagateAll g branches).1.timespan 3 2) = .ok ⟨8, INF⟩ := by decide

example : let ks : List Constr := [⟨1, 2, false, 5, 6⟩, ⟨0, 1, false, 10, 20⟩, ⟨1, 2, false, 5, 6⟩]
    let lo := fun m : Nat => if m = 0 then (10 : Int) else 5
    let up := fun m : Nat => if m = 0 then (20 : Int) else 6
    (∀ k ∈ ks, Usable 3 20 k ∧ k = ⟨k.src, k.src + 1, false, lo k.src, up k.src⟩) ∧
    ((List.range 2).map fun x => lo (0 + x)).sum = 15 ∧ ((List.range 2).map fun x => up (0 + x)).sum = 26 := by
  decide

end Chrono
