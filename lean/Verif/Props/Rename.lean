import Verif.Spec.Rename
import Verif.Props.GraphBatch

/-!
# C121: names of instants, directions of constraints and the direction of time do not matter
-/

namespace Chrono
open Spec

/-- a change of variables: `f` changes the constraints on the instants `0..n-1`, the `φ c` and `ψ` the assignments -/
structure Change {ι : Type} (n : Nat) (W W' : Int) (f : Constr → Constr) (φ : ι → (Nat → Int) → Nat → Int)
    (ψ : (Nat → Int) → Nat → Int) : Prop where
  some : Nonempty ι
  to : ∀ k, k.src < n → k.dst < n → (k.isEmpty = false → WithinK W k) → ∀ τ, Holds τ (f k) ↔ ∀ c, Holds (φ c τ) k
  back : ∀ k, k.src < n → k.dst < n → (k.isEmpty = false → WithinK W k) → ∀ τ, Holds τ k ↔ Holds (ψ τ) (f k)
  usable : ∀ k, Usable n W k → Usable n W' (f k)
  batchable : ∀ k, Batchable n W k → Batchable n W' (f k)

/-- two closed matrices with the same solutions up to the change of variables -/
structure Alike {ι : Type} (n : Nat) (φ : ι → (Nat → Int) → Nat → Int) (ψ : (Nat → Int) → Nat → Int) (M M' : Mat) : Prop where
  closed : Closed n M
  closed' : Closed n M'
  to : ∀ τ, MSat n M' τ ↔ ∀ c, MSat n M (φ c τ)
  back : ∀ τ, MSat n M τ ↔ MSat n M' (ψ τ)

theorem outcome_eq {o o' : Outcome} (n : o ≠ .fatal) (n' : o' ≠ .fatal) (r : o = .recovered ↔ o' = .recovered)
    (u : o = .unchanged ↔ o' = .unchanged) : o = o' := by
  cases o <;> cases o' <;> first | rfl | (exfalso; simp at *)

theorem answers_alike {ι : Type} {n : Nat} {f : Constr → Constr} {φ : ι → (Nat → Int) → Nat → Int} {ψ : (Nat → Int) → Nat → Int} {W W' : Int}
    (c : Change n W W' f φ ψ) (hW : 0 ≤ W) (hW' : 0 ≤ W') (hB : 3 * (n : Int) * W < INF) (hB' : 3 * (n : Int) * W' < INF) : ∀ {ks : List Constr} {g g' : Graph}, Valid g → Valid g' → g.size = n → g'.size = n →
    Alike n φ ψ (mat g) (mat g') → Tight W n (mat g) → Tight W' n (mat g') → (∀ k ∈ ks, Usable n W k) →
    ∃ h h' os, answers g ks = .ok (h, os) ∧ answers g' (ks.map f) = .ok (h', os) ∧ Valid h ∧ Valid h' ∧ h.size = n ∧ h'.size = n ∧
      Alike n φ ψ (mat h) (mat h') ∧ Tight W n (mat h)
  | [], g, g', v, v', s, s', a, t, _, _ => ⟨g, g', [], rfl, rfl, v, v', s, s', a, t⟩
  | k :: ks, g, g', v, v', s, s', a, t, t', hk => by
    subst s
    have uk := hk k (by simp)
    obtain ⟨g1, o, e1, s1, c1, t1, -, nf, r1, a1, u1⟩ := propagate_tight v hW a.closed t hB uk
    obtain ⟨g2, o', e2, s2, c2, t2, -, nf', r2, a2, u2⟩ := propagate_tight v' hW' (by rw [s']; exact a.closed') (by rw [s']; exact t')
      (by rw [s']; exact hB') (by rw [s']; exact c.usable k uk)
    rw [s'] at c2 t2 r2 a2 u2
    have hto := c.to k uk.1 uk.2.1 fun h => (uk.2.2 h).2
    have hback := c.back k uk.1 uk.2.1 fun h => (uk.2.2 h).2
    obtain ⟨c0⟩ := c.some
    have rec1 : o = .recovered ↔ ∀ τ, MSat g.size (mat g) τ → ¬ Holds τ k := by
      refine ⟨fun h => (r1 h).2, fun h => Classical.byContradiction fun hn => ?_⟩
      obtain ⟨τ, ht⟩ := c1.sat
      obtain ⟨x, y⟩ := (a1 hn τ).1 ht
      exact h τ x y
    have rec2 : o' = .recovered ↔ ∀ τ, MSat g.size (mat g') τ → ¬ Holds τ (f k) := by
      refine ⟨fun h => (r2 h).2, fun h => Classical.byContradiction fun hn => ?_⟩
      obtain ⟨τ, ht⟩ := c2.sat
      obtain ⟨x, y⟩ := (a2 hn τ).1 ht
      exact h τ x y
    have rr : o = .recovered ↔ o' = .recovered := by
      rw [rec1, rec2]
      exact ⟨fun h τ x y => h (φ c0 τ) ((a.to τ).1 x c0) ((hto τ).1 y c0), fun h τ x y => h (ψ τ) ((a.back τ).1 x) ((hback τ).1 y)⟩
    have uu : o = .unchanged ↔ o' = .unchanged := by
      rw [u1, u2]
      exact ⟨fun h τ x => (hto τ).2 fun c => h (φ c τ) ((a.to τ).1 x c), fun h τ x => (hback τ).2 (h (ψ τ) ((a.back τ).1 x))⟩
    have eo := outcome_eq nf nf' rr uu
    subst eo
    have al : Alike g.size φ ψ (mat g1) (mat g2) := by
      refine ⟨c1, c2, fun τ => ?_, fun τ => ?_⟩
      · by_cases hr : o = .recovered
        · obtain ⟨rfl, -⟩ := r1 hr
          obtain ⟨rfl, -⟩ := r2 hr
          exact a.to τ
        · rw [a2 hr, a.to, hto, ← forall_and]
          exact forall_congr' fun c => (a1 hr _).symm
      · by_cases hr : o = .recovered
        · obtain ⟨rfl, -⟩ := r1 hr
          obtain ⟨rfl, -⟩ := r2 hr
          exact a.back τ
        · rw [a1 hr, a2 hr, a.back, hback]
    obtain ⟨h, h', os, x1, x2, x3⟩ := answers_alike c hW hW' hB hB' (ks := ks) (s1.valid v) (s2.valid v') s1.size (s2.size.trans s') al t1 t2
      (fun k' hk' => hk k' (by simp [hk']))
    refine ⟨h, h', o :: os, ?_, ?_, x3⟩
    · unfold answers; rw [e1, ok_bind]; simp only; rw [x1, ok_bind]; rfl
    · rw [List.map_cons]; unfold answers; rw [e2, ok_bind]; simp only; rw [x2, ok_bind]; rfl

theorem new_alike {ι : Type} {n : Nat} {φ : ι → (Nat → Int) → Nat → Int} {ψ : (Nat → Int) → Nat → Int} {M : Mat} (m : ∀ a b, a < n → b < n → M a b = if a = b then 0 else -INF) :
    Alike n φ ψ M M :=
  ⟨unconstrained_closed m, unconstrained_closed m, fun τ => ⟨fun _ _ => unconstrained_sat m _, fun _ => unconstrained_sat m _⟩,
    fun τ => ⟨fun _ => unconstrained_sat m _, fun _ => unconstrained_sat m _⟩⟩

theorem history_alike {ι : Type} {n : Nat} (hn : n ≤ 65535) {f : Constr → Constr} {φ : ι → (Nat → Int) → Nat → Int}
    {ψ : (Nat → Int) → Nat → Int} {W W' : Int} (c : Change n W W' f φ ψ) (hW : 0 ≤ W) (hW' : 0 ≤ W') (hB : 3 * (n : Int) * W < INF)
    (hB' : 3 * (n : Int) * W' < INF) {ks : List Constr} (hk : ∀ k ∈ ks, Usable n W k) :
    ∃ h h' os, (Graph.withSize n >>= fun g => answers g ks) = .ok (h, os) ∧
      (Graph.withSize n >>= fun g => answers g (ks.map f)) = .ok (h', os) ∧ Valid h ∧ Valid h' ∧ h.size = n ∧ h'.size = n ∧
      Alike n φ ψ (mat h) (mat h') ∧ Tight W n (mat h) := by
  obtain ⟨g0, e0, n0, v0, -, m0⟩ := withSize_eq hn
  rw [e0]
  simp only [ok_bind]
  exact answers_alike c hW hW' hB hB' v0 v0 n0 n0 (new_alike m0) (unconstrained_tight m0) (unconstrained_tight m0) hk

theorem batch_alike {ι : Type} {n : Nat} (hn0 : 0 < n) (hn : n ≤ 65535) {f : Constr → Constr} {φ : ι → (Nat → Int) → Nat → Int}
    {ψ : (Nat → Int) → Nat → Int} {W W' : Int} (c : Change n W W' f φ ψ) (hW : 0 ≤ W) (hW' : 0 ≤ W') (hB : 3 * (n : Int) * W < INF)
    (hB' : 3 * (n : Int) * W' < INF) {ks : List Constr} (hk : ∀ k ∈ ks, Batchable n W k) {hint : Option Nat}
    (h0 : hint ≠ some 0) (h1 : hint ≠ some 1) :
    ∃ h h' o, (Graph.withSize n >>= fun g => g.extend hint ks) = .ok (h, o) ∧
      (Graph.withSize n >>= fun g => g.extend hint (ks.map f)) = .ok (h', o) ∧
      ((o = .fatal ∧ h.size = 0 ∧ h'.size = 0) ∨
        (o = .propagated ∧ Valid h ∧ Valid h' ∧ h.size = n ∧ h'.size = n ∧ Alike n φ ψ (mat h) (mat h') ∧ Tight W n (mat h))) := by
  obtain ⟨g0, e0, n0, v0, cl0, m0⟩ := withSize_eq hn
  rw [e0]
  simp only [ok_bind]
  have z0 : ∀ i, i < g0.size → mat g0 i i = 0 := fun i hi => by rw [m0 i i (by omega) (by omega), if_pos rfl]
  have sm : ∀ {W : Int}, 0 ≤ W → SmallMat W g0.size (mat g0) := fun hW i hi j hj => by
    rw [m0 i j (by omega) (by omega)]
    unfold Small
    split
    · right; omega
    · left; rfl
  have hk' : ∀ k ∈ ks.map f, Batchable n W' k := by
    intro k' h
    obtain ⟨k, hk1, rfl⟩ := List.mem_map.1 h
    exact c.batchable k (hk k hk1)
  have uncon : ∀ τ, MSat g0.size (mat g0) τ := fun τ => unconstrained_sat (by rw [n0]; exact m0) τ
  obtain ⟨c0⟩ := c.some
  have all : ∀ τ, (∀ k ∈ ks.map f, Holds τ k) ↔ ∀ c, ∀ k ∈ ks, Holds (φ c τ) k := by
    intro τ
    constructor
    · intro h x k hk1
      exact (c.to k (hk k hk1).1 (hk k hk1).2.1 (fun _ => (hk k hk1).2.2.1) τ).1 (h _ (List.mem_map_of_mem hk1)) x
    · intro h k' hk2
      obtain ⟨k, hk1, rfl⟩ := List.mem_map.1 hk2
      exact (c.to k (hk k hk1).1 (hk k hk1).2.1 (fun _ => (hk k hk1).2.2.1) τ).2 fun x => h x k hk1
  have all' : ∀ τ, (∀ k ∈ ks, Holds τ k) ↔ ∀ k ∈ ks.map f, Holds (ψ τ) k := by
    intro τ
    constructor
    · intro h k' hk2
      obtain ⟨k, hk1, rfl⟩ := List.mem_map.1 hk2
      exact (c.back k (hk k hk1).1 (hk k hk1).2.1 (fun _ => (hk k hk1).2.2.1) τ).1 (h k hk1)
    · intro h k hk1
      exact (c.back k (hk k hk1).1 (hk k hk1).2.1 (fun _ => (hk k hk1).2.2.1) τ).2 (h _ (List.mem_map_of_mem hk1))
  have nd : ∀ {W : Int} {l : List Constr}, (∀ k ∈ l, Batchable n W k) → max g0.size (needed l) = n := by
    intro W l hl
    have := needed_le (n := n) (ks := l) (fun k hk => ⟨(hl k hk).1, (hl k hk).2.1⟩)
    omega
  rcases extend_spec v0 cl0 z0 hW (sm hW) hn0 (by omega) hn hB hk h0 h1 with ⟨g1, e, sz, v, -, C, T, s⟩ | ⟨g1, e, sz, s⟩ <;>
  rcases extend_spec v0 cl0 z0 hW' (sm hW') hn0 (by omega) hn hB' hk' h0 h1 with ⟨g2, e', sz', v', -, C', -, s'⟩ | ⟨g2, e', sz', s'⟩
  · rw [nd hk] at sz
    rw [nd hk'] at sz'
    rw [sz] at C s T
    rw [sz'] at C' s'
    refine ⟨g1, g2, _, e, e', Or.inr ⟨rfl, v, v', sz, sz', ⟨C, C', fun τ => ?_, fun τ => ?_⟩, T⟩⟩
    · rw [s', all]
      exact ⟨fun h x => (s _).2 ⟨uncon _, h.2 x⟩, fun h => ⟨uncon _, fun x => ((s _).1 (h x)).2⟩⟩
    · rw [s', s, all']
      exact ⟨fun h => ⟨uncon _, h.2⟩, fun h => ⟨uncon _, h.2⟩⟩
  · obtain ⟨τ, t⟩ := C.sat
    rw [s, all'] at t
    exact absurd ⟨uncon _, t.2⟩ (s' _)
  · obtain ⟨τ, t⟩ := C'.sat
    rw [s', all] at t
    exact absurd ⟨uncon _, t.2 c0⟩ (s _)
  · exact ⟨g1, g2, _, e, e', Or.inl ⟨rfl, sz, sz'⟩⟩

/-! ## The three changes -/

theorem rename_change {n : Nat} {W : Int} {σ ρ : Nat → Nat} (h : Renaming n σ ρ) :
    Change n W W (renamed σ) (fun (_ : Unit) τ i => τ (σ i)) (fun τ i => τ (ρ i)) where
  some := ⟨()⟩
  to _ _ _ _ _ := ⟨fun h _ => h, fun h => h ()⟩
  back k h1 h2 _ τ := by
    unfold Holds renamed
    simp only
    rw [(h _ h1).2.2.1, (h _ h2).2.2.1]
  usable k hk := ⟨(h _ hk.1).1, (h _ hk.2.1).1, hk.2.2⟩
  batchable k hk := ⟨(h _ hk.1).1, (h _ hk.2.1).1, hk.2.2⟩

theorem withinK_opposite {W l u : Int} {a b c d : Nat} {e e' : Bool} (h : WithinK W ⟨a, b, e, l, u⟩) :
    WithinK W ⟨c, d, e', -u, -l⟩ := by
  obtain ⟨h1, h2⟩ := h
  simp only at h1 h2
  constructor
  · rcases h2 with h2 | h2
    · left; simp only; omega
    · right; simp only; omega
  · rcases h1 with h1 | h1
    · left; simp only; omega
    · right; simp only; omega

theorem wf_opposite {l u : Int} (h : WF ⟨l, u⟩) : WF ⟨-u, -l⟩ := by
  obtain ⟨h1, h2, h3, h4, h5⟩ := h
  simp only at h1 h2 h3 h4 h5
  constructor <;> simp only <;> omega

theorem inExt_opposite {d l u : Int} : InExt (-d) ⟨-u, -l⟩ ↔ InExt d ⟨l, u⟩ := by
  unfold InExt
  simp only
  omega

theorem mirror_change {n : Nat} {W : Int} : Change n W W mirrored (fun (_ : Unit) τ i => - τ i) (fun τ i => - τ i) where
  some := ⟨()⟩
  to k _ _ _ τ := by
    unfold Holds mirrored
    simp only [forall_const]
    rw [← inExt_opposite (l := k.lower)]
    have : -(- τ k.dst - - τ k.src) = τ k.dst - τ k.src := by omega
    rw [this]
  back k _ _ _ τ := by
    unfold Holds mirrored
    simp only
    rw [← inExt_opposite (l := k.lower)]
    have : -(τ k.dst - τ k.src) = - τ k.dst - - τ k.src := by omega
    rw [this]
  usable k hk := ⟨hk.1, hk.2.1, fun h => ⟨wf_opposite (hk.2.2 h).1, withinK_opposite (hk.2.2 h).2⟩⟩
  batchable k hk := ⟨hk.1, hk.2.1, withinK_opposite hk.2.2.1, fun h => by
    have := hk.2.2.2 h
    show -k.lower < -k.upper
    omega⟩

theorem flip_change {n : Nat} {W : Int} : Change n W W flipped (fun (_ : Unit) => id) id where
  some := ⟨()⟩
  to k _ _ _ τ := by
    unfold Holds flipped
    simp only [id, forall_const]
    rw [← inExt_opposite (l := k.lower)]
    have : -(τ k.dst - τ k.src) = τ k.src - τ k.dst := by omega
    rw [this]
  back k _ _ _ τ := by
    unfold Holds flipped
    simp only [id]
    rw [← inExt_opposite (l := k.lower)]
    have : -(τ k.dst - τ k.src) = τ k.src - τ k.dst := by omega
    rw [this]
  usable k hk := ⟨hk.2.1, hk.1, fun h => ⟨wf_opposite (hk.2.2 h).1, withinK_opposite (hk.2.2 h).2⟩⟩
  batchable k hk := ⟨hk.2.1, hk.1, withinK_opposite hk.2.2.1, fun h => by
    have := hk.2.2.2 h
    show -k.lower < -k.upper
    omega⟩

theorem rename_span {n : Nat} {σ ρ : Nat → Nat} (r : Renaming n σ ρ) {h h' : Graph} (v : Valid h) (v' : Valid h') (s : h.size = n)
    (s' : h'.size = n) (a : Alike n (fun (_ : Unit) τ i => τ (σ i)) (fun τ i => τ (ρ i)) (mat h) (mat h')) {i j : Nat} (hi : i < n) (hj : j < n) :
    h'.timespan (σ i) (σ j) = h.timespan i j := by
  have hC : Closed n (fun a b => mat h' (σ a) (σ b)) :=
    ⟨fun x hx => a.closed'.diag _ (r x hx).1, fun x hx y hy z hz => a.closed'.tri _ (r x hx).1 _ (r y hy).1 _ (r z hz).1⟩
  have hS : ∀ τ, MSat n (mat h) τ ↔ MSat n (fun a b => mat h' (σ a) (σ b)) τ := by
    intro τ
    rw [a.back]
    constructor
    · intro m x hx y hy
      have := m (σ x) (r x hx).1 (σ y) (r y hy).1
      simp only [(r x hx).2.2.1, (r y hy).2.2.1] at this
      exact this
    · intro m x hx y hy
      have := m (ρ x) (r x hx).2.1 (ρ y) (r y hy).2.1
      simp only [(r x hx).2.2.2, (r y hy).2.2.2] at this
      exact this
  rw [timespan_eq v' (by rw [s']; exact (r i hi).1) (by rw [s']; exact (r j hj).1), timespan_eq v (by omega) (by omega)]
  rw [a.closed.unique hC hS hi hj, a.closed.unique hC hS hj hi]

theorem mirror_span {n : Nat} {h h' : Graph} (v : Valid h) (v' : Valid h') (s : h.size = n) (s' : h'.size = n)
    (a : Alike n (fun (_ : Unit) τ i => - τ i) (fun τ i => - τ i) (mat h) (mat h')) {i j : Nat} (hi : i < n) (hj : j < n) :
    h'.timespan i j = h.timespan j i := by
  have hC : Closed n (fun x y => mat h' y x) :=
    ⟨fun x hx => a.closed'.diag x hx, fun x hx y hy z hz h1 h2 => by
      have := a.closed'.tri z hz y hy x hx h2 h1
      exact ⟨this.1, by omega⟩⟩
  have hS : ∀ τ, MSat n (mat h) τ ↔ MSat n (fun x y => mat h' y x) τ := by
    intro τ
    rw [a.back]
    constructor
    · intro m x hx y hy
      rcases m y hy x hx with e | e
      · exact Or.inl e
      · right; simp only at e ⊢; omega
    · intro m x hx y hy
      rcases m y hy x hx with e | e
      · exact Or.inl e
      · right; simp only at e ⊢; omega
  rw [timespan_eq v' (by omega) (by omega), timespan_eq v (by omega) (by omega)]
  rw [a.closed.unique hC hS hj hi, a.closed.unique hC hS hi hj]

theorem flip_same {n : Nat} {h h' : Graph} (v : Valid h) (v' : Valid h') (s : h.size = n) (s' : h'.size = n)
    (a : Alike n (fun (_ : Unit) => id) id (mat h) (mat h')) : SameGraph h h' :=
  same_of_sat v v' (by omega) (by rw [s]; exact a.closed) (by rw [s']; exact a.closed') (by rw [s, s']; exact a.back)

/-- C121. Other names for the instants: whatever is accepted or rejected, each call of the renamed history gives the same answer, and the
graph announces the same delays under the new names. -/
theorem C121_rename {n : Nat} (hn : n ≤ 65535) {σ ρ : Nat → Nat} (r : Renaming n σ ρ) {W : Int} (hW : 0 ≤ W)
    (hB : 3 * (n : Int) * W < INF) {ks : List Constr} (hk : ∀ k ∈ ks, Usable n W k) :
    ∃ g g' os, (Graph.withSize n >>= fun g => answers g ks) = .ok (g, os) ∧
      (Graph.withSize n >>= fun g => answers g (ks.map (renamed σ))) = .ok (g', os) ∧ g.size = n ∧ g'.size = n ∧
      ∀ i j, i < n → j < n → g'.timespan (σ i) (σ j) = g.timespan i j := by
  obtain ⟨h, h', os, e, e', v, v', s, s', a, -⟩ := history_alike hn (rename_change r) hW hW hB hB hk
  exact ⟨h, h', os, e, e', s, s', fun i j hi hj => rename_span r v v' s s' a hi hj⟩

/-- C121. Time seen in a mirror: if each constraint is replaced by the one which asks the opposite delays, each call gives the same answer,
and the delay from one instant to another is announced as it was from the other to the one, that is, with the opposite sign. -/
theorem C121_mirror {n : Nat} (hn : n ≤ 65535) {W : Int} (hW : 0 ≤ W) (hB : 3 * (n : Int) * W < INF) {ks : List Constr}
    (hk : ∀ k ∈ ks, Usable n W k) :
    ∃ g g' os, (Graph.withSize n >>= fun g => answers g ks) = .ok (g, os) ∧
      (Graph.withSize n >>= fun g => answers g (ks.map mirrored)) = .ok (g', os) ∧ g.size = n ∧ g'.size = n ∧
      ∀ i j, i < n → j < n → g'.timespan i j = g.timespan j i ∧
        ∃ l u, g.timespan i j = .ok ⟨l, u⟩ ∧ g'.timespan i j = .ok ⟨-u, -l⟩ := by
  obtain ⟨h, h', os, e, e', v, v', s, s', a, -⟩ := history_alike hn mirror_change hW hW hB hB hk
  refine ⟨h, h', os, e, e', s, s', fun i j hi hj => ⟨mirror_span v v' s s' a hi hj, mat h i j, -mat h j i, timespan_eq v (by omega) (by omega), ?_⟩⟩
  rw [mirror_span v v' s s' a hi hj, timespan_eq v (by omega) (by omega), Int.neg_neg]

/-- C121. It does not matter in which direction a constraint is given: if some constraints (those for which `p` answers `true`) are given
from their target to their source, each call gives the same answer, and the graph is the same. -/
theorem C121_direction {n : Nat} (hn : n ≤ 65535) {W : Int} (hW : 0 ≤ W) (hB : 3 * (n : Int) * W < INF) {ks : List Constr}
    (hk : ∀ k ∈ ks, Usable n W k) (p : Constr → Bool) :
    ∃ g g' os, (Graph.withSize n >>= fun g => answers g ks) = .ok (g, os) ∧
      (Graph.withSize n >>= fun g => answers g (ks.map fun k => if p k then flipped k else k)) = .ok (g', os) ∧ SameGraph g g' := by
  have c : Change n W W (fun k => if p k then flipped k else k) (fun (_ : Unit) => id) id := by
    have f := flip_change (n := n) (W := W)
    constructor
    · exact ⟨()⟩
    · intro k h1 h2 hw τ
      split
      · exact f.to k h1 h2 hw τ
      · exact ⟨fun h _ => h, fun h => h ()⟩
    · intro k h1 h2 hw τ
      split
      · exact f.back k h1 h2 hw τ
      · exact Iff.rfl
    · intro k h
      split
      · exact f.usable k h
      · exact h
    · intro k h
      split
      · exact f.batchable k h
      · exact h
  obtain ⟨h, h', os, e, e', v, v', s, s', a, -⟩ := history_alike hn c hW hW hB hB hk
  exact ⟨h, h', os, e, e', flip_same v v' s s' a⟩

/-- C121 for batches: the same answer, and when the batch is accepted, the same delays under the new names, the opposite delays in the
mirror, and the same graph when the constraints are given from their targets to their sources. -/
theorem C121_batch {n : Nat} (hn0 : 0 < n) (hn : n ≤ 65535) {σ ρ : Nat → Nat} (r : Renaming n σ ρ) {W : Int} (hW : 0 ≤ W)
    (hB : 3 * (n : Int) * W < INF) {ks : List Constr} (hk : ∀ k ∈ ks, Batchable n W k) {hint : Option Nat} (h0 : hint ≠ some 0)
    (h1 : hint ≠ some 1) :
    ∃ g g1 g2 g3 o, (Graph.withSize n >>= fun g => g.extend hint ks) = .ok (g, o) ∧
      (Graph.withSize n >>= fun g => g.extend hint (ks.map (renamed σ))) = .ok (g1, o) ∧
      (Graph.withSize n >>= fun g => g.extend hint (ks.map mirrored)) = .ok (g2, o) ∧
      (Graph.withSize n >>= fun g => g.extend hint (ks.map flipped)) = .ok (g3, o) ∧
      (o = .fatal ∨ (∀ i j, i < n → j < n → g1.timespan (σ i) (σ j) = g.timespan i j ∧ g2.timespan i j = g.timespan j i) ∧ SameGraph g g3) := by
  obtain ⟨g, g1, o, e, e1, x1⟩ := batch_alike hn0 hn (rename_change r) hW hW hB hB hk h0 h1
  obtain ⟨g', g2, o2, e', e2, x2⟩ := batch_alike hn0 hn mirror_change hW hW hB hB hk h0 h1
  rw [e] at e'; cases e'
  obtain ⟨g', g3, o3, e', e3, x3⟩ := batch_alike hn0 hn flip_change hW hW hB hB hk h0 h1
  rw [e] at e'; cases e'
  refine ⟨g, g1, g2, g3, o, e, e1, e2, e3, ?_⟩
  rcases x1 with ⟨x, -⟩ | ⟨p, v, v1, s, s1, a1, -⟩
  · exact Or.inl x
  rcases x2 with ⟨x, -⟩ | ⟨-, -, v2, -, s2, a2, -⟩
  · exact Or.inl x
  rcases x3 with ⟨x, -⟩ | ⟨-, -, v3, -, s3, a3, -⟩
  · exact Or.inl x
  exact Or.inr ⟨fun i j hi hj => ⟨rename_span r v v1 s s1 a1 hi hj, mirror_span v v2 s s2 a2 hi hj⟩, flip_same v v3 s s3 a3⟩

/-- three instants under other names (0 → 2 → 1 → 0), two compatible constraints and one which contradicts them -/
example : Renaming 3 (fun i => (i + 2) % 3) (fun i => (i + 1) % 3) ∧
    (∀ k ∈ [Constr.mk 0 1 false 10 20, ⟨1, 2, false, 5, 6⟩, ⟨0, 2, false, 0, 3⟩], Usable 3 100 k ∧ Batchable 3 100 k) ∧
    3 * ((3 : Nat) : Int) * 100 < INF := by
  refine ⟨fun i hi => ?_, ?_, by decide⟩
  · have : i = 0 ∨ i = 1 ∨ i = 2 := by omega
    rcases this with rfl | rfl | rfl <;> decide
  · intro k hk
    simp only [List.mem_cons, List.not_mem_nil, or_false] at hk
    rcases hk with rfl | rfl | rfl <;> exact ⟨⟨by decide, by decide, fun _ => ⟨by constructor <;> decide, by decide⟩⟩, by decide⟩

/-- the calls of this history, with the first names, with the other names, and in the mirror -/
example : ∃ g1 g2 g3, (Graph.withSize 3 >>= fun g => answers g [⟨0, 1, false, 10, 20⟩, ⟨1, 2, false, 5, 6⟩, ⟨0, 2, false, 0, 3⟩]) =
      .ok (g1, [.propagated, .propagated, .recovered]) ∧
    (Graph.withSize 3 >>= fun g => answers g [⟨2, 0, false, 10, 20⟩, ⟨0, 1, false, 5, 6⟩, ⟨2, 1, false, 0, 3⟩]) =
      .ok (g2, [.propagated, .propagated, .recovered]) ∧
    (Graph.withSize 3 >>= fun g => answers g [⟨0, 1, false, -20, -10⟩, ⟨1, 2, false, -6, -5⟩, ⟨0, 2, false, -3, 0⟩]) =
      .ok (g3, [.propagated, .propagated, .recovered]) ∧
    g1.timespan 0 2 = .ok ⟨15, 26⟩ ∧ g2.timespan 2 1 = .ok ⟨15, 26⟩ ∧ g3.timespan 0 2 = .ok ⟨-26, -15⟩ := by
  refine ⟨⟨3, [0, -20, 0, 10, -26, -6, 0, 5, 15]⟩, ⟨3, [0, -6, 0, 5, 10, 15, 0, -26, -20]⟩, ⟨3, [0, 10, 0, -20, 15, 5, 0, -6, -26]⟩, ?_⟩
  decide +kernel

end Chrono
