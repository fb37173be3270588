import Verif.Props.Pair
import Verif.Props.SchedConvex

set_option linter.unusedSimpArgs false

/-!
# Instants at a fixed delay (C154)
-/

namespace Chrono
open Spec

/-! ## Helper lemmas -/

/-- the dates left for `j` are those left for `i`, moved by `δ` -/
def RigidOf (s : Sched) (i j : Nat) (δ : Int) : Prop := ∀ t, Slot s i t ↔ Slot s j (t + δ)

theorem in_point {δ x : Int} (h : Date δ) : InExt x ⟨δ, δ⟩ ↔ x = δ := by
  unfold InExt
  simp only
  unfold Date at h
  omega

theorem rigid_swap {s : Sched} {i j : Nat} {δ : Int} (h : RigidOf s i j δ) : RigidOf s j i (-δ) := by
  intro t
  rw [h, show t + -δ + δ = t by omega]

theorem rigid_span {g : Graph} (hm : Minimal g) {i j : Nat} (hi : i < g.size) (hj : j < g.size) {δ : Int} (hδ : Date δ)
    (hr : g.timespan i j = .ok ⟨δ, δ⟩) {k : Nat} (hk : k < g.size) {p q : Iv} (hp : g.timespan k i = .ok p) (hq : g.timespan k j = .ok q)
    (d : Int) : InExt d p ↔ InExt (d + δ) q := by
  have key : ∀ τ, Sat τ g → τ j - τ i = δ := by
    intro τ h
    obtain ⟨x, e, hx⟩ := h i j hi hj
    rw [hr] at e
    cases e
    exact (in_point hδ).1 hx
  constructor
  · intro h
    obtain ⟨τ, t1, t2⟩ := hm.2 k i hk hi p hp d h
    obtain ⟨x, e, hx⟩ := t1 k j hk hj
    rw [hq] at e
    cases e
    have := key τ t1
    rwa [show τ j - τ k = d + δ by omega] at hx
  · intro h
    obtain ⟨τ, t1, t2⟩ := hm.2 k j hk hj q hq _ h
    obtain ⟨x, e, hx⟩ := t1 k i hk hi
    rw [hp] at e
    cases e
    have := key τ t1
    rwa [show τ i - τ k = d by omega] at hx

theorem rigid_back {g : Graph} (hv : Valid g) {i j : Nat} (hi : i < g.size) (hj : j < g.size) {δ : Int}
    (hr : g.timespan i j = .ok ⟨δ, δ⟩) : g.timespan j i = .ok ⟨-δ, -δ⟩ := by
  rw [timespan_eq hv hi hj] at hr
  injection hr with hr
  injection hr with a b
  rw [timespan_eq hv hj hi, a, ← b]
  congr 2
  omega

theorem rigid_step {dbg : Bool} {s : Sched} (hv : Valid s.graph) (hm : Minimal s.graph) (hz : ZeroDiag s.graph) (hs : Spanned s.graph) {B W V : Int}
    (hB : 0 ≤ B) (hg : Within B s.graph) (a2 : LooseSched s) (a3 : WithinSched V s) (hWV : W ≤ V) (hW : V + B < INF)
    {i j : Nat} (hi : i < s.graph.size) (hj : j < s.graph.size) (hij : i ≠ j) {δ : Int} (hδ : Date δ)
    (hr : s.graph.timespan i j = .ok ⟨δ, δ⟩) (h : RigidOf s i j δ) {c : Call} (hc : c.Ok s.graph.size W) {s' : Sched}
    (he : c.run dbg s = .ok (s', .propagated)) (hd : ∃ t, Slot s' c.instant t) (hcj : c.instant ≠ j) : RigidOf s' i j δ := by
  obtain ⟨r, e, h1, h2⟩ := call_pieces hv hz hs hB hg a2 a3 hWV hW hc he
  have hne : r ≠ [] := by
    rintro rfl
    obtain ⟨t, ht⟩ := hd
    rw [slot_get (s := s') e] at ht
    obtain ⟨x, hx, -⟩ := ht
    cases hx
  replace h2 := h2 hne
  obtain ⟨q, eq, kj⟩ := h2 j hj (Ne.symm hcj)
  have hk : c.instant < s.graph.size := by cases c <;> exact hc.1
  intro t
  by_cases hci : c.instant = i
  · subst hci
    rw [hr] at eq
    cases eq
    rw [kj]
    simp only [in_point hδ]
    constructor
    · intro ht
      exact ⟨(h t).1 ((h1 t).1 ht).1, Or.inl ⟨t, ht, by omega⟩⟩
    · rintro ⟨-, ⟨a, ha, e⟩ | ⟨d, -, e1, e2⟩⟩
      · rwa [show a = t by omega] at ha
      · omega
  · obtain ⟨p, ep, ki⟩ := h2 i hi (Ne.symm hci)
    have sp := rigid_span hm hi hj hδ hr hk ep eq
    rw [ki, kj, h t]
    refine and_congr_right fun _ => or_congr (exists_congr fun a => ?_) (exists_congr fun d => ?_)
    · rw [sp, show t - a + δ = t + δ - a by omega]
    · rw [sp, sp, show t - d + δ = t + δ - d by omega, show t - (d - 1) + δ = t + δ - (d - 1) by omega]

theorem calls_shrink {dbg : Bool} {B W : Int} (hB0 : 0 ≤ B) : ∀ (calls : List Call) {s : Sched} {V : Int}, Valid s.graph →
    ZeroDiag s.graph → Spanned s.graph → LooseSched s → Within B s.graph → WithinSched V s → W ≤ V →
    V + calls.length * B < INF → (∀ c ∈ calls, c.Ok s.graph.size W) → ∀ {s' acc}, callAll dbg s calls = .ok (s', acc) →
    ∀ k t, Slot s' k t → Slot s k t
  | [], s, V, _, _, _, _, _, _, _, _, _, s', acc, h => by
    cases h
    exact fun _ _ h => h
  | c :: calls, s, V, hv, hz, hs, hl, hg, hV, hWV, hB, hok, s', acc, h => by
    have e : V + ((c :: calls).length : Int) * B = V + B + calls.length * B := by
      rw [List.length_cons, Int.natCast_add, Int.add_mul]; omega
    rw [e] at hB
    have hn : 0 ≤ (calls.length : Int) * B := Int.mul_nonneg (by omega) hB0
    rcases call_loose dbg hv hz hs hl hg hV hWV (by omega) hB0 (hok c (by simp)) with
      ⟨s1, o, a1, a2, a3, a4, a5, a6, a7, -⟩ | ⟨-, h0⟩
    · simp only [callAll, a1, ok_bind] at h
      obtain ⟨⟨s2, acc2⟩, b1, b2⟩ := bind_ok h
      cases b2
      have ih := calls_shrink hB0 (W := W) calls (s := s1) (V := V + B) (by rw [a2]; exact hv)
        (by rw [a2]; exact hz) (by rw [a2]; exact hs) a3 (by rw [a2]; exact hg) a4 (by omega) hB
        (fun c' hc' => by rw [a2]; exact hok c' (by simp [hc'])) b1
      exact fun k t h => a7 k t (ih k t h)
    · obtain ⟨q, h1, -⟩ := bind_ok h
      rw [h0] at h1
      cases h1

theorem rigid_calls {dbg : Bool} {B W : Int} (hB0 : 0 ≤ B) {i j : Nat} (hij : i ≠ j) {δ : Int} (hδ : Date δ) : ∀ (calls : List Call) {s : Sched}
    {V : Int}, Valid s.graph → Minimal s.graph → ZeroDiag s.graph → Spanned s.graph → LooseSched s → Within B s.graph → WithinSched V s →
    W ≤ V → V + calls.length * B < INF → (∀ c ∈ calls, c.Ok s.graph.size W) → i < s.graph.size → j < s.graph.size →
    s.graph.timespan i j = .ok ⟨δ, δ⟩ → RigidOf s i j δ →
    ∀ {s' acc}, callAll dbg s calls = .ok (s', acc) →
      (∀ k, k < s.graph.size → ∃ t, Slot s' k t) → RigidOf s' i j δ
  | [], s, V, _, _, _, _, hl, _, hV, _, _, _, _, _, _, hh, s', acc, h => by
    cases h
    exact fun _ => hh
  | c :: calls, s, V, hv, hm, hz, hs, hl, hg, hV, hWV, hB, hok, hi, hj, hr, hh, s', acc, h => by
    have e : V + ((c :: calls).length : Int) * B = V + B + calls.length * B := by
      rw [List.length_cons, Int.natCast_add, Int.add_mul]; omega
    rw [e] at hB
    have hn : 0 ≤ (calls.length : Int) * B := Int.mul_nonneg (by omega) hB0
    rcases call_loose dbg hv hz hs hl hg hV hWV (by omega) hB0 (hok c (by simp)) with
      ⟨s1, o, a1, a2, a3, a4, a5, a6, a7, -⟩ | ⟨-, h0⟩
    · simp only [callAll, a1, ok_bind] at h
      obtain ⟨⟨s2, acc2⟩, b1, b2⟩ := bind_ok h
      cases b2
      have hk : c.instant < s.graph.size := by
        have := hok c (by simp)
        cases c <;> exact this.1
      have step : (∃ t, Slot s1 c.instant t) → RigidOf s1 i j δ := by
        intro hd
        cases o with
        | unchanged => rw [a6 (Or.inr rfl)]; exact hh
        | recovered => rw [a6 (Or.inl rfl)]; exact hh
        | fatal => exact absurd rfl a5
        | propagated =>
          by_cases hcj : c.instant = j
          · have := rigid_swap (rigid_step hv hm hz hs hB0 hg hl hV hWV (by omega) hj hi (Ne.symm hij) (δ := -δ)
              (by unfold Date at hδ ⊢; omega) (rigid_back hv hi hj hr) (rigid_swap hh) (hok c (by simp)) a1 hd (fun e => hij (e.symm.trans hcj)))
            rwa [Int.neg_neg] at this
          · exact rigid_step hv hm hz hs hB0 hg hl hV hWV (by omega) hi hj hij hδ hr hh (hok c (by simp)) a1 hd hcj
      intro hall
      have sh := calls_shrink hB0 (W := W) calls (s := s1) (V := V + B) (by rw [a2]; exact hv)
        (by rw [a2]; exact hz) (by rw [a2]; exact hs) a3 (by rw [a2]; exact hg) a4 (by omega) hB
        (fun c' hc' => by rw [a2]; exact hok c' (by simp [hc'])) b1
      obtain ⟨t, ht⟩ := hall _ hk
      exact rigid_calls hB0 (W := W) hij hδ calls (s := s1) (V := V + B) (by rw [a2]; exact hv) (by rw [a2]; exact hm)
          (by rw [a2]; exact hz) (by rw [a2]; exact hs) a3 (by rw [a2]; exact hg) a4 (by omega) hB
          (fun c' hc' => by rw [a2]; exact hok c' (by simp [hc'])) (by rw [a2]; exact hi) (by rw [a2]; exact hj) (by rw [a2]; exact hr)
          (step ⟨t, sh _ t ht⟩) b1 (by rw [a2]; exact hall)
    · obtain ⟨q, h1, -⟩ := bind_ok h
      rw [h0] at h1
      cases h1

/-! ## Properties -/

/-- **C154.** The graph announces a single delay `δ` from `i` to `j`. After any history of `retain` and `remove` about any instants, with any
windows, as long as each instant has a date left, the dates left for `j` are exactly those left for `i`, moved by `δ`. -/
theorem C154_sets {dbg : Bool} {g : Graph} (hv : Valid g) (hm : Minimal g) {B W : Int} (hB : 0 ≤ B) (hBI : B < INF) (hg : Within B g) {i j : Nat}
    (hi : i < g.size) (hj : j < g.size) {δ : Int} (hδ : Date δ) (hr : g.timespan i j = .ok ⟨δ, δ⟩) {calls : List Call}
    (hok : ∀ c ∈ calls, c.Ok g.size W) (hW : W + calls.length * B < INF) {s : Sched} {acc : List Call}
    (h : callAll dbg (Sched.new g) calls = .ok (s, acc)) (hd : ∀ k, k < g.size → ∃ t, Slot s k t) :
    ∀ t, Slot s i t ↔ Slot s j (t + δ) := by
  have hz : ZeroDiag g := ((minimal_iff hv).1 hm).zeroDiag hv
  have hs : Spanned g := spanned_of_sat hm.1 hBI hg
  by_cases hij : i = j
  · subst hij
    obtain ⟨τ, ht⟩ := hm.1
    obtain ⟨x, e, hx⟩ := ht i i hi hi
    rw [hr] at e
    cases e
    have := (in_point hδ).1 hx
    intro t
    rw [show t + δ = t by omega]
  · exact rigid_calls hB (W := W) hij hδ calls (s := Sched.new g) (V := W) hv hm hz hs (new_loose g) hg (new_within g W) (Int.le_refl _)
      hW hok hi hj hr (fun t => ⟨fun _ => new_slot g hj _, fun _ => new_slot g hi _⟩) h hd

/-- **C154.** If the graph announces a single delay between any two instants, then after any history of `retain` and `remove` about any instants,
with any windows, as long as each instant has a date left, the dates left for an instant are exactly those it has in the solutions of the graph
which follow all the accepted requests. -/
theorem C154_exact {dbg : Bool} {g : Graph} (hv : Valid g) (hm : Minimal g) {B W : Int} (hB : 0 ≤ B) (hBI : B < INF) (hg : Within B g)
    (hr : ∀ i j, i < g.size → j < g.size → ∃ δ, Date δ ∧ g.timespan i j = .ok ⟨δ, δ⟩) {calls : List Call}
    (hok : ∀ c ∈ calls, c.Ok g.size W) (hW : W + calls.length * B < INF) {s : Sched} {acc : List Call}
    (h : callAll dbg (Sched.new g) calls = .ok (s, acc)) (hd : ∀ k, k < g.size → ∃ t, Slot s k t) :
    ∀ j, j < g.size → ∀ t, Slot s j t ↔ ∃ τ, Sat τ g ∧ τ j = t ∧ ∀ c ∈ acc, c.Allows (τ c.instant) := by
  have hz : ZeroDiag g := ((minimal_iff hv).1 hm).zeroDiag hv
  have hs : Spanned g := spanned_of_sat hm.1 hBI hg
  rcases callAll_loose dbg hB calls (s := Sched.new g) (V := W) hv hz hs (new_loose g) hg (new_within g W) (Int.le_refl _)
    hW hok with ⟨s1, acc1, h1, h2, h3, h4, h5⟩ | ⟨-, h0⟩
  · rw [h] at h1
    cases h1
    intro j hj t
    constructor
    · intro ht
      obtain ⟨τ, hτ⟩ := hm.1
      refine ⟨_, sat_moved hτ (t - τ j), by omega, fun c hc => ?_⟩
      have hk : c.instant < g.size := by
        have := hok c (callAll_sub calls h c hc)
        cases c <;> exact this.1
      obtain ⟨δ, hδ, e⟩ := hr j c.instant hj hk
      obtain ⟨x, e', hx⟩ := hτ j c.instant hj hk
      rw [e] at e'
      cases e'
      have hx := (in_point hδ).1 hx
      have := (C154_sets hv hm hB hBI hg hj hk hδ e hok hW h hd t).1 ht
      have := (h4 _ _ this).2 c hc rfl
      rwa [show τ c.instant + (t - τ j) = t + δ by omega]
    · rintro ⟨τ, t1, rfl, t2⟩
      exact h5 τ t1 (fun j hj => new_slot g hj _) t2 j hj
  · rw [h] at h0
    cases h0

/-- **C154.** The same as `C154_sets` after any history of `retain` with non-empty convex windows, `set_deadline` and `set_startline`. -/
theorem C154_plan {dbg : Bool} {g : Graph} (hv : Valid g) (hm : Minimal g) {B W : Int} (hB : 0 ≤ B) (hW : 0 ≤ W) (hg : Within B g)
    (hBW : W + 2 * B < INF) {i j : Nat} (hi : i < g.size) (hj : j < g.size) {δ : Int} (hδ : Date δ) (hr : g.timespan i j = .ok ⟨δ, δ⟩)
    {l : List PlanCall} (hok : ∀ c ∈ l, c.Ok g.size W) {s : Sched} {acc : List PlanCall}
    (h : planAll dbg (Sched.new g) l = .ok (s, acc)) : ∀ t, Slot s i t ↔ Slot s j (t + δ) := by
  obtain ⟨s1, a1, e1, e2, ⟨lo, hi', e3⟩, -, e4⟩ := plan_history dbg hv hm hg hB hW hBW l (Sched.new g) rfl ⟨_, _, new_conv g _⟩ hok
  rw [h] at e1
  cases e1
  subst e2
  have key : ∀ τ, Feasible τ s → τ j - τ i = δ := by
    intro τ f
    obtain ⟨x, e, hx⟩ := f.1 i j hi hj
    rw [hr] at e
    cases e
    exact (in_point hδ).1 hx
  intro t
  constructor
  · intro ht
    obtain ⟨τ, f, et⟩ := e3.attain hv hm hi ht
    have := key τ f
    have := f.2 j hj
    rwa [show τ j = t + δ by omega] at this
  · intro ht
    obtain ⟨τ, f, et⟩ := e3.attain hv hm hj ht
    have := key τ f
    have := f.2 i hi
    rwa [show τ i = t by omega] at this

/-! ## Examples -/

/-- three instants, the second one 5 after the first one, the third one 2 to 4 after the second one -/
def rigidGraph : Graph := ⟨3, [0, -5, 0, 5, -9, -4, 0, 2, 7]⟩

theorem rigidGraph_minimal : Minimal rigidGraph := by
  rw [minimal_iff (by decide)]
  have d : ∀ i : Fin 3, mat rigidGraph i i = 0 := by decide
  have t : ∀ i k j : Fin 3, mat rigidGraph i k ≠ -INF → mat rigidGraph k j ≠ -INF →
      mat rigidGraph i j ≠ -INF ∧ mat rigidGraph i k + mat rigidGraph k j ≤ mat rigidGraph i j := by decide
  exact ⟨fun i hi => d ⟨i, hi⟩, fun i hi k hk j hj => t ⟨i, hi⟩ ⟨k, hk⟩ ⟨j, hj⟩⟩

theorem rigidGraph_within : Within 9 rigidGraph := by
  have w : ∀ i j : Fin 3, ∀ s ∈ (rigidGraph.timespan i j).toOption, (s.lower = -INF ∨ (-9 ≤ s.lower ∧ s.lower ≤ 9)) ∧
      (s.upper = INF ∨ (-9 ≤ s.upper ∧ s.upper ≤ 9)) := by decide
  intro i j hi hj s e
  exact w ⟨i, hi⟩ ⟨j, hj⟩ s (by simp only; rw [e]; rfl)

/-- a set and two removals about the three instants; an interval without a date is left for instant 1 -/
example : ∃ s acc, callAll false (Sched.new rigidGraph) [.retain 0 (.set [⟨0, 3⟩, ⟨8, 9⟩]), .remove 2 (.iv ⟨8, 11⟩), .remove 1 (.iv ⟨14, 14⟩)] =
      .ok (s, acc) ∧ acc.length = 3 ∧ s.scheduling 0 = some [⟨0, 0⟩, ⟨3, 3⟩, ⟨8, 8⟩] ∧
    s.scheduling 1 = some [⟨5, 5⟩, ⟨8, 8⟩, ⟨13, 13⟩, ⟨15, 14⟩] ∧ ∀ t, Slot s 0 t ↔ Slot s 1 (t + 5) := by
  have e : callAll false (Sched.new rigidGraph) [.retain 0 (.set [⟨0, 3⟩, ⟨8, 9⟩]), .remove 2 (.iv ⟨8, 11⟩), .remove 1 (.iv ⟨14, 14⟩)] =
      .ok (⟨rigidGraph, [[⟨0, 0⟩, ⟨3, 3⟩, ⟨8, 8⟩], [⟨5, 5⟩, ⟨8, 8⟩, ⟨13, 13⟩, ⟨15, 14⟩], [⟨7, 7⟩, ⟨12, 12⟩, ⟨15, 18⟩]]⟩,
        [.retain 0 (.set [⟨0, 3⟩, ⟨8, 9⟩]), .remove 2 (.iv ⟨8, 11⟩), .remove 1 (.iv ⟨14, 14⟩)]) := by decide +kernel
  refine ⟨_, _, e, rfl, rfl, rfl, ?_⟩
  refine C154_sets (B := 9) (W := 100) (by decide) rigidGraph_minimal (by decide) (by decide) rigidGraph_within (by decide) (by decide) (by decide)
    (by decide) (by decide) (by decide) e ?_
  intro k hk
  have : k = 0 ∨ k = 1 ∨ k = 2 := by
    have : k < 3 := hk
    omega
  rcases this with rfl | rfl | rfl
  · exact ⟨0, _, rfl, ⟨0, 0⟩, by decide, by decide⟩
  · exact ⟨5, _, rfl, ⟨5, 5⟩, by decide, by decide⟩
  · exact ⟨7, _, rfl, ⟨7, 7⟩, by decide, by decide⟩

example : ∀ i j, i < (Graph.mk 2 [0, -5, 0, 5]).size → j < (Graph.mk 2 [0, -5, 0, 5]).size →
    ∃ δ, Date δ ∧ (Graph.mk 2 [0, -5, 0, 5]).timespan i j = .ok ⟨δ, δ⟩ := by
  intro i j hi hj
  have a : i = 0 ∨ i = 1 := by
    have : i < 2 := hi
    omega
  have b : j = 0 ∨ j = 1 := by
    have : j < 2 := hj
    omega
  rcases a with rfl | rfl <;> rcases b with rfl | rfl
  · exact ⟨0, by decide, by decide⟩
  · exact ⟨5, by decide, by decide⟩
  · exact ⟨-5, by decide, by decide⟩
  · exact ⟨0, by decide, by decide⟩

example := C154_plan (dbg := true) (W := 40) (by decide) rigidGraph_minimal (by decide) (by decide) rigidGraph_within (by decide) (i := 0) (j := 1)
  (by decide) (by decide) (δ := 5) (by decide) (by decide) (l := [.deadline 30, .retain 2 (.point 17)])
  (by
    simp only [List.mem_cons, List.not_mem_nil, or_false]
    rintro c (rfl | rfl)
    · exact Or.inr (by decide)
    · exact ⟨by decide, by decide, ⟨17, by decide⟩, by decide⟩)
  (s := ⟨rigidGraph, [[⟨8, 10⟩], [⟨13, 15⟩], [⟨17, 17⟩]]⟩) (acc := [.deadline 30, .retain 2 (.point 17)]) (by decide +kernel)

end Chrono
