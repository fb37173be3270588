import Verif.Spec.Explain
import Verif.Props.SchedConvex

/-!
# Answers of a scheduler can be explained (C148)
-/

namespace Chrono
open Spec

/-- a solution which cannot be moved down at `i` -/
theorem pushed {g : Graph} (hv : Valid g) (hm : Minimal g) {acc : List PlanCall} (hj : ∀ c ∈ acc, ∀ i w, c = .retain i w → i < g.size)
    {τ : Nat → Int} (h1 : Sat τ g) (h2 : ∀ c ∈ acc, c.Allows g.size τ) {i : Nat} (hi : i < g.size)
    (hmin : ∀ σ, Sat σ g → (∀ c ∈ acc, c.Allows g.size σ) → τ i ≤ σ i) : ∃ c ∈ acc, Pushes g c i (τ i) := by
  have q := (minimal_iff hv).1 hm
  have ms := (sat_iff hv τ).1 h1
  let S : Nat → Prop := fun x => x < g.size ∧ mat g x i ≠ -INF ∧ τ i - τ x = mat g x i
  have : ∀ x, Decidable (S x) := fun x => Classical.propDecidable _
  let σ : Nat → Int := fun x => if S x then τ x - 1 else τ x
  have d0 := q.diag i hi
  have si : S i := ⟨hi, by rw [d0]; decide, by rw [d0]; omega⟩
  have hσ : Sat σ g := by
    refine (sat_iff hv σ).2 fun a ha b hb => ?_
    have m := ms a ha b hb
    by_cases c : mat g a b = -INF
    · exact Or.inl c
    refine Or.inr ?_
    show mat g a b ≤ (if S b then τ b - 1 else τ b) - (if S a then τ a - 1 else τ a)
    by_cases sb : S b <;> by_cases sa : S a <;> simp only [sa, sb, if_true, if_false]
    · omega
    · -- b moves and not a
      have ne : mat g a b ≠ τ b - τ a := by
        intro e
        apply sa
        obtain ⟨_, b2, b3⟩ := sb
        obtain ⟨t1, t2⟩ := q.tri a ha b hb i hi c b2
        have m' := ms a ha i hi
        exact ⟨ha, t1, by omega⟩
      omega
    · omega
    · omega
  apply Classical.byContradiction
  intro hn
  have all : ∀ c ∈ acc, c.Allows g.size σ := by
    intro c hc
    apply Classical.byContradiction
    intro na
    apply hn
    have al := h2 c hc
    refine ⟨c, hc, ?_⟩
    -- an instant which has moved
    have key : ∀ j, j < g.size → (∀ ρ : Nat → Int, c.Allows g.size ρ → τ j ≤ ρ j) → S j → Pushes g c i (τ i) := by
      intro j hj hρ sj
      obtain ⟨_, s2, s3⟩ := sj
      exact ⟨j, τ j, _, hj, hρ, timespan_eq hv hj hi, s2, by simp only; omega⟩
    cases c with
    | retain j w =>
      have hjs := hj _ hc j w rfl
      by_cases sj : S j
      · have e : σ j = τ j - 1 := if_pos sj
        refine key j hjs (fun ρ hρ => ?_) sj
        simp only [PlanCall.Allows, e] at na al hρ
        cases w <;> simp only [InExtConvex, InExt] at na al hρ <;> omega
      · have e : σ j = τ j := if_neg sj
        simp only [PlanCall.Allows, e] at na al
        exact absurd al na
    | deadline d =>
      refine absurd (fun j hj => ?_) na
      have := al j hj
      have : σ j ≤ τ j := by show (if S j then τ j - 1 else τ j) ≤ τ j; split <;> omega
      omega
    | startline d =>
      have : ∃ j, j < g.size ∧ ¬ (d = -INF ∨ d ≤ σ j) := by
        apply Classical.byContradiction
        intro hh
        exact na (fun j hj => Classical.byContradiction fun c => hh ⟨j, hj, c⟩)
      obtain ⟨j, hjs, nj⟩ := this
      have aj := al j hjs
      by_cases sj : S j
      · have e : σ j = τ j - 1 := if_pos sj
        refine key j hjs (fun ρ hρ => ?_) sj
        have := hρ j hjs
        omega
      · have e : σ j = τ j := if_neg sj
        rw [e] at nj
        exact absurd aj nj
  have := hmin σ hσ all
  have e : σ i = τ i - 1 := if_pos si
  omega

/-- a solution which cannot be moved up at `i` -/
theorem pulled {g : Graph} (hv : Valid g) (hm : Minimal g) {acc : List PlanCall} (hj : ∀ c ∈ acc, ∀ i w, c = .retain i w → i < g.size)
    {τ : Nat → Int} (h1 : Sat τ g) (h2 : ∀ c ∈ acc, c.Allows g.size τ) {i : Nat} (hi : i < g.size)
    (hmax : ∀ σ, Sat σ g → (∀ c ∈ acc, c.Allows g.size σ) → σ i ≤ τ i) : ∃ c ∈ acc, Pulls g c i (τ i) := by
  have q := (minimal_iff hv).1 hm
  have ms := (sat_iff hv τ).1 h1
  let S : Nat → Prop := fun x => x < g.size ∧ mat g i x ≠ -INF ∧ τ x - τ i = mat g i x
  have : ∀ x, Decidable (S x) := fun x => Classical.propDecidable _
  let σ : Nat → Int := fun x => if S x then τ x + 1 else τ x
  have d0 := q.diag i hi
  have si : S i := ⟨hi, by rw [d0]; decide, by rw [d0]; omega⟩
  have hσ : Sat σ g := by
    refine (sat_iff hv σ).2 fun a ha b hb => ?_
    have m := ms a ha b hb
    by_cases c : mat g a b = -INF
    · exact Or.inl c
    refine Or.inr ?_
    show mat g a b ≤ (if S b then τ b + 1 else τ b) - (if S a then τ a + 1 else τ a)
    by_cases sb : S b <;> by_cases sa : S a <;> simp only [sa, sb, if_true, if_false]
    · omega
    · omega
    · -- a moves and not b
      have ne : mat g a b ≠ τ b - τ a := by
        intro e
        apply sb
        obtain ⟨_, b2, b3⟩ := sa
        obtain ⟨t1, t2⟩ := q.tri i hi a ha b hb b2 c
        have m' := ms i hi b hb
        exact ⟨hb, t1, by omega⟩
      omega
    · omega
  apply Classical.byContradiction
  intro hn
  have all : ∀ c ∈ acc, c.Allows g.size σ := by
    intro c hc
    apply Classical.byContradiction
    intro na
    apply hn
    have al := h2 c hc
    refine ⟨c, hc, ?_⟩
    have key : ∀ j, j < g.size → (∀ ρ : Nat → Int, c.Allows g.size ρ → ρ j ≤ τ j) → S j → Pulls g c i (τ i) := by
      intro j hj hρ sj
      obtain ⟨_, s2, s3⟩ := sj
      refine ⟨j, τ j, _, hj, hρ, timespan_eq hv hj hi, ?_, ?_⟩
      · simp only; omega
      · simp only; omega
    cases c with
    | retain j w =>
      have hjs := hj _ hc j w rfl
      by_cases sj : S j
      · have e : σ j = τ j + 1 := if_pos sj
        refine key j hjs (fun ρ hρ => ?_) sj
        simp only [PlanCall.Allows, e] at na al hρ
        cases w <;> simp only [InExtConvex, InExt] at na al hρ <;> omega
      · have e : σ j = τ j := if_neg sj
        simp only [PlanCall.Allows, e] at na al
        exact absurd al na
    | startline d =>
      refine absurd (fun j hj => ?_) na
      have := al j hj
      have : τ j ≤ σ j := by show τ j ≤ (if S j then τ j + 1 else τ j); split <;> omega
      omega
    | deadline d =>
      have : ∃ j, j < g.size ∧ ¬ (d = INF ∨ σ j ≤ d) := by
        apply Classical.byContradiction
        intro hh
        exact na (fun j hj => Classical.byContradiction fun c => hh ⟨j, hj, c⟩)
      obtain ⟨j, hjs, nj⟩ := this
      have aj := al j hjs
      by_cases sj : S j
      · have e : σ j = τ j + 1 := if_pos sj
        refine key j hjs (fun ρ hρ => ?_) sj
        have := hρ j hjs
        omega
      · have e : σ j = τ j := if_neg sj
        rw [e] at nj
        exact absurd aj nj
  have := hmax σ hσ all
  have e : σ i = τ i + 1 := if_pos si
  omega

theorem pushes_sound {g : Graph} {c : PlanCall} {i : Nat} (hi : i < g.size) {t : Int} (h : Pushes g c i t) {τ : Nat → Int} (h1 : Sat τ g)
    (h2 : c.Allows g.size τ) : t ≤ τ i := by
  obtain ⟨j, d, s, hj, hd, e, n, rfl⟩ := h
  obtain ⟨s', e', a, b⟩ := h1 j i hj hi
  rw [e] at e'; cases e'
  have := hd τ h2
  omega

theorem pulls_sound {g : Graph} {c : PlanCall} {i : Nat} (hi : i < g.size) {t : Int} (h : Pulls g c i t) {τ : Nat → Int} (h1 : Sat τ g)
    (h2 : c.Allows g.size τ) : τ i ≤ t := by
  obtain ⟨j, d, s, hj, hd, e, n, rfl⟩ := h
  obtain ⟨s', e', a, b⟩ := h1 j i hj hi
  rw [e] at e'; cases e'
  have := hd τ h2
  omega

theorem convex_between {w : Convex} {a b c : Int} (ha : InExtConvex a w) (hc : InExtConvex c w) (h1 : a ≤ b) (h2 : b ≤ c) : InExtConvex b w := by
  cases w <;> simp only [InExtConvex, InExt] at * <;> omega

theorem low_end {l u x d : Int} (h : InExt x ⟨l, u⟩) (no : ∀ y, InExt y ⟨l, u⟩ → d < y) : InExt l ⟨l, u⟩ ∧ l ≠ -INF := by
  have n1 := no (min x d)
  simp only [InExt] at *
  omega

theorem high_end {l u x d : Int} (h : InExt x ⟨l, u⟩) (no : ∀ y, InExt y ⟨l, u⟩ → y < d) : InExt u ⟨l, u⟩ ∧ u ≠ INF := by
  have n1 := no (max x d)
  simp only [InExt] at *
  omega

/-! ## Properties -/

/-- **C148.** With convex windows, the earliest date left for an instant is explained by one of the accepted requests, and by the least delay
between the instant it is about and this one. -/
theorem C148_earliest (dbg : Bool) {g : Graph} (hv : Valid g) (hm : Minimal g) {B W : Int} (hB : 0 ≤ B) (hW : 0 ≤ W)
    (hg : Within B g) (hBW : W + 2 * B < INF) {calls : List PlanCall} (hok : ∀ c ∈ calls, c.Ok g.size W)
    {s : Sched} {acc : List PlanCall} (h : planAll dbg (Sched.new g) calls = .ok (s, acc)) {i : Nat} {t : Int}
    (hs : Slot s i t) (hmin : ∀ t', Slot s i t' → t ≤ t') : ∃ c ∈ acc, Pushes g c i t := by
  obtain ⟨τ, f, rfl⟩ := C78_extends_partial dbg hv hm hB hW hg hBW hok h hs
  obtain ⟨s1, acc1, h1, h2, ⟨lo, hi, h3⟩, sub, h4⟩ := plan_history dbg hv hm hg hB hW hBW calls (Sched.new g) rfl ⟨_, _, new_conv g _⟩ hok
  rw [h] at h1
  cases h1
  subst h2
  have fi : ∀ τ, Feasible τ s ↔ Sat τ s.graph ∧ ∀ c ∈ acc, c.Allows s.graph.size τ := fun τ => by rw [h4, new_feasible]
  have hi : i < s.graph.size := by
    obtain ⟨w, hw, -⟩ := hs
    have hw : s.schedule[i]? = some w := hw
    rw [List.getElem?_eq_some_iff] at hw
    rw [← h3.len]; exact hw.1
  refine pushed hv hm (fun c hc i w e => ?_) ((fi τ).1 f).1 ((fi τ).1 f).2 hi (fun σ a b => hmin _ (((fi σ).2 ⟨a, b⟩).2 i hi))
  have := hok c (sub c hc)
  rw [e] at this
  exact this.1

/-- **C148.** The same for the latest date. -/
theorem C148_latest (dbg : Bool) {g : Graph} (hv : Valid g) (hm : Minimal g) {B W : Int} (hB : 0 ≤ B) (hW : 0 ≤ W)
    (hg : Within B g) (hBW : W + 2 * B < INF) {calls : List PlanCall} (hok : ∀ c ∈ calls, c.Ok g.size W)
    {s : Sched} {acc : List PlanCall} (h : planAll dbg (Sched.new g) calls = .ok (s, acc)) {i : Nat} {t : Int}
    (hs : Slot s i t) (hmax : ∀ t', Slot s i t' → t' ≤ t) : ∃ c ∈ acc, Pulls g c i t := by
  obtain ⟨τ, f, rfl⟩ := C78_extends_partial dbg hv hm hB hW hg hBW hok h hs
  obtain ⟨s1, acc1, h1, h2, ⟨lo, hi, h3⟩, sub, h4⟩ := plan_history dbg hv hm hg hB hW hBW calls (Sched.new g) rfl ⟨_, _, new_conv g _⟩ hok
  rw [h] at h1
  cases h1
  subst h2
  have fi : ∀ τ, Feasible τ s ↔ Sat τ s.graph ∧ ∀ c ∈ acc, c.Allows s.graph.size τ := fun τ => by rw [h4, new_feasible]
  have hi : i < s.graph.size := by
    obtain ⟨w, hw, -⟩ := hs
    have hw : s.schedule[i]? = some w := hw
    rw [List.getElem?_eq_some_iff] at hw
    rw [← h3.len]; exact hw.1
  refine pulled hv hm (fun c hc i w e => ?_) ((fi τ).1 f).1 ((fi τ).1 f).2 hi (fun σ a b => hmax _ (((fi σ).2 ⟨a, b⟩).2 i hi))
  have := hok c (sub c hc)
  rw [e] at this
  exact this.1

/-- **C148.** With convex windows, a request which is refused contradicts one of the accepted requests alone (and the graph). -/
theorem C148_refused (dbg : Bool) {g : Graph} (hv : Valid g) (hm : Minimal g) {B W : Int} (hB : 0 ≤ B) (hW : 0 ≤ W)
    (hg : Within B g) (hBW : W + 2 * B < INF) {calls : List PlanCall} (hok : ∀ c ∈ calls, c.Ok g.size W)
    {s : Sched} {acc : List PlanCall} (h : planAll dbg (Sched.new g) calls = .ok (s, acc)) {c : PlanCall} (hc : c.Ok g.size W)
    {s' : Sched} (hr : c.run dbg s = .ok (s', .recovered)) :
    ∃ c' ∈ acc, ¬ ∃ τ, Sat τ g ∧ c'.Allows g.size τ ∧ c.Allows g.size τ := by
  have early := @C148_earliest dbg g hv hm B W hB hW hg hBW calls hok s acc h
  have late := @C148_latest dbg g hv hm B W hB hW hg hBW calls hok s acc h
  have ext := @C78_extends_partial dbg g hv hm B W hB hW hg hBW calls hok s acc h
  have dl := @C79_deadline_partial dbg g hv hm B W hB hW hg hBW calls hok s acc h
  have sl := @C79_startline_partial dbg g hv hm B W hB hW hg hBW calls hok s acc h
  obtain ⟨s2, o, e, -, -, hn⟩ := C78_next_partial dbg hv hm hB hW hg hBW hok h hc
  rw [hr] at e
  cases e
  have hn := hn.1 rfl
  obtain ⟨s1, acc1, h1, h2, ⟨lo, up, h3⟩, sub, h4⟩ := plan_history dbg hv hm hg hB hW hBW calls (Sched.new g) rfl ⟨_, _, new_conv g _⟩ hok
  rw [h] at h1
  cases h1
  subst h2
  have fi : ∀ τ, Feasible τ s ↔ Sat τ s.graph ∧ ∀ c ∈ acc, c.Allows s.graph.size τ := fun τ => by rw [h4, new_feasible]
  obtain ⟨τ0, f0⟩ := h3.exists_feasible hv hm
  cases c with
  | retain i w =>
    obtain ⟨hi, -, ⟨x, hx⟩, -⟩ := hc
    have no : ∀ y, InExt y ⟨lo i, up i⟩ → ¬ InExtConvex y w := by
      intro y hy hw
      obtain ⟨τ, f, rfl⟩ := ext ((h3.slot hi y).2 hy)
      exact hn ⟨τ, ((fi τ).1 f).1, ((fi τ).1 f).2, hw⟩
    have d0 := (h3.slot hi _).1 (f0.2 i hi)
    have nd := no _ d0
    generalize τ0 i = d at d0 nd
    have ne : x ≠ d := fun e => nd (e ▸ hx)
    have nx : ¬ InExt x ⟨lo i, up i⟩ := fun hy => no x hy hx
    by_cases c : d < x
    · have u : InExt (up i) ⟨lo i, up i⟩ ∧ up i < x ∧ up i ≠ INF := by simp only [InExt] at *; omega
      obtain ⟨c', hc', p⟩ := late ((h3.slot hi _).2 u.1) (fun t' ht' => by
        have := ((h3.slot hi _).1 ht').2
        simp only at this
        omega)
      refine ⟨c', hc', ?_⟩
      rintro ⟨σ, a1, a2, a3⟩
      have := pulls_sound hi p a1 a2
      exact no _ u.1 (convex_between a3 hx this (by omega))
    · have u : InExt (lo i) ⟨lo i, up i⟩ ∧ x < lo i ∧ lo i ≠ -INF := by simp only [InExt] at *; omega
      obtain ⟨c', hc', p⟩ := early ((h3.slot hi _).2 u.1) (fun t' ht' => by
        have := ((h3.slot hi _).1 ht').1
        simp only at this
        omega)
      refine ⟨c', hc', ?_⟩
      rintro ⟨σ, a1, a2, a3⟩
      have := pushes_sound hi p a1 a2
      exact no _ u.1 (convex_between hx a3 (by omega) this)
  | deadline d =>
    have fin : d ≠ INF := fun e => hn ⟨τ0, ((fi τ0).1 f0).1, ((fi τ0).1 f0).2, fun j hj => Or.inl e⟩
    obtain ⟨s3, o, e3, -, hq, -⟩ := dl hc
    have hr : s.setDeadline dbg d = .ok (s', .recovered) := hr
    rw [hr] at e3
    cases e3
    obtain ⟨i, hi, ni⟩ := hq.1 rfl
    have d0 := (h3.slot hi _).1 (f0.2 i hi)
    have no : ∀ y, InExt y ⟨lo i, up i⟩ → d < y := fun y hy => Int.not_le.1 fun q => ni ⟨y, (h3.slot hi y).2 hy, q⟩
    have u := low_end d0 no
    have n3 := no _ u.1
    obtain ⟨c', hc', p⟩ := early ((h3.slot hi _).2 u.1) (fun t' ht' => by
      have := ((h3.slot hi _).1 ht').1
      simp only at this
      omega)
    refine ⟨c', hc', ?_⟩
    rintro ⟨σ, a1, a2, a3⟩
    have := pushes_sound hi p a1 a2
    have := a3 i hi
    omega
  | startline d =>
    have fin : d ≠ -INF := fun e => hn ⟨τ0, ((fi τ0).1 f0).1, ((fi τ0).1 f0).2, fun j hj => Or.inl e⟩
    obtain ⟨s3, o, e3, -, hq, -⟩ := sl hc
    have hr : s.setStartline dbg d = .ok (s', .recovered) := hr
    rw [hr] at e3
    cases e3
    obtain ⟨i, hi, ni⟩ := hq.1 rfl
    have d0 := (h3.slot hi _).1 (f0.2 i hi)
    have no : ∀ y, InExt y ⟨lo i, up i⟩ → y < d := fun y hy => Int.not_le.1 fun q => ni ⟨y, (h3.slot hi y).2 hy, q⟩
    have u := high_end d0 no
    have n3 := no _ u.1
    obtain ⟨c', hc', p⟩ := late ((h3.slot hi _).2 u.1) (fun t' ht' => by
      have := ((h3.slot hi _).1 ht').2
      simp only at this
      omega)
    refine ⟨c', hc', ?_⟩
    rintro ⟨σ, a1, a2, a3⟩
    have := pulls_sound hi p a1 a2
    have := a3 i hi
    omega

/-! ## Examples -/

example := C148_earliest true exGraph_valid exGraph_minimal (by decide) (by decide) exGraph_within (by decide) exPlan_ok
  exPlan_run (i := 1) (t := 12) ⟨_, rfl, by decide⟩ (by
    rintro t' ⟨w, e, h⟩
    cases e
    simp only [InExtSet, List.mem_singleton, exists_eq_left, InExt] at h
    have := h.1
    ticks)
example := C148_latest true exGraph_valid exGraph_minimal (by decide) (by decide) exGraph_within (by decide) exPlan_ok
  exPlan_run (i := 1) (t := 24) ⟨_, rfl, by decide⟩ (by
    rintro t' ⟨w, e, h⟩
    cases e
    simp only [InExtSet, List.mem_singleton, exists_eq_left, InExt] at h
    have := h.2
    ticks)
example := C148_refused true exGraph_valid exGraph_minimal (by decide) (by decide) exGraph_within (by decide) exPlan_ok
  exPlan_run (c := .deadline 10) (Or.inr (by decide)) (s' := exPlanned) (by decide +kernel)

end Chrono
