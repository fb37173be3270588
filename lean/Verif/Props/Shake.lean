import Verif.Spec.Shake
import Verif.Props.Explain

/-!
# Small changes of the constraints of a graph have small effects (C149)
-/

namespace Chrono
open Spec

theorem leads_trans {ks : List Constr} {i j l : Nat} {v w : Int} (a : Leads ks i j v) (b : Leads ks j l w) : Leads ks i l (v + w) := by
  induction b with
  | here => rw [Int.add_zero]; exact a
  | least _ hk hb ih => rw [← Int.add_assoc]; exact .least ih hk hb
  | most _ hk hb ih => rw [show ∀ a b c : Int, a + (b - c) = a + b - c by omega]; exact .most ih hk hb

/-- When there is no loop, a chain need not follow the same constraint twice. -/
theorem leads_once {k : Constr} {ks : List Constr} (hn : ¬ Loop (k :: ks)) {i j : Nat} {w : Int} (l : Leads (k :: ks) i j w) :
    ∃ w0, w ≤ w0 ∧ (Leads ks i j w0 ∨
      (k.lower ≠ -INF ∧ ∃ p q, Leads ks i k.src p ∧ Leads ks k.dst j q ∧ w0 = p + k.lower + q) ∨
      (k.upper ≠ INF ∧ ∃ p q, Leads ks i k.dst p ∧ Leads ks k.src j q ∧ w0 = p - k.upper + q)) := by
  have up : ∀ {a b : Nat} {v : Int}, Leads ks a b v → Leads (k :: ks) a b v := fun h => leads_mono (fun c hc => by simp [hc]) h
  have no : ∀ {a : Nat} {v : Int}, Leads (k :: ks) a a v → v ≤ 0 := fun h => Int.not_lt.1 fun c => hn ⟨_, _, h, c⟩
  induction l with
  | here => exact ⟨0, Int.le_refl _, Or.inl .here⟩
  | @least c w _ hk hb ih =>
    obtain ⟨w0, h0, h⟩ := ih
    rcases List.mem_cons.1 hk with rfl | hk'
    · rcases h with h | ⟨-, p, q, h1, h2, rfl⟩ | ⟨hu, p, q, h1, h2, rfl⟩
      · exact ⟨w0 + c.lower, by omega, Or.inr (Or.inl ⟨hb, w0, 0, h, .here, by omega⟩)⟩
      · have := no (.least (up h2) hk hb)
        exact ⟨p + c.lower, by omega, Or.inr (Or.inl ⟨hb, p, 0, h1, .here, by omega⟩)⟩
      · have := no (.least (leads_trans (.most (.here (i := c.dst)) hk hu) (up h2)) hk hb)
        exact ⟨p, by omega, Or.inl h1⟩
    · rcases h with h | ⟨hl, p, q, h1, h2, rfl⟩ | ⟨hu, p, q, h1, h2, rfl⟩
      · exact ⟨w0 + c.lower, by omega, Or.inl (.least h hk' hb)⟩
      · exact ⟨_, by omega, Or.inr (Or.inl ⟨hl, p, q + c.lower, h1, .least h2 hk' hb, rfl⟩)⟩
      · exact ⟨_, by omega, Or.inr (Or.inr ⟨hu, p, q + c.lower, h1, .least h2 hk' hb, rfl⟩)⟩
  | @most c w _ hk hb ih =>
    obtain ⟨w0, h0, h⟩ := ih
    rcases List.mem_cons.1 hk with rfl | hk'
    · rcases h with h | ⟨hl, p, q, h1, h2, rfl⟩ | ⟨-, p, q, h1, h2, rfl⟩
      · exact ⟨w0 - c.upper, by omega, Or.inr (Or.inr ⟨hb, w0, 0, h, .here, by omega⟩)⟩
      · have := no (.most (leads_trans (.least (.here (i := c.src)) hk hl) (up h2)) hk hb)
        exact ⟨p, by omega, Or.inl h1⟩
      · have := no (.most (up h2) hk hb)
        exact ⟨p - c.upper, by omega, Or.inr (Or.inr ⟨hb, p, 0, h1, .here, by omega⟩)⟩
    · rcases h with h | ⟨hl, p, q, h1, h2, rfl⟩ | ⟨hu, p, q, h1, h2, rfl⟩
      · exact ⟨w0 - c.upper, by omega, Or.inl (.most h hk' hb)⟩
      · exact ⟨_, by omega, Or.inr (Or.inl ⟨hl, p, q - c.upper, h1, .most h2 hk' hb, rfl⟩)⟩
      · exact ⟨_, by omega, Or.inr (Or.inr ⟨hu, p, q - c.upper, h1, .most h2 hk' hb, rfl⟩)⟩

/-- `h` asks what `k` asks, except for at most `d` ticks, and no more. -/
structure Weaker (d : Int) (k h : Constr) : Prop where
  src : h.src = k.src
  dst : h.dst = k.dst
  lower : (k.lower = -INF ∧ h.lower = -INF) ∨ (k.lower ≠ -INF ∧ h.lower ≠ -INF ∧ h.lower ≤ k.lower ∧ k.lower - h.lower ≤ d)
  upper : (k.upper = INF ∧ h.upper = INF) ∨ (k.upper ≠ INF ∧ h.upper ≠ INF ∧ k.upper ≤ h.upper ∧ h.upper - k.upper ≤ d)

inductive Weakers : List Int → List Constr → List Constr → Prop where
  | nil : Weakers [] [] []
  | cons {d : Int} {k h : Constr} {ds : List Int} {ks hs : List Constr} : Weaker d k h → Weakers ds ks hs →
      Weakers (d :: ds) (k :: ks) (h :: hs)

theorem Weakers.of_mem {ds : List Int} {ks hs : List Constr} (h : Weakers ds ks hs) : ∀ x ∈ hs, ∃ d, ∃ k ∈ ks, Weaker d k x := by
  induction h with
  | nil => exact fun _ h => nomatch h
  | cons w _ ih =>
    intro x hx
    rcases List.mem_cons.1 hx with rfl | hx
    · exact ⟨_, _, by simp, w⟩
    · obtain ⟨d, k, hk, w⟩ := ih x hx
      exact ⟨d, k, by simp [hk], w⟩

/-- what weaker constraints require is required by the stronger ones -/
theorem leads_weaker {ks hs : List Constr} (h : ∀ x ∈ hs, ∃ d, ∃ k ∈ ks, Weaker d k x) {i j : Nat} {w : Int} (l : Leads hs i j w) :
    ∃ w', Leads ks i j w' ∧ w ≤ w' := by
  induction l with
  | here => exact ⟨0, .here, Int.le_refl _⟩
  | @least c w _ hk hb ih =>
    obtain ⟨w', l', h'⟩ := ih
    obtain ⟨d, k, hk, wk⟩ := h c hk
    have e := wk.lower
    rw [wk.src] at l'
    rw [wk.dst]
    exact ⟨w' + k.lower, .least l' hk (by omega), by omega⟩
  | @most c w _ hk hb ih =>
    obtain ⟨w', l', h'⟩ := ih
    obtain ⟨d, k, hk, wk⟩ := h c hk
    have e := wk.upper
    rw [wk.dst] at l'
    rw [wk.src]
    exact ⟨w' - k.upper, .most l' hk (by omega), by omega⟩

theorem Weaker.self (k : Constr) : Weaker 0 k k := ⟨rfl, rfl, by omega, by omega⟩

theorem weaker_head {d : Int} {k h : Constr} (hw : Weaker d k h) {ks : List Constr} (hn : ¬ Loop (k :: ks)) {i j : Nat} {w : Int}
    (hd : 0 ≤ d) (l : Leads (k :: ks) i j w) : ∃ w', Leads (h :: ks) i j w' ∧ w - d ≤ w' := by
  have up : ∀ {a b : Nat} {v : Int}, Leads ks a b v → Leads (h :: ks) a b v := fun h => leads_mono (fun c hc => by simp [hc]) h
  obtain ⟨w0, h0, h1 | ⟨hl, p, q, a, b, rfl⟩ | ⟨hu, p, q, a, b, rfl⟩⟩ := leads_once hn l
  · exact ⟨w0, up h1, by omega⟩
  · have e := hw.lower
    have a := up a
    have b := up b
    rw [← hw.src] at a
    rw [← hw.dst] at b
    exact ⟨_, leads_trans (.least a (by simp) (by omega)) b, by omega⟩
  · have e := hw.upper
    have a := up a
    have b := up b
    rw [← hw.dst] at a
    rw [← hw.src] at b
    exact ⟨_, leads_trans (.most a (by simp) (by omega)) b, by omega⟩

theorem weaker_all {ds : List Int} {ks hs : List Constr} (hw : Weakers ds ks hs) (hd : ∀ d ∈ ds, 0 ≤ d) :
    ∀ (xs : List Constr), ¬ Loop (ks ++ xs) → ∀ {i j : Nat} {w : Int}, Leads (ks ++ xs) i j w →
      ∃ w', Leads (hs ++ xs) i j w' ∧ w - ds.sum ≤ w' := by
  induction hw with
  | nil => exact fun xs _ i j w l => ⟨w, l, by simp⟩
  | @cons d k h ds ks hs hw hs' ih =>
    intro xs hn i j w l
    have hn : ¬ Loop (k :: (ks ++ xs)) := hn
    obtain ⟨w1, l1, e1⟩ := weaker_head hw hn (hd d (by simp)) l
    have hn' : ¬ Loop (ks ++ h :: xs) := by
      rintro ⟨a, v, la, hv⟩
      obtain ⟨v', lb, hv'⟩ := leads_weaker (ks := k :: (ks ++ xs)) (fun x hx => by
        rw [List.mem_append, List.mem_cons] at hx
        rcases hx with hx | rfl | hx
        · exact ⟨0, x, by simp [hx], .self x⟩
        · exact ⟨d, k, by simp, hw⟩
        · exact ⟨0, x, by simp [hx], .self x⟩) la
      exact hn ⟨a, v', lb, by omega⟩
    obtain ⟨w2, l2, e2⟩ := ih (fun x hx => hd x (by simp [hx])) (h :: xs) hn' (leads_mono (ks := h :: (ks ++ xs)) (fun x hx => by
      simp only [List.mem_cons, List.mem_append] at *; rcases hx with a | a | a <;> simp [a]) l1)
    refine ⟨w2, leads_mono (fun x hx => ?_) l2, ?_⟩
    · simp only [List.cons_append, List.mem_cons, List.mem_append] at *; rcases hx with a | a | a <;> simp [a]
    · simp only [List.sum_cons]; omega

/-- the constraint which asks what both constraints ask -/
def hull (k k' : Constr) : Constr := ⟨k.src, k.dst, false, min k.lower k'.lower, max k.upper k'.upper⟩

theorem shaken_hulls {ds : List Int} {ks ks' : List Constr} (h : Shaken ds ks ks') :
    ∃ hs, Weakers ds ks hs ∧ Weakers ds ks' hs := by
  induction h with
  | nil => exact ⟨[], .nil, .nil⟩
  | @cons d k k' ds ks ks' h1 h2 h3 _ ih =>
    obtain ⟨hs, a, b⟩ := ih
    obtain ⟨p, q⟩ := h3
    simp only [NearBound, Constr.span] at p q
    exact ⟨hull k k' :: hs, .cons ⟨rfl, rfl, by simp only [hull]; omega, by simp only [hull]; omega⟩ a,
      .cons ⟨h1.symm, h2.symm, by simp only [hull]; omega, by simp only [hull]; omega⟩ b⟩

theorem shaken_leads {ds : List Int} {ks ks' : List Constr} (h : Shaken ds ks ks') (hd : ∀ d ∈ ds, 0 ≤ d) (hn : ¬ Loop ks) {i j : Nat}
    {w : Int} (l : Leads ks i j w) : ∃ w', Leads ks' i j w' ∧ w - ds.sum ≤ w' := by
  obtain ⟨hs, a, b⟩ := shaken_hulls h
  obtain ⟨w1, l1, e1⟩ := weaker_all a hd [] (by rw [List.append_nil]; exact hn) (i := i) (j := j) (w := w) (by rw [List.append_nil]; exact l)
  rw [List.append_nil] at l1
  obtain ⟨w2, l2, e2⟩ := leads_weaker b.of_mem l1
  exact ⟨w2, l2, by omega⟩

theorem shaken_swap {ds : List Int} {ks ks' : List Constr} (h : Shaken ds ks ks') : Shaken ds ks' ks := by
  induction h with
  | nil => exact .nil
  | cons h1 h2 h3 _ ih =>
    refine .cons h1.symm h2.symm ⟨?_, ?_⟩ ih
    · have := h3.1; simp only [NearBound] at *; omega
    · have := h3.2; simp only [NearBound] at *; omega

theorem shaken_pos {ds : List Int} {ks ks' : List Constr} (h : Shaken ds ks ks') (hd : ∀ d ∈ ds, 0 ≤ d) {i j : Nat} {s s' : Iv}
    (a : Explained ks i j s) (b : Explained ks' i j s') (n : ¬ Loop ks) (n' : ¬ Loop ks') : NearSpan ds.sum s s' := by
  obtain ⟨a1, a2, a3, a4⟩ := a
  obtain ⟨b1, b2, b3, b4⟩ := b
  have go := fun {i j : Nat} {w : Int} (l : Leads ks i j w) => shaken_leads h hd n l
  have back := fun {i j : Nat} {w : Int} (l : Leads ks' i j w) => shaken_leads (shaken_swap h) hd n' l
  refine ⟨?_, ?_⟩
  · by_cases c : s.lower = -INF
    · by_cases c' : s'.lower = -INF
      · exact Or.inl ⟨c, c'⟩
      · obtain ⟨w, l, e⟩ := back (b1 c').1
        exact absurd l (a2 c w)
    · obtain ⟨w, l, e⟩ := go (a1 c).1
      by_cases c' : s'.lower = -INF
      · exact absurd l (b2 c' w)
      · obtain ⟨w', l', e'⟩ := back (b1 c').1
        have := (a1 c).2 _ l'
        have := (b1 c').2 _ l
        exact Or.inr ⟨c, c', by omega, by omega⟩
  · by_cases c : s.upper = INF
    · by_cases c' : s'.upper = INF
      · exact Or.inl ⟨c, c'⟩
      · obtain ⟨w, l, e⟩ := back (b3 c').1
        exact absurd l (a4 c w)
    · obtain ⟨w, l, e⟩ := go (a3 c).1
      by_cases c' : s'.upper = INF
      · exact absurd l (b4 c' w)
      · obtain ⟨w', l', e'⟩ := back (b3 c').1
        have := (a3 c).2 _ l'
        have := (b3 c').2 _ l
        exact Or.inr ⟨c, c', by omega, by omega⟩

/-! ## Properties -/

/-- **C149.** When the bounds of the constraints are moved, no bound of a delay announced by the graph moves by more than the total of the
moves, and none appears or disappears. -/
theorem C149_delay {g g' : Graph} (hm : Minimal g) (hm' : Minimal g') {ks ks' : List Constr} (hs : ∀ τ, Sat τ g ↔ ∀ k ∈ ks, Holds τ k)
    (hs' : ∀ τ, Sat τ g' ↔ ∀ k ∈ ks', Holds τ k) {ds : List Int} (h : Shaken ds ks ks') (hd : ∀ d ∈ ds, 0 ≤ d) {i j : Nat}
    (hi : i < g.size) (hj : j < g.size) (hi' : i < g'.size) (hj' : j < g'.size) {s s' : Iv} (e : g.timespan i j = .ok s)
    (e' : g'.timespan i j = .ok s') : NearSpan ds.sum s s' := by
  obtain ⟨τ, t⟩ := hm.1
  obtain ⟨τ', t'⟩ := hm'.1
  exact shaken_pos h hd (C148_delay hm hs hi hj e) (C148_delay hm' hs' hi' hj' e') (fun l => loop_unsat l ⟨τ, (hs τ).1 t⟩)
    (fun l => loop_unsat l ⟨τ', (hs' τ').1 t'⟩)

/-- **C149.** Two graphs built by the same requests, except that the bounds have been moved: if all the requests are accepted in both of
them, the announced delays differ by at most the total of the moves. -/
theorem C149_history {n : Nat} (hn : n ≤ 65535) {W : Int} (hW : 0 ≤ W) (hB : 3 * (n : Int) * W < INF)
    {ks ks' : List Constr} (hks : ∀ k ∈ ks, Usable n W k) (hks' : ∀ k ∈ ks', Usable n W k) {ds : List Int} (h : Shaken ds ks ks')
    (hd : ∀ d ∈ ds, 0 ≤ d) {g g' : Graph} (e : (Graph.withSize n >>= fun g => propagateAll g ks) = .ok (g, ks))
    (e' : (Graph.withSize n >>= fun g => propagateAll g ks') = .ok (g', ks')) :
    ∀ i j, i < n → j < n → ∃ s s', g.timespan i j = .ok s ∧ g'.timespan i j = .ok s' ∧ NearSpan ds.sum s s' := by
  obtain ⟨g1, acc, e1, sz, hm, hs, ha, -⟩ := C63_history hn hW hB hks
  obtain ⟨g2, acc', e2, sz', hm', hs', ha', -⟩ := C63_history hn hW hB hks'
  rw [e] at e1; cases e1
  rw [e'] at e2; cases e2
  intro i j hi hj
  obtain ⟨s, es, -⟩ := ha i j hi hj
  obtain ⟨s', es', -⟩ := ha' i j hi hj
  exact ⟨s, s', es, es', C149_delay hm hm' hs hs' h hd (by omega) (by omega) (by omega) (by omega) es es'⟩

/-- **C149.** The same for graphs collected from lists of constraints. -/
theorem C149_collect {W : Int} (hW : 0 ≤ W) {n : Nat} (hn0 : 0 < n) (hn2 : n ≤ 65535)
    (hB : 3 * (n : Int) * W < INF) {ks ks' : List Constr} (hks : ∀ k ∈ ks, Batchable n W k ∧ Usable n W k ∧ k.isEmpty = false)
    (hks' : ∀ k ∈ ks', Batchable n W k ∧ Usable n W k ∧ k.isEmpty = false) {ds : List Int} (h : Shaken ds ks ks')
    (hd : ∀ d ∈ ds, 0 ≤ d) {hint : Option Nat} (hh : ∀ m, hint = some m → ks.length ≤ m)
    (hself : hint = some 1 → ∀ k ∈ ks, k.src ≠ k.dst) {g g' : Graph} (e : Graph.fromConstraints hint ks = .ok g)
    (e' : Graph.fromConstraints hint ks' = .ok g') {i j : Nat}
    (hi : i < g.size) (hj : j < g.size) (hi' : i < g'.size) (hj' : j < g'.size) :
    ∃ s s', g.timespan i j = .ok s ∧ g'.timespan i j = .ok s' ∧ NearSpan ds.sum s s' := by
  have len : ks'.length = ks.length := by
    clear e e' hks hks' hh hself
    induction h with
    | nil => rfl
    | cons _ _ _ _ ih => simp only [List.length_cons]; have := ih (fun d h => hd d (by simp [h])); omega
  have self' : hint = some 1 → ∀ k ∈ ks', k.src ≠ k.dst := by
    intro he
    have := hself he
    clear e e' hks hks' hh hself
    induction h with
    | nil => exact fun _ h => nomatch h
    | cons h1 h2 _ _ ih =>
      intro k hk
      rcases List.mem_cons.1 hk with rfl | hk
      · rw [h1, h2]; exact this _ (by simp)
      · exact ih (fun d h => hd d (by simp [h])) (by simp only [List.length_cons] at len; omega) (fun k h => this k (by simp [h])) k hk
  obtain ⟨-, h1⟩ := C103_collect_partial hW hn0 hn2 hB (fun k hk => ⟨(hks k hk).1, (hks k hk).2.1⟩) hh hself
  obtain ⟨-, h2⟩ := C103_collect_partial hW hn0 hn2 hB (fun k hk => ⟨(hks' k hk).1, (hks' k hk).2.1⟩) (fun m hm => by rw [len]; exact hh m hm) self'
  obtain ⟨-, -, hm, hs⟩ := h1 g e
  obtain ⟨-, -, hm', hs'⟩ := h2 g' e'
  obtain ⟨τ, t⟩ := hm.1
  obtain ⟨τ', t'⟩ := hm'.1
  obtain ⟨s, es, -⟩ := t i j hi hj
  obtain ⟨s', es', -⟩ := t' i j hi' hj'
  exact ⟨s, s', es, es', C149_delay hm hm' hs hs' h hd hi hj hi' hj' es es'⟩

/-- **C149.** If some assignment of the instants obeys all the constraints with a margin of `d` ticks on each side, then the constraints
moved by at most `d` ticks each are all accepted. -/
theorem C149_margin {n : Nat} (hn : n ≤ 65535) {W : Int} (hW : 0 ≤ W) (hB : 3 * (n : Int) * W < INF) {ks ks' : List Constr}
    (hks' : ∀ k ∈ ks', Usable n W k ∧ k.isEmpty = false) {ds : List Int} (h : Shaken ds ks ks') {d : Int} (hd : ∀ x ∈ ds, x ≤ d)
    {τ : Nat → Int} (hτ : ∀ k ∈ ks, (k.lower = -INF ∨ k.lower + d ≤ τ k.dst - τ k.src) ∧
      (k.upper = INF ∨ τ k.dst - τ k.src + d ≤ k.upper)) :
    ∃ g, (Graph.withSize n >>= fun g => propagateAll g ks') = .ok (g, ks') := by
  have sat : ∀ k ∈ ks', Holds τ k := by
    have he : ∀ k ∈ ks', k.isEmpty = false := fun k hk => (hks' k hk).2
    clear hks'
    induction h with
    | nil => exact fun _ h => nomatch h
    | @cons x k k' ds ks ks' h1 h2 h3 _ ih =>
      intro c hc
      rcases List.mem_cons.1 hc with rfl | hc
      · have t := hτ k (by simp)
        have x1 := hd x (by simp)
        refine (holds_iff (he c (by simp))).2 ?_
        simp only [NearSpan, NearBound, Constr.span] at h3
        rw [h1, h2]
        omega
      · exact ih (fun x h => hd x (by simp [h])) (fun k h => hτ k (by simp [h])) (fun k h => he k (by simp [h])) c hc
  obtain ⟨g0, e0, n0, v0, -, m0⟩ := withSize_eq hn
  obtain ⟨g, acc, e1, -, -, -, -, -, -, all⟩ := propagateAll_tight (ks := ks') hW v0 (unconstrained_closed (by rw [n0]; exact m0))
    (unconstrained_tight (by rw [n0]; exact m0)) (by rw [n0]; exact hB) (by rw [n0]; exact fun k h => (hks' k h).1)
  have := all ⟨τ, unconstrained_sat (by rw [n0]; exact m0) τ, sat⟩
  subst this
  exact ⟨g, by rw [e0, ok_bind, e1]⟩

/-! ## Examples -/

/-- the second constraint is moved by two ticks and the first one by one tick -/
theorem ex_shaken : Shaken [1, 2] [⟨0, 1, false, 10, 20⟩, ⟨1, 2, false, 5, 6⟩] [⟨0, 1, false, 9, 19⟩, ⟨1, 2, false, 3, 4⟩] :=
  .cons rfl rfl ⟨by unfold NearBound; decide, by unfold NearBound; decide⟩
    (.cons rfl rfl ⟨by unfold NearBound; decide, by unfold NearBound; decide⟩ .nil)

/-- The bounds between the ends move by three ticks, as they may: the total of the moves is the best bound. -/
example : ∃ g g', (Graph.withSize 3 >>= fun g => propagateAll g [⟨0, 1, false, 10, 20⟩, ⟨1, 2, false, 5, 6⟩]) =
      .ok (g, [⟨0, 1, false, 10, 20⟩, ⟨1, 2, false, 5, 6⟩]) ∧
    (Graph.withSize 3 >>= fun g => propagateAll g [⟨0, 1, false, 9, 19⟩, ⟨1, 2, false, 3, 4⟩]) =
      .ok (g', [⟨0, 1, false, 9, 19⟩, ⟨1, 2, false, 3, 4⟩]) ∧
    g.timespan 0 2 = .ok ⟨15, 26⟩ ∧ g'.timespan 0 2 = .ok ⟨12, 23⟩ ∧
    ∀ i j, i < 3 → j < 3 → ∃ s s', g.timespan i j = .ok s ∧ g'.timespan i j = .ok s' ∧ NearSpan 3 s s' := by
  obtain ⟨g, a⟩ : ∃ g, (Graph.withSize 3 >>= fun g => propagateAll g [⟨0, 1, false, 10, 20⟩, ⟨1, 2, false, 5, 6⟩]) =
    .ok (g, [⟨0, 1, false, 10, 20⟩, ⟨1, 2, false, 5, 6⟩]) ∧ g.timespan 0 2 = .ok ⟨15, 26⟩ := ⟨_, rfl, by decide⟩
  obtain ⟨g', b⟩ : ∃ g, (Graph.withSize 3 >>= fun g => propagateAll g [⟨0, 1, false, 9, 19⟩, ⟨1, 2, false, 3, 4⟩]) =
    .ok (g, [⟨0, 1, false, 9, 19⟩, ⟨1, 2, false, 3, 4⟩]) ∧ g.timespan 0 2 = .ok ⟨12, 23⟩ := ⟨_, rfl, by decide⟩
  exact ⟨g, g', a.1, b.1, a.2, b.2, C149_history (W := 26) (by decide) (by decide) (by decide)
    (by simp only [List.mem_cons, List.not_mem_nil, or_false]; rintro k (rfl | rfl) <;> decide)
    (by simp only [List.mem_cons, List.not_mem_nil, or_false]; rintro k (rfl | rfl) <;> decide) ex_shaken (by decide) a.1 b.1⟩

example : ∃ g g', Graph.fromConstraints none [⟨0, 1, false, 10, 20⟩, ⟨1, 2, false, 5, 6⟩] = .ok g ∧
    Graph.fromConstraints none [⟨0, 1, false, 9, 19⟩, ⟨1, 2, false, 3, 4⟩] = .ok g' ∧ g.size = 3 ∧ g'.size = 3 ∧
    Batchable 3 26 ⟨0, 1, false, 9, 19⟩ ∧ Usable 3 26 ⟨0, 1, false, 9, 19⟩ := ⟨_, _, rfl, rfl, by decide, by decide, by decide, by decide⟩

example : ∃ g, (Graph.withSize 3 >>= fun g => propagateAll g [⟨0, 1, false, 9, 19⟩, ⟨1, 2, false, 3, 4⟩]) =
    .ok (g, [⟨0, 1, false, 9, 19⟩, ⟨1, 2, false, 3, 4⟩]) := by
  have h : Shaken [1, 2] [⟨0, 1, false, 10, 20⟩, ⟨1, 2, false, 2, 6⟩] [⟨0, 1, false, 9, 19⟩, ⟨1, 2, false, 3, 4⟩] :=
    .cons rfl rfl ⟨by unfold NearBound; decide, by unfold NearBound; decide⟩
      (.cons rfl rfl ⟨by unfold NearBound; decide, by unfold NearBound; decide⟩ .nil)
  refine C149_margin (W := 26) (by decide) (by decide) (by decide) ?_ h (d := 2) (by decide) (τ := fun i => if i = 0 then 0 else if i = 1 then 15 else 19) ?_
  · simp only [List.mem_cons, List.not_mem_nil, or_false]; rintro k (rfl | rfl) <;> decide
  · simp only [List.mem_cons, List.not_mem_nil, or_false]; rintro k (rfl | rfl) <;> decide

end Chrono
