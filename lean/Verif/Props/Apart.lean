import Verif.Lemmas.Apart
import Verif.Props.Rename
import Verif.Props.Scheduler

/-!
# C128: independent parts do not interfere
-/

set_option linter.unusedSimpArgs false

namespace Chrono
open Spec

/-- the first assignment on the part, the second one on the rest -/
def glue (P : Nat → Bool) (τ σ : Nat → Int) : Nat → Int := fun i => if P i then τ i else σ i

theorem holds_glue {P : Nat → Bool} {τ σ : Nat → Int} {k : Constr} :
    ((P k.src = true ∧ P k.dst = true) → (Holds (glue P τ σ) k ↔ Holds τ k)) ∧
    ((P k.src ≠ true ∧ P k.dst ≠ true) → (Holds (glue P τ σ) k ↔ Holds σ k)) := by
  constructor
  · rintro ⟨h1, h2⟩
    simp only [Holds, glue, if_pos h1, if_pos h2]
  · rintro ⟨h1, h2⟩
    simp only [Holds, glue, if_neg h1, if_neg h2]

/-- `N` has the solutions of the part of the constraints of `M` -/
structure PartOf (P : Nat → Bool) (n : Nat) (M N : Mat) : Prop where
  closed : Closed n M
  closed' : Closed n N
  sub : ∀ τ, MSat n M τ → MSat n N τ
  glue : ∀ τ σ, MSat n N τ → MSat n M σ → MSat n M (glue P τ σ)

theorem answers_part {P : Nat → Bool} {n : Nat} {W : Int} (hW : 0 ≤ W) (hB : 3 * (n : Int) * W < INF) : ∀ {ks : List Constr} {g g' : Graph},
    Valid g → Valid g' → g.size = n → g'.size = n → PartOf P n (mat g) (mat g') → Tight W n (mat g) → Tight W n (mat g') →
    (∀ k ∈ ks, Usable n W k ∧ P k.src = P k.dst) →
    ∃ h h' os, answers g ks = .ok (h, os) ∧
      answers g' (ks.filter (Constr.within P)) = .ok (h', answersTo (Constr.within P) ks os) ∧
      Valid h ∧ Valid h' ∧ h.size = n ∧ h'.size = n ∧ PartOf P n (mat h) (mat h')
  | [], g, g', v, v', s, s', p, _, _, _ => ⟨g, g', [], rfl, rfl, v, v', s, s', p⟩
  | k :: ks, g, g', v, v', s, s', p, t, t', hk => by
    subst s
    obtain ⟨uk, pk⟩ := hk k (by simp)
    obtain ⟨g1, o, e1, s1, c1, t1, -, nf, r1, a1, u1⟩ := propagate_tight v hW p.closed t hB uk
    cases hin : Constr.within P k with
    | true =>
      have ins : P k.src = true ∧ P k.dst = true := by
        unfold Constr.within at hin; simpa using hin
      obtain ⟨g2, o', e2, s2, c2, t2, -, nf', r2, a2, u2⟩ := propagate_tight v' hW (by rw [s']; exact p.closed') (by rw [s']; exact t')
        (by rw [s']; exact hB) (by rw [s']; exact uk)
      rw [s'] at c2 t2 r2 a2 u2
      obtain ⟨σ0, hσ0⟩ := p.closed.sat
      have rr : o = .recovered ↔ o' = .recovered := by
        constructor
        · refine fun h => Classical.byContradiction fun hn => ?_
          obtain ⟨τ, ht⟩ := c2.sat
          obtain ⟨x, y⟩ := (a2 hn τ).1 ht
          exact (r1 h).2 _ (p.glue τ σ0 x hσ0) ((holds_glue.1 ins).2 y)
        · refine fun h => Classical.byContradiction fun hn => ?_
          obtain ⟨τ, ht⟩ := c1.sat
          obtain ⟨x, y⟩ := (a1 hn τ).1 ht
          exact (r2 h).2 τ (p.sub τ x) y
      have uu : o = .unchanged ↔ o' = .unchanged := by
        rw [u1, u2]
        exact ⟨fun h τ x => (holds_glue.1 ins).1 (h _ (p.glue τ σ0 x hσ0)), fun h τ x => h τ (p.sub τ x)⟩
      have oo : o' = o := by
        revert rr uu nf nf'
        cases o <;> cases o' <;> simp
      subst oo
      have p1 : PartOf P g.size (mat g1) (mat g2) := by
        refine ⟨c1, c2, fun τ h => ?_, fun τ σ h h' => ?_⟩
        · by_cases hr : o' = .recovered
          · rw [(r1 hr).1] at h
            rw [(r2 hr).1]
            exact p.sub τ h
          · have := (a1 hr τ).1 h
            exact (a2 hr τ).2 ⟨p.sub τ this.1, this.2⟩
        · by_cases hr : o' = .recovered
          · rw [(r1 hr).1] at h' ⊢
            rw [(r2 hr).1] at h
            exact p.glue τ σ h h'
          · have x := (a2 hr τ).1 h
            have y := (a1 hr σ).1 h'
            exact (a1 hr _).2 ⟨p.glue τ σ x.1 y.1, (holds_glue.1 ins).2 x.2⟩
      obtain ⟨h, h', os, x1, x2, x3⟩ := answers_part hW hB (ks := ks) (s1.valid v) (s2.valid v') s1.size (s2.size.trans s') p1 t1 t2
        (fun k' hk' => hk k' (by simp [hk']))
      refine ⟨h, h', o' :: os, ?_, ?_, x3⟩
      · unfold answers; rw [e1, ok_bind]; simp only; rw [x1, ok_bind]; rfl
      · rw [List.filter_cons_of_pos hin]
        unfold answers; rw [e2, ok_bind]; simp only; rw [x2, ok_bind]
        simp [answersTo, hin]
        rfl
    | false =>
      have out : P k.src ≠ true ∧ P k.dst ≠ true := by
        unfold Constr.within at hin
        rw [pk] at hin ⊢
        simp at hin
        simp [hin]
      have p1 : PartOf P g.size (mat g1) (mat g') := by
        refine ⟨c1, p.closed', fun τ h => ?_, fun τ σ h h' => ?_⟩
        · by_cases hr : o = .recovered
          · rw [(r1 hr).1] at h
            exact p.sub τ h
          · exact p.sub τ ((a1 hr τ).1 h).1
        · by_cases hr : o = .recovered
          · rw [(r1 hr).1] at h' ⊢
            exact p.glue τ σ h h'
          · have y := (a1 hr σ).1 h'
            exact (a1 hr _).2 ⟨p.glue τ σ h y.1, (holds_glue.2 out).2 y.2⟩
      obtain ⟨h, h', os, x1, x2, x3⟩ := answers_part hW hB (ks := ks) (s1.valid v) v' s1.size s' p1 t1 t'
        (fun k' hk' => hk k' (by simp [hk']))
      refine ⟨h, h', o :: os, ?_, ?_, x3⟩
      · unfold answers; rw [e1, ok_bind]; simp only; rw [x1, ok_bind]; rfl
      · rw [List.filter_cons_of_neg (by rw [hin]; decide), x2]
        simp [answersTo, hin]

/-- C128 for graphs: if each constraint is between two instants of the part, or between two instants of the rest, then the constraints of the
part get the same answers, and give the same delays between the instants of the part, as if the others had not been given; and nothing is
announced about the delays between the part and the rest. -/
theorem C128_graph {P : Nat → Bool} {n : Nat} (hn : n ≤ 65535) {W : Int} (hW : 0 ≤ W) (hB : 3 * (n : Int) * W < INF) {ks : List Constr}
    (hk : ∀ k ∈ ks, Usable n W k ∧ P k.src = P k.dst) :
    ∃ g g' os, (Graph.withSize n >>= fun g => answers g ks) = .ok (g, os) ∧
      (Graph.withSize n >>= fun g => answers g (ks.filter (Constr.within P))) = .ok (g', answersTo (Constr.within P) ks os) ∧
      g.size = n ∧ g'.size = n ∧ Unrelated P g ∧
      ∀ i j, i < n → j < n → P i = true → P j = true → g.timespan i j = g'.timespan i j := by
  obtain ⟨g0, e0, n0, v0, -, m0⟩ := withSize_eq hn
  rw [e0]
  simp only [ok_bind]
  obtain ⟨g, g', os, a1, a2, v, v', s, s', p⟩ := answers_part hW hB v0 v0 n0 n0
    (P := P) ⟨unconstrained_closed m0, unconstrained_closed m0, fun τ h => h, fun τ σ _ _ => unconstrained_sat m0 _⟩
    (unconstrained_tight m0) (unconstrained_tight m0) hk
  have none : ∀ i j, i < n → j < n → P i ≠ P j → mat g i j = -INF := by
    intro i j hi hj hne
    refine Classical.byContradiction fun hc => ?_
    obtain ⟨σ, hσ⟩ := p.closed.sat
    have shift : ∀ c : Int, MSat n (mat g') (fun a => σ a + c) := by
      intro c a ha b hb
      have := p.sub σ hσ a ha b hb
      simp only
      omega
    have far := fun c => p.glue _ σ (shift c) hσ i hi j hj
    cases hPi : P i with
    | true =>
      have hPj : P j = false := by rw [hPi] at hne; cases h : P j; rfl; exact absurd h.symm hne
      have := far (σ j - σ i - mat g i j + 1)
      simp only [glue, hPi, hPj, if_true] at this
      rcases this with h | h
      · exact hc h
      · simp at h; omega
    | false =>
      have hPj : P j = true := by rw [hPi] at hne; cases h : P j; exact absurd h.symm hne; rfl
      have := far (mat g i j - (σ j - σ i) - 1)
      simp only [glue, hPi, hPj, if_true] at this
      rcases this with h | h
      · exact hc h
      · simp at h; omega
  refine ⟨g, g', os, a1, a2, s, s', fun i j hi hj hne => ?_, fun i j hi hj hPi hPj => ?_⟩
  · rw [timespan_eq v hi hj, none i j (by omega) (by omega) hne, none j i (by omega) (by omega) (Ne.symm hne)]
    rfl
  · have same : ∀ {i j : Nat}, i < n → j < n → P i = true → P j = true → mat g i j = mat g' i j := by
      intro i j hi hj hPi hPj
      obtain ⟨σ0, hσ0⟩ := p.closed.sat
      have gi : ∀ τ, glue P τ σ0 i = τ i := fun τ => by simp only [glue, if_pos hPi]
      have gj : ∀ τ, glue P τ σ0 j = τ j := fun τ => by simp only [glue, if_pos hPj]
      by_cases c : mat g i j = -INF
      · rw [c]
        refine Classical.byContradiction fun c' => ?_
        obtain ⟨τ, h1, h2⟩ := p.closed.attain_below hi hj c (mat g' i j)
        have := p.sub τ h1 i hi j hj
        omega
      · obtain ⟨τ, h1, h2⟩ := p.closed.attain_lower hi hj c
        have x := p.sub τ h1 i hi j hj
        by_cases c' : mat g' i j = -INF
        · obtain ⟨τ', h1', h2'⟩ := p.closed'.attain_below hi hj c' (mat g i j)
          have := p.glue τ' σ0 h1' hσ0 i hi j hj
          rw [gi, gj] at this
          omega
        · obtain ⟨τ', h1', h2'⟩ := p.closed'.attain_lower hi hj c'
          have := p.glue τ' σ0 h1' hσ0 i hi j hj
          rw [gi, gj] at this
          omega
    rw [timespan_eq v (by omega) (by omega), timespan_eq v' (by omega) (by omega), same hi hj hPi hPj, same hj hi hPj hPi]

theorem call_on {dbg : Bool} {P : Nat → Bool} {s t s' : Sched} {o : Outcome} (hv : Valid s.graph) (hs : Spanned s.graph) (hc : LooseSched s)
    (hct : LooseSched t) (hg : t.graph = s.graph) (hP : Unrelated P s.graph) (hab : AgreeOn P s.schedule t.schedule) {c : Call}
    (hk : c.Proper s.graph.size) (hn : c.NonEmpty) (h : c.run dbg s = .ok (s', o)) :
    s'.graph = s.graph ∧ LooseSched s' ∧
    (P c.instant = true → ∃ t', c.run dbg t = .ok (t', o) ∧ t'.graph = t.graph ∧ LooseSched t' ∧ AgreeOn P s'.schedule t'.schedule) ∧
    (P c.instant ≠ true → AgreeOn P s'.schedule t.schedule) := by
  have key : ∀ (i : Nat) (w : Window), i < s.graph.size → ProperWindow w → (∀ v, w = .conv v → ∃ t, InExtConvex t v) →
      s.retain dbg i w = .ok (s', o) →
      s'.graph = s.graph ∧ LooseSched s' ∧
      (P i = true → ∃ t', t.retain dbg i w = .ok (t', o) ∧ t'.graph = t.graph ∧ LooseSched t' ∧ AgreeOn P s'.schedule t'.schedule) ∧
      (P i ≠ true → AgreeOn P s'.schedule t.schedule) := by
    intro i w hi hw hne h
    rcases retain_any dbg hv hs hc hi hw with ⟨s1, o1, e1, R⟩ | ⟨-, e1⟩
    · rw [h] at e1
      cases e1
      refine ⟨R.graph, R.loose, fun hPi => ?_, fun hPi => (retain_off hv hs hc hP hi hPi hw hne h).trans hab⟩
      obtain ⟨t', e', ht⟩ := retain_on hv hs hc hct hg hab hi hPi hw h
      rcases retain_any dbg (by rw [hg]; exact hv) (by rw [hg]; exact hs) hct (by rw [hg]; exact hi) hw with ⟨t1, o2, e2, R2⟩ | ⟨-, e2⟩
      · rw [e'] at e2
        cases e2
        exact ⟨t', e', R2.graph, R2.loose, ht⟩
      · rw [e'] at e2; cases e2
    · rw [h] at e1; cases e1
  cases c with
  | retain i w => exact key i w hk.1 hk.2 (fun v e => by subst e; exact hn) h
  | remove i w => exact key i (.set w.not) hk.1 (neg_any hk.2).1 (fun v e => by cases e) h

theorem replies_part {dbg : Bool} {P : Nat → Bool} : ∀ {l : List Call} {s t s' : Sched} {os : List Outcome}, Valid s.graph →
    Spanned s.graph → LooseSched s → LooseSched t → t.graph = s.graph → Unrelated P s.graph → AgreeOn P s.schedule t.schedule →
    (∀ c ∈ l, c.Proper s.graph.size ∧ c.NonEmpty) → replies dbg s l = .ok (s', os) →
    ∃ t', replies dbg t (l.filter fun c => P c.instant) = .ok (t', answersTo (fun c => P c.instant) l os) ∧
      AgreeOn P s'.schedule t'.schedule
  | [], s, t, s', os, _, _, _, _, _, _, hab, _, h => by cases h; exact ⟨t, rfl, hab⟩
  | c :: l, s, t, s', os, hv, hs, hc, hct, hg, hP, hab, hk, h => by
    obtain ⟨k1, k2⟩ := hk c (by simp)
    unfold replies at h
    cases e : c.run dbg s with
    | error => rw [e] at h; cases h
    | ok q =>
      obtain ⟨s1, o⟩ := q
      rw [e, ok_bind] at h
      simp only at h
      cases e' : replies dbg s1 l with
      | error => rw [e'] at h; cases h
      | ok q =>
        obtain ⟨s2, os2⟩ := q
        rw [e', ok_bind] at h
        cases h
        obtain ⟨b1, b2, b3, b4⟩ := call_on hv hs hc hct hg hP hab k1 k2 e
        have hk' : ∀ c ∈ l, c.Proper s1.graph.size ∧ c.NonEmpty := fun c h => by rw [b1]; exact hk c (by simp [h])
        cases hin : P c.instant with
        | true =>
          obtain ⟨t1, d1, d2, d3, d4⟩ := b3 hin
          obtain ⟨t', f1, f2⟩ := replies_part (by rw [b1]; exact hv) (by rw [b1]; exact hs) b2 d3 (by rw [d2, hg, b1])
            (by rw [b1]; exact hP) d4 hk' e'
          refine ⟨t', ?_, f2⟩
          rw [List.filter_cons_of_pos (by simpa using hin)]
          unfold replies
          rw [d1, ok_bind]
          simp only
          rw [f1, ok_bind]
          simp [answersTo, hin]
          rfl
        | false =>
          have d := b4 (by rw [hin]; decide)
          obtain ⟨t', f1, f2⟩ := replies_part (by rw [b1]; exact hv) (by rw [b1]; exact hs) b2 hct (by rw [hg, b1])
            (by rw [b1]; exact hP) d hk' e'
          refine ⟨t', ?_, f2⟩
          rw [List.filter_cons_of_neg (by simpa using hin), f1]
          simp [answersTo, hin]

/-- C128 for schedulers: if the graph announces nothing about the delays between the part and the rest, then the requests on the instants of
the part get the same answers, and leave the same slots, as if the requests on the others had not been made. Missing: requests of empty
intervals and ranges, which are accepted (C75), for which it fails (below). -/
theorem C128_sched_partial (dbg : Bool) {P : Nat → Bool} {g : Graph} (hv : Valid g) (hs : Spanned g) (hP : Unrelated P g) {calls : List Call}
    (hk : ∀ c ∈ calls, c.Proper g.size ∧ c.NonEmpty) {s : Sched} {os : List Outcome}
    (h : replies dbg (Sched.new g) calls = .ok (s, os)) :
    ∃ s', replies dbg (Sched.new g) (calls.filter fun c => P c.instant) = .ok (s', answersTo (fun c => P c.instant) calls os) ∧
      ∀ i, P i = true → s'.scheduling i = s.scheduling i := by
  obtain ⟨s', a, b⟩ := replies_part hv hs (new_loose g) (new_loose g) rfl hP (AgreeOn.refl _ _) hk h
  exact ⟨s', a, fun i hi => (b i hi).symm⟩

-- the second and the fourth constraint are refused; those between 0 and 2 get the same answers without the others
example : ∃ g g' os, (Graph.withSize 4 >>= fun g => answers g [⟨0, 2, false, 5, 9⟩, ⟨1, 3, true, 4, 3⟩, ⟨1, 3, false, 0, 3⟩, ⟨2, 0, false, 0, 1⟩]) = .ok (g, os) ∧
    (Graph.withSize 4 >>= fun g => answers g [⟨0, 2, false, 5, 9⟩, ⟨2, 0, false, 0, 1⟩]) =
      .ok (g', answersTo (Constr.within fun i => i % 2 == 0) [⟨0, 2, false, 5, 9⟩, ⟨1, 3, true, 4, 3⟩, ⟨1, 3, false, 0, 3⟩, ⟨2, 0, false, 0, 1⟩] os) ∧
    g.size = 4 ∧ g'.size = 4 ∧ Unrelated (fun i => i % 2 == 0) g ∧
    ∀ i j, i < 4 → j < 4 → (i % 2 == 0) = true → (j % 2 == 0) = true → g.timespan i j = g'.timespan i j :=
  C128_graph (P := fun i => i % 2 == 0) (n := 4) (by decide) (W := 9) (by decide) (by decide) (by
    intro k hk
    simp only [List.mem_cons, List.not_mem_nil, or_false] at hk
    rcases hk with rfl | rfl | rfl | rfl <;> exact ⟨by unfold Usable; decide, by decide⟩)

-- instants 0 and 2 (`0` is 5 to 9 before `2`) are not related to 1 and 3 (`1` is at most 3 before `3`)
def apartGraph : Graph := ⟨4, [0, -INF, 0, -INF, -9, -INF, 0, -INF, 5, -INF, -3, -INF, 0, -INF, 0, -INF]⟩

theorem apartGraph_unrelated : Unrelated (fun i => i % 2 == 0) apartGraph := by
  have : ∀ i : Fin 4, ∀ j : Fin 4, ((i.1 % 2 == 0) ≠ (j.1 % 2 == 0)) → apartGraph.timespan i j = .ok ⟨-INF, INF⟩ := by decide
  exact fun i j hi hj => this ⟨i, hi⟩ ⟨j, hj⟩

-- the request on 2 propagates to 0, the last one is refused; the answers and the slots of 0 and 2 are those of the two requests on them
example : ∃ s s' os, replies true (Sched.new apartGraph) [.retain 1 (.conv (.iv ⟨0, 3⟩)), .retain 2 (.set [⟨0, 4⟩, ⟨10, 20⟩]),
      .remove 3 (.iv ⟨5, 50⟩), .retain 0 (.conv (.rangeFrom 30))] = .ok (s, os) ∧
    os = [.propagated, .propagated, .propagated, .recovered] ∧
    replies true (Sched.new apartGraph) [.retain 2 (.set [⟨0, 4⟩, ⟨10, 20⟩]), .retain 0 (.conv (.rangeFrom 30))] =
      .ok (s', [.propagated, .recovered]) ∧ s'.scheduling 0 = s.scheduling 0 := by
  have hs : Spanned apartGraph := by
    have : ∀ i : Fin 4, ∀ j : Fin 4, (match apartGraph.timespan i j with | .ok s => decide (WF s) | .error _ => true) = true := by decide
    intro i j hi hj sp e
    have := this ⟨i, hi⟩ ⟨j, hj⟩
    rw [e] at this
    simpa using this
  obtain ⟨s', h1, h2⟩ := C128_sched_partial true (P := fun i => i % 2 == 0) (g := apartGraph) (by decide) hs apartGraph_unrelated
    (calls := [.retain 1 (.conv (.iv ⟨0, 3⟩)), .retain 2 (.set [⟨0, 4⟩, ⟨10, 20⟩]), .remove 3 (.iv ⟨5, 50⟩), .retain 0 (.conv (.rangeFrom 30))])
    (s := ⟨apartGraph, [[⟨-9, -1⟩, ⟨1, 15⟩], [⟨0, 3⟩], [⟨0, 4⟩, ⟨10, 20⟩], [⟨0, 4⟩]]⟩)
    (os := [.propagated, .propagated, .propagated, .recovered])
    (by
      intro c hc
      simp only [List.mem_cons, List.not_mem_nil, or_false] at hc
      rcases hc with rfl | rfl | rfl | rfl
      · exact ⟨⟨by decide, by simp only [ProperWindow, Proper]; decide⟩, 0, by simp only [InExtConvex]; decide⟩
      · exact ⟨⟨by decide, by simp only [ProperWindow]; decide⟩, trivial⟩
      · exact ⟨⟨by decide, by simp only [ProperNeg]; decide⟩, trivial⟩
      · exact ⟨⟨by decide, by simp only [ProperWindow, Proper]; decide⟩, 30, by simp only [InExtConvex]; decide⟩)
    (by decide +kernel)
  exact ⟨_, s', _, by decide +kernel, rfl, h1, h2 0 rfl⟩

theorem empty_window_loose (dbg : Bool) {s : Sched} (hv : Valid s.graph) (hs : Spanned s.graph) (lc : LooseSched s) {i : Nat}
    (hi : i < s.graph.size) (ha : s.scheduling i = some TSet.all) {w : Convex} (hp : Proper w) (he : ∀ t, ¬ InExtConvex t w) :
    ∃ s', s.retain dbg i (.conv w) = .ok (s', .propagated) ∧ s'.scheduling 0 = some [] := by
  obtain ⟨s', h, hg, -, -⟩ := C75_violated dbg hv lc.1 hi ha hp he
  refine ⟨s', h, ?_⟩
  have hl : i < s.schedule.length := by rw [lc.1]; exact hi
  have ei : s.schedule[i]? = some TSet.all := ha
  have hb : w.upper + 1 < w.lower := by
    rcases extConvex_cases hp with ⟨-, e1, e2, -⟩ | ⟨-, e2, e3, -⟩
    · rw [e1, e2]; decide
    · obtain ⟨t, -, ht⟩ := e2.exists_date
      exact absurd ((e3 t).2 ⟨Or.inr ht.1, Or.inr ht.2⟩) (he t)
  rw [retain_test dbg ei] at h
  split at h
  · cases h
  split at h
  · cases h
  obtain ⟨r, h1, h2, -, -⟩ := restrict_loose (w := .conv w) hp all_loose (within_inf_loose all_loose) (withinWindow_inf (w := .conv w) hp)
  rw [show Window.restrict (.conv w) TSet.all = .ok r from h1, ok_bind] at h
  have hr : r = [] := by
    rw [List.eq_nil_iff_forall_not_mem]
    intro y hy
    cases h1
    obtain ⟨a, b, -⟩ := interAssign_cut all_loose w y hy
    have := (h2.1 y hy).1
    omega
  subst hr
  unfold Sched.propagateScheduling at h
  obtain ⟨k, ks, g1, -, k0⟩ := C72_first_violated.1 s.graph hv i hi
  obtain ⟨ks', g1', -, g3, -⟩ := C72_from_partial hv hi
  rw [g1] at g1'
  cases g1'
  simp only [g1, ok_bind, List.foldlM_cons] at h
  have h0 : 0 < (s.schedule.set i []).length := by rw [List.length_set]; omega
  have e0 : (s.schedule.set i [])[0]? = some (s.schedule.set i [])[0] := List.getElem?_eq_getElem h0
  have set : ∀ v ∈ s.schedule.set i [], Loose v := by
    intro v hv
    rcases List.mem_or_eq_of_mem_set hv with h | h
    · exact lc.2 v h
    · rw [h]; exact h2
  have l0 : Loose (s.schedule.set i [])[0] := set _ (List.getElem_mem h0)
  generalize (s.schedule.set i [])[0] = v0 at e0 l0
  obtain ⟨q, f1, -, f3⟩ := inter_mem l0 (b := []) ⟨by simp, by simp⟩
  have fq : q = [] := by
    rw [List.eq_nil_iff_forall_not_mem]
    intro y hy
    obtain ⟨_, _, z, hz, -⟩ := (f3 y).1 hy
    cases hz
  subst fq
  have step : Sched.propagateOne dbg i (s.schedule.set i []) k = .ok ((s.schedule.set i []).set 0 []) := by
    unfold Sched.propagateOne sget sset
    rw [k0, e0, List.getElem?_set_self hl]
    simp only [ok_bind, TSet.addSpan, List.foldlM_nil, if_pos h0]
    show (TSet.inter v0 [] >>= _) = _
    rw [f1]
    rfl
  rw [step, ok_bind] at h
  obtain ⟨_, e', -, len⟩ := propagate_none dbg (i := i) ks ((s.schedule.set i []).set 0 []) (by
    rw [List.getElem?_set]
    split
    · rfl
    · exact List.getElem?_set_self hl) (fun k hk => by
    rw [List.length_set, List.length_set, lc.1]; exact (g3 k (by simp [hk])).2.1)
  cases e : ks.foldlM (Sched.propagateOne dbg i) ((s.schedule.set i []).set 0 []) with
  | error => rw [e] at h; cases h
  | ok sch =>
    rw [e] at h
    cases h
    have hin := loop_inside dbg ks (by rw [List.length_set, List.length_set]; exact hl) (fun k hk => by
      obtain ⟨-, hd, -, ht, -⟩ := g3 k (by simp [hk])
      exact ⟨by rw [List.length_set, List.length_set, lc.1]; exact hd, hs i k.dst hi hd _ ht⟩) (fun v hv => by
      rcases List.mem_or_eq_of_mem_set hv with h | h
      · exact set v h
      · rw [h]; exact h2) e
    obtain rfl := Except.ok.inj (e.symm.trans e')
    have len : 0 < sch.length := by rw [len, List.length_set]; exact h0
    show sch[0]? = _
    have es : sch[0]? = some sch[0] := List.getElem?_eq_getElem len
    obtain ⟨u, hu, hvu⟩ := hin 0 _ es
    rw [List.getElem?_set_self h0] at hu
    cases hu
    rw [es]
    congr 1
    rw [List.eq_nil_iff_forall_not_mem]
    intro y hy
    obtain ⟨x, hx, -⟩ := hvu y hy
    cases hx

/-- C128 fails for empty intervals and ranges: the request of an empty window for an instant whose slots are unbounded (as after `new`) is
accepted, and then no date is left for instant 0, even if nothing relates the two instants. -/
theorem C128_empty_violated (dbg : Bool) {s : Sched} (hv : Valid s.graph) (hs : Spanned s.graph) (hc : CanonSched s) {i : Nat}
    (hi : i < s.graph.size) (ha : s.scheduling i = some TSet.all) {w : Convex} (hp : Proper w) (he : ∀ t, ¬ InExtConvex t w) :
    ∃ s', s.retain dbg i (.conv w) = .ok (s', .propagated) ∧ s'.scheduling 0 = some [] :=
  empty_window_loose dbg hv hs ⟨hc.1, fun w h => (hc.2 w h).loose⟩ hi ha hp he

-- nothing relates the two instants
example : ∃ s', (Sched.new ⟨2, [0, -INF, 0, -INF]⟩).retain true 1 (.conv (.range 5 3)) = .ok (s', .propagated) ∧ s'.scheduling 0 = some [] :=
  C128_empty_violated true (by decide) (by
    have : ∀ i : Fin 2, ∀ j : Fin 2,
        (match Graph.timespan ⟨2, [0, -INF, 0, -INF]⟩ i j with | .ok s => decide (WF s) | .error _ => true) = true := by decide
    intro i j hi hj sp e
    have := this ⟨i, hi⟩ ⟨j, hj⟩
    rw [show Graph.timespan ⟨2, [0, -INF, 0, -INF]⟩ i j = _ from e] at this
    simpa using this) (new_canon _) (by decide) rfl (by simp only [Proper]; decide) (by intro t; simp only [InExtConvex]; ticks)

end Chrono
