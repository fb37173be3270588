import Verif.Props.SchedExact
import Verif.Props.ReleaseSched

set_option linter.unusedSimpArgs false

/-!
# How a scheduler propagates, after any history (C77)
-/

namespace Chrono
open Spec

/-! ## Helper lemmas -/

theorem run_same {dbg : Bool} {s : Sched} (hv : Valid s.graph) {c : Call} {p : Sched × Outcome} (h : c.run dbg s = .ok p) :
    c.run false s = .ok p := by
  cases dbg with
  | false => exact h
  | true =>
    have key : ∀ i w, s.retain true i w = .ok p → s.retain false i w = .ok p := by
      intro i w h
      rcases retain_silent hv i w with e | e
      · rw [h] at e; cases e
      · rw [← retainR_eq hv, e, h]
    cases c with
    | retain i w => exact key i w h
    | remove i w => exact key i _ h

theorem callAll_pieces {dbg : Bool} {B W : Int} (hB0 : 0 ≤ B) : ∀ (calls : List Call) {s : Sched} {V : Int}, Valid s.graph →
    ZeroDiag s.graph → Spanned s.graph → LooseSched s → Within B s.graph → WithinSched V s → W ≤ V →
    V + calls.length * B < INF → (∀ c ∈ calls, c.Ok s.graph.size W) → ∀ {s' acc}, callAll dbg s calls = .ok (s', acc) →
    s'.graph = s.graph ∧ LooseSched s' ∧ WithinSched (V + calls.length * B) s'
  | [], s, V, _, _, _, hl, _, hV, _, _, _, s', acc, h => by
    cases h
    exact ⟨rfl, hl, by simpa using hV⟩
  | c :: calls, s, V, hv, hz, hs, hl, hg, hV, hWV, hB, hok, s', acc, h => by
    have e : V + ((c :: calls).length : Int) * B = V + B + calls.length * B := by
      rw [List.length_cons, Int.natCast_add, Int.add_mul]; omega
    rw [e] at hB ⊢
    have hn : 0 ≤ (calls.length : Int) * B := Int.mul_nonneg (by omega) hB0
    rcases call_loose dbg hv hz hs hl hg hV hWV (by omega) hB0 (hok c (by simp)) with
      ⟨s1, o, a1, a2, a3, a4, -⟩ | ⟨-, h0⟩
    · simp only [callAll, a1, ok_bind] at h
      obtain ⟨⟨s2, acc2⟩, b1, b2⟩ := bind_ok h
      cases b2
      obtain ⟨c1, c2, c3⟩ := callAll_pieces hB0 (W := W) calls (s := s1) (V := V + B) (by rw [a2]; exact hv) (by rw [a2]; exact hz)
        (by rw [a2]; exact hs) a3 (by rw [a2]; exact hg) a4 (by omega) hB (fun c' hc' => by rw [a2]; exact hok c' (by simp [hc'])) b1
      exact ⟨c1.trans a2, c2, c3⟩
    · obtain ⟨q, h1, -⟩ := bind_ok h
      rw [h0] at h1
      cases h1

/-- A date reached from one of the intervals shown is a date reached from one of their dates, or one reached from both ends of
an interval shown with its ends crossed. -/
theorem reach_dates {r : TSet} (lr : Loose r) {sp : Iv} (hsp : WF sp)
    (hf : ∀ x ∈ r, FitsSum x sp) (t : Int) : (∃ x ∈ r, InExt t (sumIv x sp)) ↔
      (∃ a, InExtSet a r ∧ InExt (t - a) sp) ∨ ∃ c, ⟨c, c - 1⟩ ∈ r ∧ InExt (t - c) sp ∧ InExt (t - (c - 1)) sp := by
  constructor
  · rintro ⟨x, hx, ht⟩
    have lx := lr.wf x hx
    rcases Classical.em (x.lower ≤ x.upper) with hle | hle
    · obtain ⟨d, e, hd, he, rfl⟩ := ((addSpan_sum true ⟨hle, lx.lo, lx.hi, lx.lo_lt, lx.lt_hi⟩ hsp (hf x hx)).2.2 t).1 ht
      exact Or.inl ⟨d, ⟨x, hx, hd⟩, by rwa [show d + e - d = e by omega]⟩
    · rcases x with ⟨c, u⟩
      obtain ⟨l1, l2, l3, l4, l5⟩ := lx
      simp only at l1 l2 l3 l4 l5 hle
      have : u = c - 1 := by omega
      subst this
      exact Or.inr ⟨c, hx, ((sum_junk (by omega) l4 hsp (hf _ hx)).1 t).1 ht⟩
  · rintro (⟨d, ⟨x, hx, hd⟩, he⟩ | ⟨c, hc, hin⟩)
    · refine ⟨x, hx, ?_⟩
      have := sumIv_in hd he
      rwa [show d + (t - d) = t by omega] at this
    · have lx := lr.wf _ hc
      obtain ⟨l1, l2, l3, l4, l5⟩ := lx
      simp only at l1 l2 l3 l4 l5
      exact ⟨_, hc, ((sum_junk (by omega) l4 hsp (hf _ hc)).1 t).2 hin⟩

theorem retain_pieces {s : Sched} (hv : Valid s.graph) (hz : ZeroDiag s.graph) (hs : Spanned s.graph)
    (hc : LooseSched s) {B W : Int} (hg : Within B s.graph) (hw : WithinSched W s) (hW : W + B < INF)
    {i : Nat} (hi : i < s.graph.size) {w : Window} (hpw : ProperWindow w) (hww : WithinWindow W w)
    {s' : Sched} (h : s.retain false i w = .ok (s', .propagated)) :
    ∃ r, s'.scheduling i = some r ∧ (∀ t, InExtSet t r ↔ Slot s i t ∧ InExtWindow t w) ∧
      (r ≠ [] → ∀ j, j < s.graph.size → j ≠ i → ∃ sp, s.graph.timespan i j = .ok sp ∧
        ∀ t, Slot s' j t ↔ Slot s j t ∧ ((∃ a, Slot s' i a ∧ InExt (t - a) sp) ∨
          ∃ c, ⟨c, c - 1⟩ ∈ r ∧ InExt (t - c) sp ∧ InExt (t - (c - 1)) sp)) := by
  have hl : i < s.schedule.length := by rw [hc.1]; exact hi
  have hsi : s.schedule[i]? = some s.schedule[i] := List.getElem?_eq_getElem hl
  have hmem : s.schedule[i] ∈ s.schedule := List.getElem_mem hl
  generalize s.schedule[i] = si at hsi hmem
  have c1 : w.containsSet si = false := by
    rw [← Bool.not_eq_true]
    intro c
    rw [retain_test _ hsi, if_pos c] at h; cases h
  have c2 : w.overlapsSet si = true := by
    rw [← Bool.not_eq_false]
    intro c
    rw [retain_test _ hsi, c1, c] at h; cases h
  obtain ⟨p, h1, h2, h3, h4⟩ := restrict_loose hpw (hc.2 si hmem) (hw si hmem) hww
  obtain ⟨k0, ks, f1, f2, f3⟩ := C72_first_violated.1 s.graph hv i hi
  obtain ⟨ks', g1, g2, g3, g4⟩ := C72_from_partial hv hi
  rw [f1] at g1
  cases g1
  have run : s.retain false i w = (do
      let sch ← (k0 :: ks).foldlM (Sched.propagateOne false i) (s.schedule.set i p)
      return (⟨s.graph, sch⟩, .propagated)) := by
    rw [retain_test false hsi, c1, c2]
    simp only [Bool.false_eq_true, if_false, Bool.not_true, h1, ok_bind, Sched.propagateScheduling, f1]
    cases (k0 :: ks).foldlM (Sched.propagateOne false i) (s.schedule.set i p) <;> rfl
  have get : ∀ j, j < s.graph.size → ∃ w, s.schedule[j]? = some w ∧ Loose w := by
    intro j hj
    have hj' : j < s.schedule.length := by rw [hc.1]; exact hj
    exact ⟨_, List.getElem?_eq_getElem hj', hc.2 _ (List.getElem_mem hj')⟩
  have spans : ∀ k ∈ k0 :: ks, k.dst < s.graph.size ∧ s.graph.timespan i k.dst = .ok k.span ∧ WF k.span ∧
      ∀ x : Iv, ((x.lower = -INF ∨ (-W ≤ x.lower ∧ x.lower ≤ W)) ∧ (x.upper = INF ∨ (-W ≤ x.upper ∧ x.upper ≤ W))) →
        FitsSum x k.span := by
    intro k hk
    obtain ⟨-, hd, -, ht, -⟩ := g3 k hk
    exact ⟨hd, ht, hs i k.dst hi hd _ ht, fun x hx => fits_of_within hW hx (hg i k.dst hi hd _ ht)⟩
  have free : ∀ j, j < s.graph.size → j ≠ i → (∀ k ∈ k0 :: ks, k.dst ≠ j) → s.graph.timespan i j = .ok ⟨-INF, INF⟩ := by
    intro j hj hji hno
    rw [timespan_eq hv hi hj]
    refine Classical.byContradiction fun hn => ?_
    obtain ⟨k, hk, e⟩ := g4 j hj hji _ (timespan_eq hv hi hj) (fun e => hn (by rw [e]))
    exact hno k hk e
  have all : ∀ (x : Iv) t, InExt t (sumIv x ⟨-INF, INF⟩) := by
    intro x t
    simp [InExt, sumIv]
  -- the end of the proof, once the slots of `i` are settled
  have rest : ∀ (T : TSet) (ls : List Constr) (sch : List TSet), Loose T → WithinSet W T → sch = s.schedule.set i T →
      (∀ k ∈ ls, k ∈ k0 :: ks ∧ k.dst ≠ i) → (∀ k ∈ k0 :: ks, k ∈ ls ∨ k.dst = i) → ls.Pairwise (fun k l => k.dst < l.dst) →
      (∀ t, InExtSet t T ↔ InExtSet t p) →
      (do let sch ← ls.foldlM (Sched.propagateOne false i) sch; return ((⟨s.graph, sch⟩, .propagated) : Sched × Outcome)) = .ok (s', .propagated) →
      ∃ r, s'.scheduling i = some r ∧ (∀ t, InExtSet t r ↔ Slot s i t ∧ InExtWindow t w) ∧
      (r ≠ [] → ∀ j, j < s.graph.size → j ≠ i → ∃ sp, s.graph.timespan i j = .ok sp ∧
        ∀ t, Slot s' j t ↔ Slot s j t ∧ ((∃ a, Slot s' i a ∧ InExt (t - a) sp) ∨
          ∃ c, ⟨c, c - 1⟩ ∈ r ∧ InExt (t - c) sp ∧ InExt (t - (c - 1)) sp)) := by
    intro T ls sch lT wT es hls hks hp hTp hrun
    subst es
    have eiT : (s.schedule.set i T)[i]? = some T := List.getElem?_set_self hl
    obtain ⟨sch', m1, m2, m3, m4, -, -⟩ := propagateLoop_pieces lT ls (s.schedule.set i T) eiT hp fun k hk => by
      obtain ⟨a1, a2, a3, a4⟩ := spans k (hls k hk).1
      obtain ⟨v, e, c⟩ := get k.dst a1
      have := (hls k hk).2
      exact ⟨⟨v, by rw [List.getElem?_set_ne (fun e => this e.symm), e], c⟩, a3, fun x hx => a4 x (wT x hx), this⟩
    rw [m1, ok_bind] at hrun
    cases hrun
    have pi : sch'[i]? = some T := by rw [m3 i (fun k hk' => (hls k hk').2), eiT]
    refine ⟨T, pi, fun t => by rw [hTp, h4, slot_get hsi], fun hne j hj hji => ?_⟩
    obtain ⟨v, ev, cv⟩ := get j hj
    by_cases c : ∃ k ∈ ls, k.dst = j
    · obtain ⟨k, hk', rfl⟩ := c
      obtain ⟨u, u', q1, q2, q3⟩ := m4 k hk'
      rw [List.getElem?_set_ne (fun e => hji e.symm), ev] at q1
      cases q1
      refine ⟨k.span, (spans k (hls k hk').1).2.1, fun t => ?_⟩
      rw [slot_get (s := ⟨s.graph, sch'⟩) q2, slot_get ev]
      have := reach_dates lT (spans k (hls k hk').1).2.2.1 (fun x hx => (spans k (hls k hk').1).2.2.2 x (wT x hx)) t
      simp only [slot_get (s := ⟨s.graph, sch'⟩) pi]
      exact (q3 t).trans (and_congr_right fun _ => this)
    · have hno : ∀ k ∈ ls, k.dst ≠ j := fun k hk e => c ⟨k, hk, e⟩
      refine ⟨_, free j hj hji (fun k hk' e => ?_), fun t => ?_⟩
      · rcases hks k hk' with h | h
        · exact hno k h e
        · exact hji (e.symm.trans h)
      · have ej : sch'[j]? = some v := by rw [m3 j hno, List.getElem?_set_ne (fun e => hji e.symm), ev]
        rw [slot_get (s := ⟨s.graph, sch'⟩) ej, slot_get ev]
        obtain ⟨x, hx⟩ := List.exists_mem_of_ne_nil T hne
        refine ⟨fun h => ⟨h, ?_⟩, fun h => h.1⟩
        have := (reach_dates lT (sp := ⟨-INF, INF⟩) (by decide) (fun x hx => ⟨by intro _ h; simp [Date] at h, by intro _ h; simp [Date] at h⟩) t).1 ⟨x, hx, all x t⟩
        simp only [slot_get (s := ⟨s.graph, sch'⟩) pi]
        exact this
  rw [run] at h
  by_cases i0 : i = 0
  · have hsp0 : k0.span = ⟨0, 0⟩ := by
      have ht := (spans k0 (by simp)).2.1
      rw [f3, ← i0, hz i hi] at ht
      injection ht with ht
      exact ht.symm
    have ei : (s.schedule.set i p)[i]? = some p := List.getElem?_set_self hl
    obtain ⟨T, t1, t2, t3⟩ := propagateOne_self (k := k0) (f3.trans i0.symm) hsp0 ei h2
    have hTW : WithinSet W T := within_inter t2 h3 h3 (fun t => by rw [t3]; exact ⟨fun h => ⟨h, h⟩, fun h => h.1⟩)
    rw [List.pairwise_cons] at g2
    refine rest T ks ((s.schedule.set i p).set i T) t2.loose hTW (List.set_set ..) (fun k hk => ⟨by simp [hk], ?_⟩) (fun k hk => ?_) g2.2 t3 ?_
    · have := g2.1 k hk
      omega
    · rcases List.mem_cons.1 hk with rfl | hk
      · exact Or.inr (f3.trans i0.symm)
      · exact Or.inl hk
    · rw [List.foldlM_cons, t1, ok_bind] at h
      exact h
  · exact rest p (k0 :: ks) _ h2 h3 rfl (fun k hk => ⟨hk, fun e => ((g3 k hk).2.2.2.2 (by omega)).1 e⟩) (fun k hk => Or.inl hk) g2
      (fun t => Iff.rfl) h

theorem call_pieces {dbg : Bool} {s : Sched} (hv : Valid s.graph) (hz : ZeroDiag s.graph) (hs : Spanned s.graph) {B W V : Int} (hB : 0 ≤ B)
    (hg : Within B s.graph) (a2 : LooseSched s) (a3 : WithinSched V s) (hWV : W ≤ V) (hW : V + B < INF)
    {c : Call} (hc : c.Ok s.graph.size W) {s' : Sched} (hr : c.run dbg s = .ok (s', .propagated)) :
    ∃ r, s'.scheduling c.instant = some r ∧ (∀ t, Slot s' c.instant t ↔ Slot s c.instant t ∧ c.Allows t) ∧
      (r ≠ [] → ∀ j, j < s.graph.size → j ≠ c.instant → ∃ sp, s.graph.timespan c.instant j = .ok sp ∧
        ∀ t, Slot s' j t ↔ Slot s j t ∧ ((∃ a, Slot s' c.instant a ∧ InExt (t - a) sp) ∨
          ∃ d, ⟨d, d - 1⟩ ∈ r ∧ InExt (t - d) sp ∧ InExt (t - (d - 1)) sp)) := by
  replace hr := run_same hv hr
  have key : ∀ (i : Nat) (w : Window), i < s.graph.size → ProperWindow w → WithinWindow W w →
      s.retain false i w = .ok (s', .propagated) → _ := fun i w hi hpw hww hr =>
    retain_pieces hv hz hs a2 hg a3 (by omega) hi hpw (withinWindow_mono (by omega) hww) hr
  cases c with
  | retain i w =>
    obtain ⟨r, e, h1, h2⟩ := key i w hc.1 hc.2.1 hc.2.2 hr
    exact ⟨r, e, fun t => (slot_get (s := s') e t).trans (h1 t), h2⟩
  | remove i w =>
    obtain ⟨k1, k2, k3⟩ := neg_spec hc.2.1 hc.2.2 (by omega)
    obtain ⟨r, e, h1, h2⟩ := key i (.set w.not) hc.1 k1 (within_mono (V := W) (by omega) k2) hr
    exact ⟨r, e, fun t => (slot_get (s := s') e t).trans ((h1 t).trans (and_congr_right fun _ => k3 t)), h2⟩

/-! ## The theorems -/

/-- C77, after any history of calls (with sets, removals, contradictions): when a call answers
`Ok(Propagated)` and leaves some interval, the dates of its instant are those it had and the call allows, and those of another
instant `j` are those it had which are at an allowed delay from one of them, or from both ends `c` and `c - 1` of an interval
`[c, c - 1]` which is in the slots of `i` although it has no date. -/
theorem C77_pieces {dbg : Bool} {g : Graph} (hv : Valid g) (hz : ZeroDiag g) (hs : Spanned g) {B W : Int} (hB : 0 ≤ B) (hg : Within B g)
    {calls : List Call} (hok : ∀ c ∈ calls, c.Ok g.size W) {s : Sched} {acc : List Call}
    (h : callAll dbg (Sched.new g) calls = .ok (s, acc)) (hW : W + (calls.length + 1) * B < INF)
    {c : Call} (hc : c.Ok g.size W) {s' : Sched} (hr : c.run dbg s = .ok (s', .propagated)) :
    ∃ r, s'.scheduling c.instant = some r ∧ (∀ t, Slot s' c.instant t ↔ Slot s c.instant t ∧ c.Allows t) ∧
      (r ≠ [] → ∀ j, j < g.size → j ≠ c.instant → ∃ sp, g.timespan c.instant j = .ok sp ∧
        ∀ t, Slot s' j t ↔ Slot s j t ∧ ((∃ a, Slot s' c.instant a ∧ InExt (t - a) sp) ∨
          ∃ d, ⟨d, d - 1⟩ ∈ r ∧ InExt (t - d) sp ∧ InExt (t - (d - 1)) sp)) := by
  rw [Int.add_mul, Int.one_mul] at hW
  have hn : 0 ≤ (calls.length : Int) * B := Int.mul_nonneg (by omega) hB
  obtain ⟨a1, a2, a3⟩ := callAll_pieces hB (W := W) calls (s := Sched.new g) (V := W) hv hz hs (new_loose g) hg (new_within g W)
    (Int.le_refl _) (by omega) hok h
  have a1 : s.graph = g := a1
  subst a1
  exact call_pieces hv hz hs hB hg a2 a3 (by omega) (by omega) hc hr

/-- So the rule of C77 is exact after any history, as long as the slots left to the instant show no interval without a date. -/
theorem C77_clean {dbg : Bool} {g : Graph} (hv : Valid g) (hz : ZeroDiag g) (hs : Spanned g) {B W : Int} (hB : 0 ≤ B) (hg : Within B g)
    {calls : List Call} (hok : ∀ c ∈ calls, c.Ok g.size W) {s : Sched} {acc : List Call}
    (h : callAll dbg (Sched.new g) calls = .ok (s, acc)) (hW : W + (calls.length + 1) * B < INF)
    {c : Call} (hc : c.Ok g.size W) {s' : Sched} (hr : c.run dbg s = .ok (s', .propagated))
    (hcl : ∃ r, s'.scheduling c.instant = some r ∧ r ≠ [] ∧ ∀ x ∈ r, x.lower ≤ x.upper) :
    ∀ j, j < g.size → j ≠ c.instant → ∃ sp, g.timespan c.instant j = .ok sp ∧
      ∀ t, Slot s' j t ↔ Slot s j t ∧ ∃ a, Slot s' c.instant a ∧ InExt (t - a) sp := by
  obtain ⟨r, e, -, h2⟩ := C77_pieces hv hz hs hB hg hok h hW hc hr
  obtain ⟨r', e', hne, hx⟩ := hcl
  rw [e] at e'
  cases e'
  intro j hj hji
  obtain ⟨sp, es, h3⟩ := h2 hne j hj hji
  refine ⟨sp, es, fun t => (h3 t).trans (and_congr_right fun _ => ⟨?_, Or.inl⟩)⟩
  rintro (h | ⟨d, hd, -⟩)
  · exact h
  · have := hx _ hd
    simp only at this
    omega

/-- The hypotheses: two calls leave `[10, 9]` in the slots of instant 1, a third one keeps it and a fourth one drops it. -/
example : Valid exGraph ∧ ZeroDiag exGraph ∧ Spanned exGraph ∧ Within 26 exGraph ∧ (100 : Int) + (2 + 1) * 26 < INF ∧
    (∀ c ∈ [Call.retain 1 (.conv (.iv ⟨0, 9⟩)), .remove 1 (.iv ⟨5, 9⟩), .remove 1 (.iv ⟨2, 2⟩), .retain 1 (.conv (.iv ⟨2, 8⟩))],
      c.Ok exGraph.size 100) ∧
    ∃ s acc s1 s2, callAll false (Sched.new exGraph) [.retain 1 (.conv (.iv ⟨0, 9⟩)), .remove 1 (.iv ⟨5, 9⟩)] = .ok (s, acc) ∧
      (Call.remove 1 (.iv ⟨2, 2⟩)).run false s = .ok (s1, .propagated) ∧
      s1.scheduling 1 = some [⟨0, 1⟩, ⟨3, 4⟩, ⟨10, 9⟩] ∧ s1.scheduling 0 = some [⟨-20, -1⟩] ∧
      (Call.retain 1 (.conv (.iv ⟨2, 8⟩))).run false s = .ok (s2, .propagated) ∧
      s2.scheduling 1 = some [⟨2, 4⟩] ∧ s2.scheduling 0 = some [⟨-18, -6⟩] := by
  refine ⟨exGraph_valid, exGraph_zeroDiag, exGraph_spanned, exGraph_within, by decide, by decide,
    ⟨exGraph, [[⟨-20, -1⟩], [⟨0, 4⟩, ⟨10, 9⟩], [⟨5, 10⟩, ⟨15, 15⟩]]⟩,
    [.retain 1 (.conv (.iv ⟨0, 9⟩)), .remove 1 (.iv ⟨5, 9⟩)],
    ⟨exGraph, [[⟨-20, -1⟩], [⟨0, 1⟩, ⟨3, 4⟩, ⟨10, 9⟩], [⟨5, 10⟩, ⟨15, 15⟩]]⟩,
    ⟨exGraph, [[⟨-18, -6⟩], [⟨2, 4⟩], [⟨7, 10⟩]]⟩, by decide +kernel, by decide +kernel, rfl, rfl, by decide +kernel, rfl, rfl⟩

end Chrono
