import Verif.Lemmas.SchedLoose

/-!
# What the scheduler makes of the empty intervals left by an intersection
-/

set_option linter.unusedSimpArgs false

namespace Chrono
open Spec

/-! ## The sums -/

/-- in a debug build, the translation of a set stops on the first empty sum; otherwise both builds do the same -/
theorem addSpan_dbg {s : TSet} {sp : Iv} (hs : Loose s) (hsp : WF sp) (hf : ∀ i ∈ s, FitsSum i sp) :
    ((∀ x ∈ s, WF (sumIv x sp)) → TSet.addSpan true s sp = TSet.addSpan false s sp) ∧
    ((∃ x ∈ s, ¬ WF (sumIv x sp)) → TSet.addSpan true s sp = .error .debugAssert) := by
  constructor
  · intro h
    have key : ∀ (l : List Iv), (∀ x ∈ l, x ∈ s) → ∀ r : TSet,
        l.foldlM (fun r i => do TSet.unionConvex r (.iv (← i.addSpan true sp))) r =
        l.foldlM (fun r i => do TSet.unionConvex r (.iv (← i.addSpan false sp))) r := by
      intro l
      induction l with
      | nil => intro _ r; rfl
      | cons x xs ih =>
        intro hl r
        have hx := hl x (by simp)
        have e : x.addSpan true sp = x.addSpan false sp := by
          rcases addSpan_looseIv true (hs.wf x hx) hsp (hf x hx) with ⟨-, e⟩ | ⟨hno, -⟩
          · rcases addSpan_looseIv false (hs.wf x hx) hsp (hf x hx) with ⟨-, e'⟩ | ⟨hno, -⟩
            · rw [e, e']
            · obtain ⟨t, -, h1, h2⟩ := (h x hx).exists_date
              exact absurd ⟨Or.inr h1, Or.inr h2⟩ (hno t)
          · obtain ⟨t, -, h1, h2⟩ := (h x hx).exists_date
            exact absurd ⟨Or.inr h1, Or.inr h2⟩ (hno t)
        rw [List.foldlM_cons, List.foldlM_cons, e]
        congr 1
        funext r'
        exact ih (fun y hy => hl y (by simp [hy])) r'
    exact key s (fun _ h => h) []
  · rintro ⟨x, hx, hno⟩
    rcases addSpan_loose true hs hsp hf with ⟨T, e, -⟩ | ⟨-, e⟩
    · exfalso
      have key : ∀ (l : List Iv) (r T : TSet), x ∈ l →
          l.foldlM (fun r i => do TSet.unionConvex r (.iv (← i.addSpan true sp))) r = .ok T → False := by
        intro l
        induction l with
        | nil => intro r T h; simp at h
        | cons y ys ih =>
          intro r T h e
          rw [List.foldlM_cons] at e
          obtain ⟨r1, e1, e2⟩ := bind_ok e
          rcases List.mem_cons.1 h with rfl | h
          · obtain ⟨z, e3, -⟩ := bind_ok e1
            rcases addSpan_looseIv true (hs.wf x hx) hsp (hf x hx) with ⟨hw, -⟩ | ⟨-, e'⟩
            · exact hno hw
            · rw [e'] at e3; cases e3
          · exact ih r1 T h e2
      exact key s [] T hx e
    · exact e

/-- what is reached from the empty interval `[c,c-1]`: the dates at an allowed delay from both `c-1` and `c` -/
theorem sum_junk {c : Int} {sp : Iv} (h1 : -INF + 1 < c) (h2 : c < INF) (hsp : WF sp) (hf : FitsSum ⟨c, c - 1⟩ sp) :
    (∀ t, InExt t (sumIv ⟨c, c - 1⟩ sp) ↔ InExt (t - c) sp ∧ InExt (t - (c - 1)) sp) ∧
    (WF (sumIv ⟨c, c - 1⟩ sp) ↔ sp.lower ≠ sp.upper) := by
  rcases sp with ⟨a, b⟩
  obtain ⟨g1, g2, g3, g4, g5⟩ := hsp
  obtain ⟨f1, f2⟩ := hf
  simp only [Date] at f1 f2 g1 g2 g3 g4 g5
  constructor
  · intro t
    simp only [InExt, sumIv]
    constructor
    · rintro ⟨q1, q2⟩
      (repeat' split at q1) <;> (repeat' split at q2) <;> ticks
    · rintro ⟨⟨q1, q2⟩, q3, q4⟩
      constructor <;> split <;> ticks
  · constructor
    · rintro ⟨k1, -⟩ e
      simp only [sumIv] at k1 e
      (repeat' split at k1) <;> ticks
    · intro e
      simp only [] at e
      constructor <;> simp only [sumIv] <;> (repeat' split) <;> ticks

/-! ## The intersections -/

/-- the intervals left by the intersection of two canonical sets: parts of both, or empty where they are side by side -/
theorem inter_parts {a b : List Iv} (ha : Canon a) (hb : Canon b) {r : List Iv} (h : TSet.inter a b = .ok r) :
    (∀ y ∈ r, WF y ∨ ∃ c, SideBySide c a b ∧ -INF + 1 < c ∧ c < INF ∧ y = ⟨c, c - 1⟩) ∧
    (∀ c, SideBySide c a b → ⟨c, c - 1⟩ ∈ r ∧ -INF + 1 < c ∧ c < INF) := by
  obtain ⟨r', e, -, hm, -⟩ := C33_inter_exact a b ha hb
  rw [h] at e
  cases e
  constructor
  · intro y hy
    obtain ⟨x, hx, z, hz, e1, e2, rfl⟩ := (hm y).1 hy
    obtain ⟨a1, a2, a3, a4, a5⟩ := ha.wf x hx
    obtain ⟨b1, b2, b3, b4, b5⟩ := hb.wf z hz
    by_cases c1 : x.upper + 1 = z.lower
    · right
      refine ⟨z.lower, ⟨x, hx, z, hz, Or.inl ⟨c1, rfl⟩⟩, by omega, b4, ?_⟩
      simp only [Iv.mk.injEq]; omega
    · by_cases c2 : z.upper + 1 = x.lower
      · right
        refine ⟨x.lower, ⟨x, hx, z, hz, Or.inr ⟨c2, rfl⟩⟩, by omega, a4, ?_⟩
        simp only [Iv.mk.injEq]; omega
      · left
        constructor <;> simp only <;> omega
  · rintro c ⟨x, hx, z, hz, hc⟩
    obtain ⟨a1, a2, a3, a4, a5⟩ := ha.wf x hx
    obtain ⟨b1, b2, b3, b4, b5⟩ := hb.wf z hz
    refine ⟨(hm _).2 ⟨x, hx, z, hz, by omega, by omega, ?_⟩, by omega, by omega⟩
    simp only [Iv.mk.injEq]; omega

/-- the intersection of a set with its own intervals which are not empty is these intervals -/
theorem inter_clean {s T : List Iv} (hs : Loose s) (hT : Canon T) (h : ∀ t, InExtSet t T ↔ InExtSet t s) :
    TSet.inter s T = .ok T := by
  have hp : (s.filter (fun y => decide (WF y))).Pairwise (fun a b => a.upper + 1 < b.lower) :=
    hs.gap.sublist List.filter_sublist
  have hcf : Canon (s.filter (fun y => decide (WF y))) :=
    ⟨fun y hy => by simpa using (List.mem_filter.1 hy).2, hp⟩
  have eT : T = s.filter (fun y => decide (WF y)) := by
    refine canon_extSet hT hcf (fun t => ?_)
    rw [h]
    constructor
    · rintro ⟨y, hy, ht⟩
      refine ⟨y, List.mem_filter.2 ⟨hy, ?_⟩, ht⟩
      have := hs.wf y hy
      obtain ⟨l1, l2, l3, l4, l5⟩ := this
      have : y.lower ≤ y.upper := by
        simp only [InExt] at ht
        ticks
      simp only [decide_eq_true_eq]
      exact ⟨this, l2, l3, l4, l5⟩
    · rintro ⟨y, hy, ht⟩
      exact ⟨y, (List.mem_filter.1 hy).1, ht⟩
  have sep : ∀ x ∈ s, ∀ z ∈ s, x = z ∨ x.upper + 1 < z.lower ∨ z.upper + 1 < x.lower := by
    have hg := hs.gap
    clear hp hcf eT h
    generalize s = l at hg
    induction l with
    | nil => intro x hx; simp at hx
    | cons y ys ih =>
      rw [List.pairwise_cons] at hg
      intro x hx z hz
      rcases List.mem_cons.1 hx with ex | hx'
      · rcases List.mem_cons.1 hz with ez | hz'
        · exact Or.inl (ex.trans ez.symm)
        · exact Or.inr (Or.inl (by rw [ex]; exact hg.1 z hz'))
      · rcases List.mem_cons.1 hz with ez | hz'
        · exact Or.inr (Or.inr (by rw [ez]; exact hg.1 x hx'))
        · exact ih hg.2 x hx' z hz'
  obtain ⟨_, hm⟩ := InterIter.meets_loose hs hT.loose
  obtain ⟨r, e1, e2, e3, e4⟩ := inter_loose hs hT.loose
  have er : r = (InterIter.new s T).drain := by
    have : TSet.inter s T = .ok (InterIter.new s T).drain := by
      refine TSet.fromIter_id hm.gap (fun y hy => ?_)
      obtain ⟨x, hx, z, hz, e, e1, e2⟩ := hm.meets y hy
      have := (hs.wf x hx).lo_lt
      have := (hT.wf z hz).lo_lt
      subst e
      simp only [InterIter.meet]; omega
    rw [e1] at this
    cases this; rfl
  have cr : Canon r := by
    refine ⟨fun y hy => ?_, e2.gap⟩
    rw [er] at hy
    obtain ⟨x, hx, z, hz, e, g1, g2⟩ := hm.meets y hy
    have hzs : z ∈ s := by rw [eT] at hz; exact (List.mem_filter.1 hz).1
    have hw := hT.wf z hz
    rcases sep x hx z hzs with q | q | q
    · subst q
      have : y = x := by
        subst e
        cases x
        simp only [InterIter.meet, Iv.mk.injEq]; omega
      rw [this]; exact hw
    · exact absurd q g1
    · exact absurd q g2
  rw [e1, canon_extSet cr hT (fun t => by rw [e3, h]; exact and_self_iff)]

/-! ## One step of the propagation -/

theorem propagateOne_dbg {i : Nat} {sch : List TSet} {k : Constr} {si sj : TSet}
    (hj : sch[k.dst]? = some sj) (hi : sch[i]? = some si) (li : Loose si) (hk : WF k.span)
    (hf : ∀ x ∈ si, FitsSum x k.span) :
    ((∀ x ∈ si, WF (sumIv x k.span)) → Sched.propagateOne true i sch k = Sched.propagateOne false i sch k) ∧
    ((∃ x ∈ si, ¬ WF (sumIv x k.span)) → Sched.propagateOne true i sch k = .error .debugAssert) := by
  obtain ⟨h1, h2⟩ := addSpan_dbg li hk hf
  constructor
  · intro h
    unfold Sched.propagateOne sget
    rw [hj, hi]
    simp only [ok_bind, h1 h]
  · intro h
    unfold Sched.propagateOne sget
    rw [hj, hi]
    simp only [ok_bind, h2 h]
    rfl

/-- what the propagation through the span `sp` makes of the slots `sj`, given the intervals `si` of instant `i` -/
def Reach (sj si : TSet) (sp : Iv) (r : TSet) : Prop :=
  ∀ t, InExtSet t r ↔ InExtSet t sj ∧ ∃ x ∈ si, InExt t (sumIv x sp)

theorem propagateOne_pieces {i : Nat} {sch : List TSet} {k : Constr} {si sj : TSet}
    (hj : sch[k.dst]? = some sj) (hi : sch[i]? = some si) (lj : Loose sj) (li : Loose si) (hk : WF k.span)
    (hf : ∀ x ∈ si, FitsSum x k.span) :
    ∃ r, Sched.propagateOne false i sch k = .ok (sch.set k.dst r) ∧ Loose r ∧ Reach sj si k.span r := by
  rcases addSpan_loose false li hk hf with ⟨T, h1, h2, h3, -⟩ | ⟨h0, -⟩
  · obtain ⟨r, g1, g2, g3, -⟩ := inter_loose lj h2.loose
    refine ⟨r, ?_, g2, fun t => by rw [g3, h3]⟩
    have hl : k.dst < sch.length := by
      rw [List.getElem?_eq_some_iff] at hj
      exact hj.1
    unfold Sched.propagateOne sget sset
    rw [hj, hi]
    simp only [ok_bind, h1, g1, if_pos hl]
  · cases h0

/-- the first step of the propagation from instant 0: its slots lose their empty intervals -/
theorem propagateOne_self {sch : List TSet} {k : Constr} {si : TSet} {i : Nat} (hd : k.dst = i) (hs : k.span = ⟨0, 0⟩)
    (hi : sch[i]? = some si) (li : Loose si) :
    ∃ T, Sched.propagateOne false i sch k = .ok (sch.set i T) ∧ Canon T ∧ ∀ t, InExtSet t T ↔ InExtSet t si := by
  have hk : WF k.span := by rw [hs]; decide
  have hf : ∀ x ∈ si, FitsSum x k.span := by
    intro x hx
    rw [hs]
    constructor <;> intro h _ <;> simpa using h
  rcases addSpan_loose false li hk hf with ⟨T, h1, h2, h3, -⟩ | ⟨h0, -⟩
  · have hT : ∀ t, InExtSet t T ↔ InExtSet t si := by
      intro t
      rw [h3, hs]
      simp only [sumIv_zero]
      rfl
    refine ⟨T, ?_, h2, hT⟩
    have hl : i < sch.length := by
      rw [List.getElem?_eq_some_iff] at hi
      exact hi.1
    unfold Sched.propagateOne sget sset
    rw [hd, hi]
    simp only [ok_bind, h1, inter_clean li h2 hT, if_pos hl]
  · cases h0

/-! ## The loop, when the instant itself is not concerned -/

theorem propagateLoop_pieces {i : Nat} {si : TSet} (li : Loose si) : ∀ (ks : List Constr) (sch : List TSet),
    sch[i]? = some si → ks.Pairwise (fun k l => k.dst < l.dst) →
    (∀ k ∈ ks, (∃ w, sch[k.dst]? = some w ∧ Loose w) ∧ WF k.span ∧ (∀ x ∈ si, FitsSum x k.span) ∧ k.dst ≠ i) →
    ∃ sch', ks.foldlM (Sched.propagateOne false i) sch = .ok sch' ∧ sch'.length = sch.length ∧
      (∀ j, (∀ k ∈ ks, k.dst ≠ j) → sch'[j]? = sch[j]?) ∧
      (∀ k ∈ ks, ∃ w w', sch[k.dst]? = some w ∧ sch'[k.dst]? = some w' ∧ Reach w si k.span w') ∧
      ((∀ k ∈ ks, ∀ x ∈ si, WF (sumIv x k.span)) → ks.foldlM (Sched.propagateOne true i) sch = .ok sch') ∧
      ((∃ k ∈ ks, ∃ x ∈ si, ¬ WF (sumIv x k.span)) →
        ks.foldlM (Sched.propagateOne true i) sch = .error .debugAssert)
  | [], sch, _, _, _ => ⟨sch, rfl, rfl, fun _ _ => rfl, fun _ hk => (by simp at hk), fun _ => rfl,
      fun ⟨_, hk, _⟩ => (by simp at hk)⟩
  | k :: ks, sch, hi, hp, hk => by
    rw [List.pairwise_cons] at hp
    obtain ⟨⟨w, hw, cw⟩, hwf, hf, hne⟩ := hk k (by simp)
    obtain ⟨r, h1, -, h2⟩ := propagateOne_pieces hw hi cw li hwf hf
    obtain ⟨d1, d2⟩ := propagateOne_dbg hw hi li hwf hf
    have hl : k.dst < sch.length := by
      rw [List.getElem?_eq_some_iff] at hw
      exact hw.1
    have hi' : (sch.set k.dst r)[i]? = some si := by rw [List.getElem?_set_ne hne, hi]
    obtain ⟨sch', g1, g2, g3, g4, g5, g6⟩ := propagateLoop_pieces li ks (sch.set k.dst r) hi' hp.2 (fun l hl' => by
      obtain ⟨⟨v, hv, cv⟩, rest⟩ := hk l (by simp [hl'])
      refine ⟨⟨v, ?_, cv⟩, rest⟩
      have := hp.1 l hl'
      rw [List.getElem?_set_ne (by omega), hv])
    refine ⟨sch', by rw [List.foldlM_cons, h1, ok_bind, g1], by rw [g2, List.length_set], fun j hj => ?_,
      fun l hl' => ?_, fun hall => ?_, fun hex => ?_⟩
    · rw [g3 j (fun l hl' => hj l (by simp [hl'])), List.getElem?_set_ne (hj k (by simp))]
    · rcases List.mem_cons.1 hl' with rfl | hl'
      · refine ⟨w, r, hw, ?_, h2⟩
        rw [g3 l.dst (fun l' hl'' => by have := hp.1 l' hl''; omega), List.getElem?_set_self hl]
      · obtain ⟨v, v', e1, e2, e3⟩ := g4 l hl'
        refine ⟨v, v', ?_, e2, e3⟩
        have := hp.1 l hl'
        rwa [List.getElem?_set_ne (by omega)] at e1
    · rw [List.foldlM_cons, d1 (hall k (by simp)), h1, ok_bind]
      exact g5 (fun l hl' => hall l (by simp [hl']))
    · by_cases c : ∃ x ∈ si, ¬ WF (sumIv x k.span)
      · rw [List.foldlM_cons, d2 c]; rfl
      · have c' : ∀ x ∈ si, WF (sumIv x k.span) := fun x hx => Classical.byContradiction fun hn => c ⟨x, hx, hn⟩
        rw [List.foldlM_cons, d1 c', h1, ok_bind]
        refine g6 ?_
        obtain ⟨l, hl', x, hx, hn⟩ := hex
        rcases List.mem_cons.1 hl' with rfl | hl'
        · exact absurd (c' x hx) hn
        · exact ⟨l, hl', x, hx, hn⟩

end Chrono
