import Verif.Lemmas.Sched

/-!
# The scheduler never loses a feasible date, even when its sets contain junk
-/

set_option linter.unusedSimpArgs false

namespace Chrono
open Spec

theorem within_mono {V W : Int} (h : W ≤ V) {s : List Iv} (hs : WithinSet W s) : WithinSet V s := by
  intro i hi
  have := hs i hi
  omega

theorem restrict_loose {w : Window} (hw : ProperWindow w) {s : TSet} (hs : Loose s) {W : Int} (hW : WithinSet W s)
    (hww : WithinWindow W w) :
    ∃ r, w.restrict s = .ok r ∧ Loose r ∧ WithinSet W r ∧ ∀ t, InExtSet t r ↔ InExtSet t s ∧ InExtWindow t w := by
  cases w with
  | set r =>
    obtain ⟨x, h1, h2, h3, h4⟩ := inter_loose hs (Canon.loose hw)
    refine ⟨x, h1, h2, fun y hy => ?_, h3⟩
    obtain ⟨a, ha, b, hb, e1, e2⟩ := h4 y hy
    have := hW a ha
    have := hww b hb
    omega
  | conv w =>
    refine ⟨_, rfl, ?_⟩
    rcases extConvex_cases hw with ⟨e1, e2, e3, e4⟩ | ⟨e1, e2, e3, e4⟩
    · rw [interAssign_empty hs e2 e3]
      exact ⟨Loose_nil, fun y hy => by simp at hy, fun t => ⟨fun ⟨i, hi, _⟩ => by simp at hi, fun h => absurd h.2 (e4 t)⟩⟩
    · have hb := e4 W hww
      obtain ⟨g1, g2, g3, g4, g5⟩ := e2
      simp only at g1 g2 g3 g4 g5
      obtain ⟨a1, a2, -⟩ := truncateAfter_loose hs g5 g3
      obtain ⟨b1, b2, -⟩ := truncateBefore_loose a1 g2 g4
      refine ⟨b1, fun y hy => ?_, fun t => ?_⟩
      · obtain ⟨x, hx, q1, q2⟩ := truncateBefore_bounds _ _ y hy
        obtain ⟨z, hz, q3, q4⟩ := truncateAfter_bounds _ _ x hx
        have := hW z hz
        have := hb _ (List.mem_singleton.2 rfl)
        simp only at this
        omega
      · show InExtSet t ((s.truncateAfter w.upper).fst.truncateBefore w.lower).fst ↔ _ ∧ InExtConvex t w
        rw [e3 t, loose_extSet b1.wf, loose_extSet hs.wf, b2, a2]
        simp only [InExt]
        have : (w.lower ≤ (if t ≥ INF then INF else if t ≤ -INF then -INF else t) ↔ (w.lower = -INF ∨ w.lower ≤ t)) ∧
            ((if t ≥ INF then INF else if t ≤ -INF then -INF else t) ≤ w.upper ↔ (w.upper = INF ∨ t ≤ w.upper)) := by
          (repeat' split) <;> ticks
        rw [this.1, this.2, and_assoc, and_comm (a := w.upper = INF ∨ t ≤ w.upper)]

theorem sumIv_in {x sp : Iv} {a b : Int} (ha : InExt a x) (hb : InExt b sp) : InExt (a + b) (sumIv x sp) := by
  simp only [InExt, sumIv] at *
  constructor <;> split <;> omega

theorem sumIv_zero (x : Iv) : sumIv x ⟨0, 0⟩ = x := by
  have z1 : ¬ (0 : Int) = -INF := by decide
  have z2 : ¬ (0 : Int) = INF := by decide
  cases x with
  | mk l u =>
    simp only [sumIv, z1, z2, or_false, Iv.mk.injEq]
    constructor <;> split <;> omega

/-- one step of the propagation: what it keeps -/
structure Keeps (W B : Int) (i : Nat) (k : Constr) (sch sch' : List TSet) : Prop where
  len : sch'.length = sch.length
  loose : ∀ w ∈ sch', Loose w
  small : (∀ w ∈ sch, WithinSet (W + B) w) → ∀ w ∈ sch', WithinSet (W + B) w
  here : (k.dst = i → k.span = ⟨0, 0⟩) → (∀ w, sch[i]? = some w → WithinSet W w) → ∀ w, sch'[i]? = some w → WithinSet W w
  sub : ∀ (j : Nat) w', sch'[j]? = some w' → ∃ w, sch[j]? = some w ∧ ∀ t, InExtSet t w' → InExtSet t w
  keep : ∀ τ : Nat → Int, InExt (τ k.dst - τ i) k.span → (∀ (j : Nat) w, sch[j]? = some w → InExtSet (τ j) w) →
    ∀ (j : Nat) w, sch'[j]? = some w → InExtSet (τ j) w

theorem propagateOne_loose (dbg : Bool) {W B : Int} (hB : W + B < INF) (hB0 : 0 ≤ B) {i : Nat} {sch : List TSet} {k : Constr}
    (hi : i < sch.length) (hd : k.dst < sch.length) (hl : ∀ w ∈ sch, Loose w)
    (hW : ∀ w, sch[i]? = some w → WithinSet W w) (hk : WF k.span) (hkB : WithinSet B [k.span]) :
    (∃ sch', Sched.propagateOne dbg i sch k = .ok sch' ∧ Keeps W B i k sch sch') ∨
    (dbg = true ∧ Sched.propagateOne dbg i sch k = .error .debugAssert) := by
  have ei : sch[i]? = some sch[i] := List.getElem?_eq_getElem hi
  have ej : sch[k.dst]? = some sch[k.dst] := List.getElem?_eq_getElem hd
  generalize sch[i] = si at ei
  generalize sch[k.dst] = sj at ej
  have li : Loose si := hl si (List.mem_of_getElem? ei)
  have lj : Loose sj := hl sj (List.mem_of_getElem? ej)
  have hwi := hW si ei
  have hsp := hkB _ (List.mem_singleton.2 rfl)
  have ft : ∀ x ∈ si, FitsSum x k.span := fun x hx => fits_of_within hB (hwi x hx) hsp
  rcases addSpan_loose dbg li hk ft with ⟨T, h1, h2, h3, h4⟩ | ⟨h0, h1⟩
  · left
    obtain ⟨r, g1, g2, g3, g4⟩ := inter_loose lj h2.loose
    refine ⟨sch.set k.dst r, ?_, ?_⟩
    · unfold Sched.propagateOne sget sset
      rw [ej, ei]
      simp only [ok_bind, h1, g1, if_pos hd]
    · have bT : ∀ y ∈ T, (∃ x ∈ si, y.lower = (sumIv x k.span).lower) ∧ (∃ x ∈ si, y.upper = (sumIv x k.span).upper) := by
        intro y hy
        obtain ⟨x, hx, z, hz, q1, q2⟩ := h4 y hy
        exact ⟨⟨x, hx, q1⟩, ⟨z, hz, q2⟩⟩
      have wT : WithinSet (W + B) T := by
        intro y hy
        obtain ⟨⟨x, hx, q1⟩, ⟨z, hz, q2⟩⟩ := bT y hy
        have := hwi x hx
        have := hwi z hz
        simp only [sumIv] at q1 q2
        rw [q1, q2]
        constructor <;> split <;> omega
      constructor
      · rw [List.length_set]
      · intro w hw
        rcases List.mem_or_eq_of_mem_set hw with h | h
        · exact hl w h
        · rw [h]; exact g2
      · intro hs w hw
        rcases List.mem_or_eq_of_mem_set hw with h | h
        · exact hs w h
        · rw [h]
          intro y hy
          obtain ⟨x, hx, z, hz, q1, q2⟩ := g4 y hy
          have := hs sj (List.mem_of_getElem? ej) x hx
          have := wT z hz
          omega
      · intro hz hw w e
        by_cases c : k.dst = i
        · rw [c, List.getElem?_set_self hi] at e
          cases e
          have hz := hz c
          have esj : sj = si := by rw [c, ei] at ej; cases ej; rfl
          intro y hy
          obtain ⟨x, hx, z, hz', q1, q2⟩ := g4 y hy
          have m0 := hwi x (by rw [← esj]; exact hx)
          obtain ⟨⟨x1, hx1, p1⟩, ⟨x2, hx2, p2⟩⟩ := bT z hz'
          have m1 := hwi x1 hx1
          have m2 := hwi x2 hx2
          rw [hz, sumIv_zero] at p1 p2
          constructor
          · rcases q1 with q1 | q1 <;> rw [q1]
            · exact m0.1
            · rw [p1]; exact m1.1
          · rcases q2 with q2 | q2 <;> rw [q2]
            · exact m0.2
            · rw [p2]; exact m2.2
        · rw [List.getElem?_set_ne c] at e
          exact hw w e
      · intro j w' e
        by_cases c : k.dst = j
        · rw [← c, List.getElem?_set_self hd] at e
          cases e
          exact ⟨sj, by rw [← c, ej], fun t ht => ((g3 t).1 ht).1⟩
        · rw [List.getElem?_set_ne c] at e
          exact ⟨w', e, fun t ht => ht⟩
      · intro τ hτ hs j w e
        by_cases c : k.dst = j
        · rw [← c, List.getElem?_set_self hd] at e
          cases e
          rw [g3, ← c]
          refine ⟨hs _ _ ej, (h3 _).2 ?_⟩
          obtain ⟨x, hx, hin⟩ := hs i si ei
          refine ⟨x, hx, ?_⟩
          have := sumIv_in hin hτ
          rwa [show τ i + (τ k.dst - τ i) = τ k.dst by omega] at this
        · rw [List.getElem?_set_ne c] at e
          exact hs j w e
  · right
    refine ⟨h0, ?_⟩
    unfold Sched.propagateOne sget
    rw [ej, ei]
    simp only [ok_bind, h1]; rfl

theorem propagateLoop_loose (dbg : Bool) {W B : Int} (hB : W + B < INF) (hB0 : 0 ≤ B) {i : Nat} : ∀ (ks : List Constr)
    (sch : List TSet), i < sch.length →
    (∀ k ∈ ks, k.dst < sch.length ∧ WF k.span ∧ WithinSet B [k.span] ∧ (k.dst = i → k.span = ⟨0, 0⟩)) →
    (∀ w ∈ sch, Loose w ∧ WithinSet (W + B) w) → (∀ w, sch[i]? = some w → WithinSet W w) →
    (∃ sch', ks.foldlM (Sched.propagateOne dbg i) sch = .ok sch' ∧ sch'.length = sch.length ∧
      (∀ w ∈ sch', Loose w ∧ WithinSet (W + B) w) ∧
      (∀ (j : Nat) w', sch'[j]? = some w' → ∃ w, sch[j]? = some w ∧ ∀ t, InExtSet t w' → InExtSet t w) ∧
      (∀ τ : Nat → Int, (∀ k ∈ ks, InExt (τ k.dst - τ i) k.span) → (∀ (j : Nat) w, sch[j]? = some w → InExtSet (τ j) w) →
        ∀ (j : Nat) w, sch'[j]? = some w → InExtSet (τ j) w)) ∨
    (dbg = true ∧ ks.foldlM (Sched.propagateOne dbg i) sch = .error .debugAssert)
  | [], sch, _, _, hs, _ => Or.inl ⟨sch, rfl, rfl, hs, fun j w e => ⟨w, e, fun t h => h⟩, fun τ _ h => h⟩
  | k :: ks, sch, hi, hk, hs, hW => by
    obtain ⟨k1, k2, k3, k4⟩ := hk k (by simp)
    rcases propagateOne_loose dbg hB hB0 hi k1 (fun w hw => (hs w hw).1) hW k2 k3 with ⟨s1, e1, c1⟩ | ⟨h0, e1⟩
    · rcases propagateLoop_loose dbg hB hB0 ks s1 (by rw [c1.len]; exact hi)
        (fun l hl => by rw [c1.len]; exact hk l (by simp [hl]))
        (fun w hw => ⟨c1.loose w hw, c1.small (fun v hv => (hs v hv).2) w hw⟩) (c1.here k4 hW)
        with ⟨s2, e2, n2, l2, b2, t2⟩ | ⟨h0, e2⟩
      · left
        refine ⟨s2, by rw [List.foldlM_cons, e1, ok_bind, e2], by rw [n2, c1.len], l2, fun j w' hw' => ?_, fun τ hτ h0 => ?_⟩
        · obtain ⟨v, hv, hv'⟩ := b2 j w' hw'
          obtain ⟨u, hu, hu'⟩ := c1.sub j v hv
          exact ⟨u, hu, fun t ht => hu' t (hv' t ht)⟩
        · exact t2 τ (fun l hl => hτ l (by simp [hl])) (c1.keep τ (hτ k (by simp)) h0)
      · right
        exact ⟨h0, by rw [List.foldlM_cons, e1, ok_bind, e2]⟩
    · right
      exact ⟨h0, by rw [List.foldlM_cons, e1]; rfl⟩

theorem loose_bounds {s : List Iv} (hs : Loose s) : ∀ x ∈ s, TSet.lowerBound s ≤ x.lower ∧ x.upper ≤ TSet.upperBound s := by
  induction s with
  | nil => intro x hx; simp at hx
  | cons y ys ih =>
    obtain ⟨h1, h2, h3⟩ := Loose_cons.1 hs
    have ih := ih h3
    intro x hx
    have e1 : TSet.lowerBound (y :: ys) = y.lower := rfl
    have e2 : ys ≠ [] → TSet.upperBound (y :: ys) = TSet.upperBound ys := by
      intro hne
      cases ys with
      | nil => exact absurd rfl hne
      | cons z zs => simp [TSet.upperBound, List.getLast?_cons_cons]
    rw [e1]
    rcases List.mem_cons.1 hx with e | hx
    · rw [e]
      refine ⟨Int.le_refl _, ?_⟩
      cases ys with
      | nil => exact Int.le_refl _
      | cons z zs =>
        rw [e2 (by simp)]
        have := h2 z (by simp)
        have := (ih z (by simp)).2
        have := (h3.wf z (by simp)).le
        omega
    · rw [e2 (by rintro rfl; simp at hx)]
      have := h2 x hx
      have := (ih x hx).2
      have := h1.le
      omega

theorem contains_loose {w : Window} (hw : ProperWindow w) {s : TSet} (hs : Loose s) (h : w.containsSet s = true) (t : Int)
    (ht : InExtSet t s) : InExtWindow t w := by
  obtain ⟨x, hx, hin⟩ := ht
  have lx := hs.wf x hx
  have lt : ∀ y : Iv, -INF ≤ y.lower → y.upper ≤ INF → y.lower ≤ x.lower → x.upper ≤ y.upper → InExt t y := by
    intro y h1 h2 h3 h4
    obtain ⟨k1, k2, k3, k4, k5⟩ := lx
    simp only [InExt] at *
    omega
  cases w with
  | set r =>
    have h : TSet.containsSet r s = true := h
    simp only [TSet.containsSet, List.all_eq_true] at h
    have h := h x hx
    simp only [TSet.contains] at h
    split at h
    · rename_i ts e
      have hm := List.mem_of_find?_eq_some e
      simp only [Convex.contains, Convex.containsBounds, Bool.and_eq_true, decide_eq_true_eq] at h
      have hr := (Canon.wf hw) ts hm
      exact ⟨ts, hm, lt ts hr.lo hr.hi h.1 h.2⟩
    · cases h
  | conv w =>
    have h : w.containsSet s = true := h
    simp only [Convex.containsSet, Convex.containsBounds, Bool.and_eq_true, decide_eq_true_eq] at h
    have hb := loose_bounds hs x hx
    show InExtConvex t w
    rcases extConvex_cases hw with ⟨e1, e2, e3, e4⟩ | ⟨e1, ⟨g1, g2, g3, g4, g5⟩, e3, -⟩
    · have := lx.lo_lt
      omega
    · rw [e3]
      exact lt ⟨w.lower, w.upper⟩ g2 g3 (by simp only; omega) (by simp only; omega)

/-! ## `remove` -/

theorem complTail_within {W : Int} {rest : List Iv} (hs : Canon rest) : ∀ {p : Int}, p = INF ∨ (-(W + 1) ≤ p ∧ p ≤ W + 1) →
    -INF < p → (∀ y ∈ rest, p < y.lower) → WithinSet W rest → WithinSet (W + 1) (TSet.complTail p rest) := by
  induction rest with
  | nil =>
    intro p hp h0 _ _
    simp only [TSet.complTail]
    split
    · intro i hi; simp at hi
    · rename_i c
      rw [isFutureInfinite_iff] at c
      have : (Convex.rangeFrom p).into = ⟨p, INF⟩ := rfl
      rw [this]
      intro i hi
      rw [List.mem_singleton.1 hi]
      exact ⟨Or.inr (hp.resolve_left c), Or.inl rfl⟩
  | cons x xs ih =>
    intro p hp h0 hlt hW
    obtain ⟨h1, h2, h3⟩ := Canon_cons.1 hs
    obtain ⟨g1, g2, g3, g4, g5⟩ := h1
    have hlt := hlt x (by simp)
    have w0 := hW x (by simp)
    simp only [TSet.complTail]
    have e : justBefore x.lower = x.lower - 1 := by rw [justBefore_eq, if_neg (by omega)]
    have e' : x.upper = INF ∨ (x.upper ≠ INF ∧ justAfter x.upper = x.upper + 1) := by
      by_cases c : x.upper = INF
      · exact Or.inl c
      · right; exact ⟨c, by rw [justAfter_eq, if_neg (by omega)]⟩
    intro i hi
    rcases List.mem_cons.1 hi with hi | hi
    · rw [hi, e]
      simp only
      omega
    · refine ih h3 (p := justAfter x.upper) ?_ ?_ ?_ (fun y hy => hW y (by simp [hy])) i hi
      · rcases e' with e' | ⟨e0, e'⟩
        · rw [e']; left; decide
        · rw [e']; omega
      · rcases e' with e' | ⟨e0, e'⟩
        · rw [e']; decide
        · rw [e']; omega
      · intro y hy
        have := h2 y hy
        have := (h3.wf y hy).lo_lt
        rcases e' with e' | e' <;> omega

theorem compl_within {W : Int} {s : List Iv} (hs : Canon s) (hW : WithinSet W s) : WithinSet (W + 1) (TSet.compl s) := by
  cases s with
  | nil =>
    intro i hi
    have : i = Iv.all := by simpa [TSet.compl, TSet.all] using hi
    rw [this]
    exact ⟨Or.inl rfl, Or.inl rfl⟩
  | cons x xs =>
    obtain ⟨h1, h2, h3⟩ := Canon_cons.1 hs
    obtain ⟨g1, g2, g3, g4, g5⟩ := h1
    have w0 := hW x (by simp)
    have e' : x.upper = INF ∨ (x.upper ≠ INF ∧ justAfter x.upper = x.upper + 1) := by
      by_cases c : x.upper = INF
      · exact Or.inl c
      · right; exact ⟨c, by rw [justAfter_eq, if_neg (by omega)]⟩
    have ht : WithinSet (W + 1) (TSet.complTail (justAfter x.upper) xs) := by
      refine complTail_within h3 ?_ ?_ ?_ (fun y hy => hW y (by simp [hy]))
      · rcases e' with e' | ⟨e0, e'⟩
        · rw [e']; left; decide
        · rw [e']; omega
      · rcases e' with e' | ⟨e0, e'⟩
        · rw [e']; decide
        · rw [e']; omega
      · intro y hy
        have := h2 y hy
        have := (h3.wf y hy).lo_lt
        rcases e' with e' | e' <;> omega
    simp only [TSet.compl]
    split
    · rename_i c
      have c' : ¬ isPastInfinite (justBefore x.lower) = true := by simpa using c
      rw [isPastInfinite_iff, justBefore_eq] at c'
      have e : (Convex.rangeTo x.lower).into = ⟨-INF, justBefore x.lower⟩ := rfl
      intro i hi
      rcases List.mem_cons.1 hi with hi | hi
      · rw [hi, e]
        refine ⟨Or.inl rfl, ?_⟩
        simp only
        rw [justBefore_eq]
        split at c' <;> split <;> omega
      · exact ht i hi
    · exact ht

/-- the date which stands for all those beyond the representable ones -/
theorem ext_date {i : Iv} (h : WF i) (h1 : i.lower ≠ -INF + 1) (h2 : i.upper ≠ INF - 1) (t : Int) :
    InExt t i ↔ InIv (if t ≥ INF then INF - 1 else if t ≤ -INF then -INF + 1 else t) i := by
  simp only [InExt, InIv]
  obtain ⟨k1, k2, k3, k4, k5⟩ := h
  (repeat' split) <;> ticks

theorem extSet_date' {s : List Iv} (h : Canon s) (hn : NoExtreme s) (t : Int) :
    InExtSet t s ↔ InSet (if t ≥ INF then INF - 1 else if t ≤ -INF then -INF + 1 else t) s := by
  constructor
  · rintro ⟨i, hi, h1⟩; exact ⟨i, hi, (ext_date (h.wf i hi) (hn i hi).1 (hn i hi).2 t).1 h1⟩
  · rintro ⟨i, hi, h1⟩; exact ⟨i, hi, (ext_date (h.wf i hi) (hn i hi).1 (hn i hi).2 t).2 h1⟩

theorem compl_ext {s : List Iv} (hs : Canon s) (hn : NoExtreme s) (t : Int) :
    InExtSet t (TSet.compl s) ↔ ¬ InExtSet t s := by
  obtain ⟨h1, h2, h3⟩ := compl_spec hs
  rw [extSet_date' hs hn, extSet_date' h1 h2, h3]
  (repeat' split) <;> ticks

theorem iv_compl_eq {i : Iv} (h : WF i) : i.compl = TSet.compl [i] := by
  obtain ⟨h1, h2, h3, h4, h5⟩ := id h
  have e1 : (Convex.rangeTo i.lower).into = ⟨-INF, justBefore i.lower⟩ := rfl
  have e2 : (Convex.rangeFrom (justAfter i.upper)).into = ⟨justAfter i.upper, INF⟩ := rfl
  simp only [Iv.compl, h.not_isEmpty, Bool.false_eq_true, if_false, TSet.compl, TSet.complTail, e1, e2]
  cases isPastInfinite (justBefore i.lower) <;> cases isFutureInfinite (justAfter i.upper) <;> simp

theorem point_compl_eq {p : Int} (hd : Date p) : pointCompl p = TSet.compl [⟨p, p⟩] := by
  have hw : WF ⟨p, p⟩ := by constructor <;> simp only <;> ticks
  rw [← iv_compl_eq hw]
  have h3 : (⟨p, p⟩ : Iv).isEmpty = false := hw.not_isEmpty
  simp only [pointCompl, Iv.compl, h3, justBefore_date hd, justAfter_date hd, Iv.before, Iv.after]
  have b1 : Iv.empty.isEmpty = true := rfl
  have b2 : (⟨-INF, p - 1⟩ : Iv).isEmpty = false := rfl
  have b3 : (⟨p + 1, INF⟩ : Iv).isEmpty = isFutureInfinite (p + 1) := rfl
  have b4 : isFutureInfinite (p + 1) = false ∨ isPastInfinite (p - 1) = false := by
    simp only [← Bool.not_eq_true, isFutureInfinite_iff, isPastInfinite_iff]; ticks
  cases hp1 : isPastInfinite (p - 1) <;> cases hf1 : isFutureInfinite (p + 1) <;>
    simp_all

theorem noExtreme_of_within {W : Int} (hW : W + 1 < INF) {s : List Iv} (hs : WithinSet W s) : NoExtreme s := by
  intro i hi
  have := hs i hi
  have : (0 : Int) < INF := by decide
  omega

/-- what `remove` retains -/
theorem neg_spec {w : Negatable} (hw : ProperNeg w) {W : Int} (hW : WithinNeg W w) (h1 : W + 1 < INF) :
    Canon w.not ∧ WithinSet (W + 1) w.not ∧ ∀ t, InExtSet t w.not ↔ ¬ InExtNeg t w := by
  have key : ∀ s : List Iv, Canon s → WithinSet W s →
      Canon (TSet.compl s) ∧ WithinSet (W + 1) (TSet.compl s) ∧ ∀ t, InExtSet t (TSet.compl s) ↔ ¬ InExtSet t s :=
    fun s hs hWs => ⟨(compl_spec hs).1, compl_within hs hWs, compl_ext hs (noExtreme_of_within h1 hWs)⟩
  have hemp : ∀ t, ¬ InExt t ⟨INF, -INF⟩ := by
    intro t
    simp only [InExt]
    ticks
  cases w with
  | set s => exact key s hw hW
  | point p =>
    have hw : Date p := hw
    have e : Negatable.not (.point p) = TSet.compl [⟨p, p⟩] := point_compl_eq hw
    rw [e]
    obtain ⟨a, b, c⟩ := key [⟨p, p⟩] (canon_one (by constructor <;> simp only <;> ticks))
      (fun i hi => by rw [List.mem_singleton.1 hi]; exact ⟨Or.inr hW, Or.inr hW⟩)
    refine ⟨a, b, fun t => ?_⟩
    rw [c, extSet_one]
    show ¬ InExt t ⟨p, p⟩ ↔ ¬ t = p
    simp only [InExt]
    have := hw.1
    have := hw.2
    omega
  | iv i =>
    have hcase : (WF i ∧ WithinSet W [i]) ∨ i = ⟨INF, -INF⟩ := by
      rcases hw with hw | hw
      · rcases hW with hW | hW
        · exact Or.inr hW
        · exact Or.inl ⟨hw, hW⟩
      · exact Or.inr hw
    rcases hcase with ⟨hw, hW⟩ | rfl
    · have e : Negatable.not (.iv i) = TSet.compl [i] := iv_compl_eq hw
      rw [e]
      obtain ⟨a, b, c⟩ := key [i] (canon_one hw) hW
      refine ⟨a, b, fun t => ?_⟩
      rw [c, extSet_one]
      exact Iff.rfl
    · have e : Negatable.not (.iv ⟨INF, -INF⟩) = [Iv.all] := by decide
      rw [e]
      refine ⟨by decide, fun i hi => ?_, fun t => ?_⟩
      · rw [List.mem_singleton.1 hi]; exact ⟨Or.inl rfl, Or.inl rfl⟩
      · rw [extSet_one]
        exact ⟨fun _ => hemp t, fun _ => ⟨Or.inl rfl, Or.inl rfl⟩⟩

/-- a schedule whose sets may contain junk -/
def LooseSched (s : Sched) : Prop := s.schedule.length = s.graph.size ∧ ∀ w ∈ s.schedule, Loose w

/-- what any call of `retain` does: without overflow the only possible panic is the assertion of a debug build on an
empty interval; a refused window changes nothing; an accepted one loses no feasible date and adds none -/
theorem retain_loose (dbg : Bool) {s : Sched} (hv : Valid s.graph) (hz : ZeroDiag s.graph) (hs : Spanned s.graph)
    (hc : LooseSched s) {B W : Int} (hg : Within B s.graph) (hW : WithinSched W s) (hB : W + B < INF) (hB0 : 0 ≤ B) {i : Nat}
    (hi : i < s.graph.size) {w : Window} (hw : ProperWindow w) (hww : WithinWindow W w) :
    (∃ s' o, s.retain dbg i w = .ok (s', o) ∧ s'.graph = s.graph ∧ LooseSched s' ∧ WithinSched (W + B) s' ∧
      o ≠ .fatal ∧ ((o = .recovered ∨ o = .unchanged) → s' = s) ∧ (∀ j t, Slot s' j t → Slot s j t) ∧
      (o ≠ .recovered → ∀ t, Slot s' i t → InExtWindow t w) ∧
      (∀ τ, Sat τ s.graph → (∀ j, j < s.graph.size → Slot s j (τ j)) → InExtWindow (τ i) w →
        ∀ j, j < s.graph.size → Slot s' j (τ j))) ∨
    (dbg = true ∧ s.retain dbg i w = .error .debugAssert) := by
  have hl : i < s.schedule.length := by rw [hc.1]; exact hi
  have ei : s.schedule[i]? = some s.schedule[i] := List.getElem?_eq_getElem hl
  have hmem : s.schedule[i] ∈ s.schedule := List.getElem_mem hl
  generalize s.schedule[i] = si at ei hmem
  have wmono : WithinSched (W + B) s := fun v hv => within_mono (by omega) (hW v hv)
  rw [retain_test dbg ei]
  by_cases c1 : w.containsSet si = true
  · rw [if_pos c1]
    refine Or.inl ⟨s, _, rfl, rfl, hc, wmono, by decide, fun _ => rfl, fun _ _ h => h, fun _ t ht => ?_, fun τ _ h _ => h⟩
    exact contains_loose hw (hc.2 si hmem) c1 t ((slot_get ei t).1 ht)
  rw [if_neg c1]
  by_cases c2 : (!w.overlapsSet si) = true
  · rw [if_pos c2]
    exact Or.inl ⟨s, _, rfl, rfl, hc, wmono, by decide, fun _ => rfl, fun _ _ h => h, fun h => absurd rfl h, fun τ _ h _ => h⟩
  rw [if_neg c2]
  obtain ⟨r, h1, h2, h3, h4⟩ := restrict_loose hw (hc.2 si hmem) (hW si hmem) hww
  rw [h1]
  simp only [ok_bind]
  unfold Sched.propagateScheduling
  obtain ⟨ks, g1, g2, g3, -⟩ := C72_from_partial hv hi
  simp only [g1, ok_bind]
  have hset : ∀ v ∈ s.schedule.set i r, Loose v ∧ WithinSet (W + B) v := by
    intro v hv
    rcases List.mem_or_eq_of_mem_set hv with h | h
    · exact ⟨hc.2 v h, wmono v h⟩
    · rw [h]; exact ⟨h2, within_mono (by omega) h3⟩
  have hks : ∀ k ∈ ks, s.graph.timespan i k.dst = .ok k.span ∧ k.dst < s.graph.size :=
    fun k hk => ⟨(g3 k hk).2.2.2.1, (g3 k hk).2.1⟩
  rcases propagateLoop_loose dbg hB hB0 (i := i) ks (s.schedule.set i r) (by rw [List.length_set]; exact hl)
    (fun k hk => by
      obtain ⟨ht, hd⟩ := hks k hk
      refine ⟨by rw [List.length_set, hc.1]; exact hd, hs i k.dst hi hd _ ht, ?_, fun e => ?_⟩
      · intro x hx
        rw [List.mem_singleton.1 hx]
        exact hg i k.dst hi hd _ ht
      · rw [e, hz i hi] at ht
        injection ht with ht
        exact ht.symm) hset
    (fun v hv => by rw [List.getElem?_set_self hl] at hv; cases hv; exact h3)
    with ⟨sch', e1, n1, l1, b1, t1⟩ | ⟨h0, e1⟩
  · left
    refine ⟨⟨s.graph, sch'⟩, .propagated, by simp only [e1, ok_bind]; rfl, rfl,
      ⟨by rw [n1, List.length_set]; exact hc.1, fun v hv => (l1 v hv).1⟩, fun v hv => (l1 v hv).2, by decide,
      (fun h => by rcases h with h | h <;> cases h), ?_, fun _ t => ?_, ?_⟩
    · rintro j t ⟨v, hv, ht⟩
      obtain ⟨u, hu, hu'⟩ := b1 j v hv
      by_cases c : i = j
      · subst c
        rw [List.getElem?_set_self hl] at hu
        cases hu
        exact ⟨si, ei, ((h4 t).1 (hu' t ht)).1⟩
      · rw [List.getElem?_set_ne c] at hu
        exact ⟨u, hu, hu' t ht⟩
    · rintro ⟨v, hv, ht⟩
      obtain ⟨u, hu, hu'⟩ := b1 i v hv
      rw [List.getElem?_set_self hl] at hu
      cases hu
      exact ((h4 t).1 (hu' t ht)).2
    · intro τ hτ hin hwin j hj
      have hj' : j < sch'.length := by rw [n1, List.length_set, hc.1]; exact hj
      refine ⟨sch'[j], List.getElem?_eq_getElem hj', ?_⟩
      refine t1 τ (fun k hk => ?_) (fun a v hv => ?_) j _ (List.getElem?_eq_getElem hj')
      · obtain ⟨ht, hd⟩ := hks k hk
        obtain ⟨sp, e, h⟩ := hτ i k.dst hi hd
        rw [ht] at e
        cases e
        exact h
      · by_cases c : i = a
        · subst c
          rw [List.getElem?_set_self hl] at hv
          cases hv
          exact (h4 _).2 ⟨(slot_get ei _).1 (hin i hi), hwin⟩
        · rw [List.getElem?_set_ne c] at hv
          have : a < s.schedule.length := by
            rw [List.getElem?_eq_some_iff] at hv
            exact hv.1
          exact (slot_get hv _).1 (hin a (by rw [← hc.1]; exact this))
  · right
    refine ⟨h0, ?_⟩
    simp only [e1]; rfl

theorem withinWindow_mono {V W : Int} (h : W ≤ V) {w : Window} (hw : WithinWindow W w) : WithinWindow V w := by
  cases w with
  | set s => exact within_mono h hw
  | conv w =>
    cases w <;> simp only [WithinWindow, WithinConvex] at *
    case iv i => exact hw.imp id (within_mono h)
    all_goals omega

/-- the same for both kinds of calls -/
theorem call_loose (dbg : Bool) {s : Sched} (hv : Valid s.graph) (hz : ZeroDiag s.graph) (hs : Spanned s.graph)
    (hc : LooseSched s) {B W V : Int} (hg : Within B s.graph) (hV : WithinSched V s) (hWV : W ≤ V) (hB : V + B < INF)
    (hB0 : 0 ≤ B) {c : Call} (hok : c.Ok s.graph.size W) :
    (∃ s' o, c.run dbg s = .ok (s', o) ∧ s'.graph = s.graph ∧ LooseSched s' ∧ WithinSched (V + B) s' ∧
      o ≠ .fatal ∧ ((o = .recovered ∨ o = .unchanged) → s' = s) ∧ (∀ j t, Slot s' j t → Slot s j t) ∧
      (o ≠ .recovered → ∀ t, Slot s' c.instant t → c.Allows t) ∧
      (∀ τ, Sat τ s.graph → (∀ j, j < s.graph.size → Slot s j (τ j)) → c.Allows (τ c.instant) →
        ∀ j, j < s.graph.size → Slot s' j (τ j))) ∨
    (dbg = true ∧ c.run dbg s = .error .debugAssert) := by
  cases c with
  | retain i w =>
    obtain ⟨h1, h2, h3⟩ := hok
    exact retain_loose dbg hv hz hs hc hg hV hB hB0 h1 h2 (withinWindow_mono hWV h3)
  | remove i w =>
    obtain ⟨h1, h2, h3⟩ := hok
    obtain ⟨k1, k2, k3⟩ := neg_spec h2 h3 (by omega)
    rcases retain_loose dbg hv hz hs hc hg hV hB hB0 h1 (w := .set w.not) k1
      (withinWindow_mono (W := W - 1 + 1) (by omega) k2) with ⟨s', o, a1, a2, a3, a4, a5, a6, a7, a8, a9⟩ | h
    · refine Or.inl ⟨s', o, a1, a2, a3, a4, a5, a6, a7, fun ho t ht => (k3 t).1 (a8 ho t ht), ?_⟩
      intro τ hτ hin hal
      exact a9 τ hτ hin ((k3 _).2 hal)
    · exact Or.inr h

theorem callAll_loose (dbg : Bool) {B W : Int} (hB0 : 0 ≤ B) : ∀ (calls : List Call) {s : Sched} {V : Int}, Valid s.graph →
    ZeroDiag s.graph → Spanned s.graph → LooseSched s → Within B s.graph → WithinSched V s → W ≤ V →
    V + calls.length * B < INF → (∀ c ∈ calls, c.Ok s.graph.size W) →
    (∃ s' acc, callAll dbg s calls = .ok (s', acc) ∧ s'.graph = s.graph ∧ LooseSched s' ∧
      (∀ j t, Slot s' j t → Slot s j t ∧ ∀ c ∈ acc, c.instant = j → c.Allows t) ∧
      (∀ τ, Sat τ s.graph → (∀ j, j < s.graph.size → Slot s j (τ j)) → (∀ c ∈ acc, c.Allows (τ c.instant)) →
        ∀ j, j < s.graph.size → Slot s' j (τ j))) ∨
    (dbg = true ∧ callAll dbg s calls = .error .debugAssert)
  | [], s, V, _, _, _, hl, _, _, _, _, _ =>
    Or.inl ⟨s, [], rfl, rfl, hl, fun j t h => ⟨h, fun c hc => by simp at hc⟩, fun τ _ h _ => h⟩
  | c :: calls, s, V, hv, hz, hs, hl, hg, hV, hWV, hB, hok => by
    have e : V + ((c :: calls).length : Int) * B = V + B + calls.length * B := by
      rw [List.length_cons, Int.natCast_add, Int.add_mul]; omega
    rw [e] at hB
    have hn : 0 ≤ (calls.length : Int) * B := Int.mul_nonneg (by omega) hB0
    rcases call_loose dbg hv hz hs hl hg hV hWV (by omega) hB0 (hok c (by simp)) with
      ⟨s1, o, a1, a2, a3, a4, a5, a6, a7, a8, a9⟩ | ⟨h0, h1⟩
    · rcases callAll_loose dbg hB0 (W := W) calls (s := s1) (V := V + B) (by rw [a2]; exact hv) (by rw [a2]; exact hz)
        (by rw [a2]; exact hs) a3 (by rw [a2]; exact hg) a4 (by omega) hB
        (fun c' hc' => by rw [a2]; exact hok c' (by simp [hc'])) with ⟨s2, acc, b1, b2, b3, b4, b5⟩ | ⟨h0, h1⟩
      · left
        refine ⟨s2, if o = .recovered ∨ o = .fatal then acc else c :: acc, ?_, by rw [b2, a2], b3, fun j t ht => ?_, ?_⟩
        · simp only [callAll, a1, ok_bind, b1]; rfl
        · obtain ⟨c1, c2⟩ := b4 j t ht
          refine ⟨a7 j t c1, ?_⟩
          split
          · exact c2
          · rename_i ho
            intro c' hc' hj
            rcases List.mem_cons.1 hc' with e | hc'
            · rw [e]
              rw [e] at hj
              exact a8 (fun h => ho (Or.inl h)) t (by rw [hj]; exact c1)
            · exact c2 c' hc' hj
        · intro τ hτ hin hal
          rw [a2] at b5
          by_cases ho : o = .recovered ∨ o = .fatal
          · rw [if_pos ho] at hal
            have e : s1 = s := by
              rcases ho with ho | ho
              · exact a6 (Or.inl ho)
              · exact absurd ho a5
            exact b5 τ hτ (by rw [e]; exact hin) hal
          · rw [if_neg ho] at hal
            exact b5 τ hτ (a9 τ hτ hin (hal c (by simp))) (fun c' hc' => hal c' (by simp [hc']))
      · right
        refine ⟨h0, ?_⟩
        simp only [callAll, a1, ok_bind, h1]; rfl
    · right
      refine ⟨h0, ?_⟩
      simp only [callAll, h1]; rfl

theorem new_loose (g : Graph) : LooseSched (Sched.new g) := by
  refine ⟨by simp [Sched.new], fun w hw => ?_⟩
  simp only [Sched.new, List.mem_replicate] at hw
  rw [hw.2]
  exact Canon.loose (by decide)

theorem new_canon (g : Graph) : CanonSched (Sched.new g) := by
  refine ⟨by simp [Sched.new], fun w hw => ?_⟩
  simp only [Sched.new, List.mem_replicate] at hw
  rw [hw.2]
  decide

theorem new_within (g : Graph) (W : Int) : WithinSched W (Sched.new g) := by
  intro w hw
  simp only [Sched.new, List.mem_replicate] at hw
  rw [hw.2]
  intro i hi
  have : i = Iv.all := by simpa [TSet.all] using hi
  rw [this]
  exact ⟨Or.inl rfl, Or.inl rfl⟩

theorem new_slot (g : Graph) {i : Nat} (hi : i < g.size) (t : Int) : Slot (Sched.new g) i t := by
  refine ⟨TSet.all, ?_, Iv.all, by simp [TSet.all], Or.inl rfl, Or.inl rfl⟩
  simp [Sched.scheduling, Sched.new, List.getElem?_replicate, hi]

/-- the graphs the constructor and the propagation give satisfy the conditions above -/
theorem spanned_of_sat {g : Graph} (h : ∃ τ, Sat τ g) {B : Int} (hB : B < INF) (hg : Within B g) : Spanned g := by
  intro i j hi hj s hs
  obtain ⟨τ, hτ⟩ := h
  obtain ⟨s', e, hin⟩ := hτ i j hi hj
  rw [hs] at e
  cases e
  have := hg i j hi hj s hs
  simp only [InExt] at hin
  constructor <;> ticks

theorem zeroDiag_of_minimal {g : Graph} (hv : Valid g) (hm : Minimal g) : ZeroDiag g :=
  ((minimal_iff hv).1 hm).zeroDiag hv

end Chrono
