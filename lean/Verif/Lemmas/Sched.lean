import Verif.Spec.Sched
import Verif.Lemmas.Loose
import Verif.Props.GraphIter

/-!
# Lemmas on the scheduler
-/

set_option linter.unusedSimpArgs false

namespace Chrono
open Spec

/-! ## Windows -/

/-- a proper window on the unbounded time line -/
theorem extConvex_cases {w : Convex} (h : Proper w) :
    (w.isEmpty = true ∧ w.lower = INF ∧ w.upper = -INF ∧ ∀ t, ¬ InExtConvex t w) ∨
    (w.isEmpty = false ∧ WF ⟨w.lower, w.upper⟩ ∧ (∀ t, InExtConvex t w ↔ InExt t ⟨w.lower, w.upper⟩) ∧
      ∀ W, WithinConvex W w → WithinSet W [⟨w.lower, w.upper⟩]) := by
  rcases h.cases with ⟨e1, e2, e3, -⟩ | ⟨e1, e2, -⟩
  · left
    refine ⟨e1, e2, e3, fun t => ?_⟩
    cases w <;> simp only [InExtConvex, InExt, Proper, Convex.lower, Convex.upper] at * <;>
      (try split at e2) <;> (try simp only [WF] at h) <;> ticks
  · right
    have hj : ∀ b, -INF < b → b ≤ INF → (justBefore b = INF ∧ b = INF) ∨ (justBefore b = b - 1 ∧ b ≠ INF) := by
      intro b h1 h2
      rw [justBefore_eq]; split <;> omega
    refine ⟨e1, e2, fun t => ?_, fun W hW => ?_⟩
    · obtain ⟨g1, g2, g3, g4, g5⟩ := e2
      cases w <;> simp only [InExtConvex, InExt, Proper, Convex.lower, Convex.upper] at *
      case range a b =>
        have := hj b (by ticks) (by ticks)
        (repeat' split at *) <;> ticks
      case rangeTo b =>
        have := hj b (by ticks) (by ticks)
        ticks
      all_goals (try split at *) <;> ticks
    · obtain ⟨g1, g2, g3, g4, g5⟩ := e2
      cases w <;> simp only [WithinConvex, WithinSet, Proper, Convex.lower, Convex.upper,
        List.mem_singleton, forall_eq] at *
      case iv i =>
        rcases hW with rfl | hW
        · exact absurd g1 (by decide)
        · exact hW
      case range a b =>
        have := hj b (by ticks) (by ticks)
        (repeat' split at *) <;> ticks
      case rangeTo b =>
        have := hj b (by ticks) (by ticks)
        ticks
      all_goals (try split at *) <;> ticks

/-! ## Intersections on the unbounded time line -/

/-- the intersection of canonical sets: never a panic, exact; canonical if they do not touch -/
theorem inter_ext {a b : List Iv} (ha : Canon a) (hb : Canon b) :
    ∃ r, TSet.inter a b = .ok r ∧ (∀ t, InExtSet t r ↔ InExtSet t a ∧ InExtSet t b) ∧
      (NoTouch a b → Canon r) := by
  obtain ⟨r, h1, h2, h3, h4⟩ := inter_loose ha.loose hb.loose
  obtain ⟨r', g1, g2, g3, g4⟩ := C33_inter_canonical_partial a b ha hb
  rw [h1] at g1
  cases g1
  exact ⟨r, h1, h3, fun h => (g4 h).1⟩

/-- two canonical sets with the same dates are equal -/
theorem canon_extSet {a b : List Iv} (ha : Canon a) (hb : Canon b) (h : ∀ t, InExtSet t a ↔ InExtSet t b) : a = b := by
  have out : ∀ s : List Iv, Canon s → ∀ t, ¬ Legal t → ¬ InSet t s := by
    rintro s hs t ht ⟨i, hi, h1, h2⟩
    have := (hs.wf i hi).lo
    have := (hs.wf i hi).hi
    exact ht ⟨by omega, by omega⟩
  refine canon_ext ha hb (fun t => ?_)
  by_cases c : Legal t
  · have := h t
    rw [inExtSet_iff ha.wf, inExtSet_iff hb.wf] at this
    have e : (if t ≥ INF then INF else if t ≤ -INF then -INF else t) = t := by
      (repeat' split) <;> ticks
    rwa [e] at this
  · exact ⟨fun h => absurd h (out a ha t c), fun h => absurd h (out b hb t c)⟩

theorem canon_nonempty {s : List Iv} (hs : Canon s) (h : s ≠ []) : ∃ t, Date t ∧ InExtSet t s := by
  cases s with
  | nil => exact absurd rfl h
  | cons x xs =>
    obtain ⟨t, ht, hin⟩ := (hs.wf x (by simp)).exists_date
    exact ⟨t, ht, (inExtSet_date hs.wf ht).2 ⟨x, by simp, hin⟩⟩

theorem canon_one {i : Iv} (h : WF i) : Canon [i] := Canon_cons.2 ⟨h, by simp, Canon_nil⟩

theorem extSet_one {t : Int} {i : Iv} : InExtSet t [i] ↔ InExt t i := by simp [InExtSet]

/-- the bounds of an intersection are those of the sets -/
theorem within_inter {W : Int} {a b r : List Iv} (hr : Canon r) (wa : WithinSet W a) (wb : WithinSet W b)
    (h : ∀ t, InExtSet t r ↔ InExtSet t a ∧ InExtSet t b) : WithinSet W r := by
  -- outside of `r` just before and after each of its intervals
  have out : ∀ x ∈ r, (x.lower ≠ -INF → ¬ InExtSet (x.lower - 1) r) ∧ (x.upper ≠ INF → ¬ InExtSet (x.upper + 1) r) := by
    intro x hx
    have hx' := hr.wf x hx
    have sep : ∀ y ∈ r, y = x ∨ y.upper + 1 < x.lower ∨ x.upper + 1 < y.lower := by
      intro y hy
      have hg := hr.gap
      clear h hx' hr
      induction r with
      | nil => simp at hx
      | cons z zs ih =>
        rw [List.pairwise_cons] at hg
        rcases List.mem_cons.1 hx with hx1 | hx1
        · rcases List.mem_cons.1 hy with hy1 | hy1
          · left; rw [hx1, hy1]
          · right; right; rw [hx1]; exact hg.1 y hy1
        · rcases List.mem_cons.1 hy with hy1 | hy1
          · right; left; rw [hy1]; exact hg.1 x hx1
          · exact ih hx1 hy1 hg.2
    obtain ⟨h1, h2, h3, h4, h5⟩ := hx'
    constructor
    · rintro hne ⟨y, hy, h6⟩
      obtain ⟨g1, g2, g3, g4, g5⟩ := hr.wf y hy
      simp only [InExt] at h6
      rcases sep y hy with rfl | h7 | h7 <;> omega
    · rintro hne ⟨y, hy, h6⟩
      obtain ⟨g1, g2, g3, g4, g5⟩ := hr.wf y hy
      simp only [InExt] at h6
      rcases sep y hy with rfl | h7 | h7 <;> omega
  intro x hx
  obtain ⟨o1, o2⟩ := out x hx
  obtain ⟨h1, h2, h3, h4, h5⟩ := hr.wf x hx
  constructor
  · by_cases c : x.lower = -INF
    · left; exact c
    · right
      have hin : InExtSet x.lower r := ⟨x, hx, by simp only [InExt]; omega⟩
      have hout := o1 c
      rw [h] at hin hout
      obtain ⟨⟨y, hy, p⟩, ⟨z, hz, q⟩⟩ := hin
      have wy := (wa y hy).1
      have wz := (wb z hz).1
      by_cases d : InExtSet (x.lower - 1) a
      · have : ¬ InExt (x.lower - 1) z := fun e => hout ⟨d, z, hz, e⟩
        simp only [InExt] at this q
        omega
      · have : ¬ InExt (x.lower - 1) y := fun e => d ⟨y, hy, e⟩
        simp only [InExt] at this p
        omega
  · by_cases c : x.upper = INF
    · left; exact c
    · right
      have hin : InExtSet x.upper r := ⟨x, hx, by simp only [InExt]; omega⟩
      have hout := o2 c
      rw [h] at hin hout
      obtain ⟨⟨y, hy, p⟩, ⟨z, hz, q⟩⟩ := hin
      have wy := (wa y hy).2
      have wz := (wb z hz).2
      by_cases d : InExtSet (x.upper + 1) a
      · have : ¬ InExt (x.upper + 1) z := fun e => hout ⟨d, z, hz, e⟩
        simp only [InExt] at this q
        omega
      · have : ¬ InExt (x.upper + 1) y := fun e => d ⟨y, hy, e⟩
        simp only [InExt] at this p
        omega

/-! ## Restricting a slot -/

/-- the canonical set of the dates of a window -/
def asSet : Window → List Iv
  | .conv w => if w.isEmpty then [] else [⟨w.lower, w.upper⟩]
  | .set s => s

theorem asSet_spec {w : Window} (h : ProperWindow w) :
    Canon (asSet w) ∧ (∀ t, InExtSet t (asSet w) ↔ InExtWindow t w) ∧
    ∀ W, WithinWindow W w → WithinSet W (asSet w) := by
  cases w with
  | set s => exact ⟨h, fun t => Iff.rfl, fun W hW => hW⟩
  | conv w =>
    rcases extConvex_cases h with ⟨e1, -, -, e2⟩ | ⟨e1, e2, e3, e4⟩
    · simp only [asSet, e1, if_true]
      exact ⟨Canon_nil, fun t => ⟨fun ⟨i, hi, _⟩ => by simp at hi, fun h => absurd h (e2 t)⟩,
        fun W _ i hi => by simp at hi⟩
    · simp only [asSet, e1]
      exact ⟨canon_one e2, fun t => extSet_one.trans (e3 t).symm, fun W hW => e4 W hW⟩

/-- `set &= window` -/
theorem restrict_ext {w : Window} (hw : ProperWindow w) {s : TSet} (hs : Canon s)
    (hn : ∀ r, w = .set r → NoTouch s r) :
    ∃ r, w.restrict s = .ok r ∧ Canon r ∧ ∀ t, InExtSet t r ↔ InExtSet t s ∧ InExtWindow t w := by
  cases w with
  | set r =>
    obtain ⟨x, h1, h2, h3⟩ := inter_ext hs hw
    exact ⟨x, h1, h3 (hn r rfl), h2⟩
  | conv w =>
    obtain ⟨h1, h2⟩ := C37_inter_assign s w hs hw
    refine ⟨_, rfl, h1, fun t => ?_⟩
    rcases extConvex_cases hw with ⟨e1, e2, e3, e4⟩ | ⟨e1, e2, e3, -⟩
    · have : TSet.interAssignConvex s w = [] := by
        refine Classical.byContradiction fun hne => ?_
        obtain ⟨t, ht, hin⟩ := canon_nonempty h1 hne
        rw [inExtSet_date h1.wf ht, h2 t ht] at hin
        rcases hw.cases with ⟨-, -, -, -, e5⟩ | ⟨e5, -⟩
        · exact e5 t ht hin.2
        · rw [e1] at e5; cases e5
      rw [this]
      exact ⟨fun ⟨i, hi, _⟩ => by simp at hi, fun h => absurd h.2 (e4 t)⟩
    · show _ ↔ _ ∧ InExtConvex t w
      rw [e3 t]
      obtain ⟨g1, g2, g3, g4, g5⟩ := e2
      simp only at g1 g2 g3 g4 g5
      obtain ⟨a1, a2, -⟩ := truncateAfter_spec hs g5 g3
      obtain ⟨b1, b2, -⟩ := truncateBefore_spec a1 g2 g4
      rw [inExtSet_iff h1.wf, inExtSet_iff hs.wf, TSet.interAssignConvex, b2, a2]
      simp only [InExt]
      have : (w.lower ≤ (if t ≥ INF then INF else if t ≤ -INF then -INF else t) ↔ (w.lower = -INF ∨ w.lower ≤ t)) ∧
          ((if t ≥ INF then INF else if t ≤ -INF then -INF else t) ≤ w.upper ↔ (w.upper = INF ∨ t ≤ w.upper)) := by
        (repeat' split) <;> ticks
      rw [this.1, this.2, and_assoc, and_comm (a := w.upper = INF ∨ t ≤ w.upper)]

/-! ## Propagation from one instant -/

/-- what the propagation through the span `sp` makes of the slots `sj` of an instant, given those of instant `i` -/
structure Step (sj si : TSet) (sp : Iv) (r : TSet) : Prop where
  pts : ∀ t, InExtSet t r ↔ InExtSet t sj ∧ ∃ a, InExtSet a si ∧ InExt (t - a) sp
  canon : ∀ T, Canon T → (∀ t, InExtSet t T ↔ ∃ a, InExtSet a si ∧ InExt (t - a) sp) → NoTouch sj T → Canon r

theorem noTouch_self {s : List Iv} (h : Canon s) : NoTouch s s := by
  intro i hi j hj
  have hg := h.gap
  have hw := h.wf
  have key : i = j ∨ i.upper + 1 < j.lower ∨ j.upper + 1 < i.lower := by
    clear h
    induction s with
    | nil => simp at hi
    | cons z zs ih =>
      rw [List.pairwise_cons] at hg
      rcases List.mem_cons.1 hi with h1 | h1
      · rcases List.mem_cons.1 hj with h2 | h2
        · left; rw [h1, h2]
        · right; left; rw [h1]; exact hg.1 j h2
      · rcases List.mem_cons.1 hj with h2 | h2
        · right; right; rw [h2]; exact hg.1 i h1
        · exact ih h1 h2 hg.2 (fun x hx => hw x (by simp [hx]))
  have h1 := (hw i hi).le
  have h2 := (hw j hj).le
  rcases key with rfl | h | h <;> omega

theorem propagateOne_ext (dbg : Bool) {i : Nat} {sch : List TSet} {k : Constr} {si sj : TSet}
    (hj : sch[k.dst]? = some sj) (hi : sch[i]? = some si) (cj : Canon sj) (ci : Canon si) (hk : WF k.span)
    (hf : ∀ x ∈ si, FitsSum x k.span) :
    ∃ r, Sched.propagateOne dbg i sch k = .ok (sch.set k.dst r) ∧ Step sj si k.span r := by
  obtain ⟨T, h1, h2, h3⟩ := addSpan_collect dbg ci hk hf
  have h3' : ∀ t, InExtSet t T ↔ ∃ a, InExtSet a si ∧ InExt (t - a) k.span := by
    intro t
    rw [h3]
    constructor
    · rintro ⟨a, b, ha, hb, rfl⟩; exact ⟨a, ha, by rwa [show a + b - a = b by omega]⟩
    · rintro ⟨a, ha, hb⟩; exact ⟨a, t - a, ha, hb, by omega⟩
  obtain ⟨r, g1, g2, g4⟩ := inter_ext cj h2
  refine ⟨r, ?_, fun t => by rw [g2, h3'], fun T' c' h' hn => ?_⟩
  · have hl : k.dst < sch.length := by
      rw [List.getElem?_eq_some_iff] at hj
      exact hj.1
    unfold Sched.propagateOne sget sset
    rw [hj, hi]
    simp only [ok_bind, h1, g1, if_pos hl]
  · have : T' = T := canon_extSet c' h2 (fun t => by rw [h', h3'])
    rw [this] at hn
    exact g4 hn

/-- the loop over the constraints from `i` -/
theorem propagateLoop_ext (dbg : Bool) {i : Nat} {si : TSet} (ci : Canon si) : ∀ (ks : List Constr) (sch : List TSet),
    sch[i]? = some si → ks.Pairwise (fun k l => k.dst < l.dst) →
    (∀ k ∈ ks, (∃ w, sch[k.dst]? = some w ∧ Canon w) ∧ WF k.span ∧ (∀ x ∈ si, FitsSum x k.span) ∧
      (k.dst = i → k.span = ⟨0, 0⟩)) →
    ∃ sch', ks.foldlM (Sched.propagateOne dbg i) sch = .ok sch' ∧ sch'.length = sch.length ∧
      (∀ j, j = i ∨ (∀ k ∈ ks, k.dst ≠ j) → sch'[j]? = sch[j]?) ∧
      (∀ k ∈ ks, k.dst ≠ i → ∃ w w', sch[k.dst]? = some w ∧ sch'[k.dst]? = some w' ∧ Step w si k.span w')
  | [], sch, _, _, _ => ⟨sch, rfl, rfl, fun _ _ => rfl, fun _ hk => by simp at hk⟩
  | k :: ks, sch, hi, hp, hk => by
    rw [List.pairwise_cons] at hp
    obtain ⟨⟨w, hw, cw⟩, hwf, hf, hs⟩ := hk k (by simp)
    obtain ⟨r, h1, h2⟩ := propagateOne_ext dbg hw hi cw ci hwf hf
    have hl : k.dst < sch.length := by
      rw [List.getElem?_eq_some_iff] at hw
      exact hw.1
    have hi' : (sch.set k.dst r)[i]? = some si := by
      by_cases c : k.dst = i
      · have hsp := hs c
        rw [c, hi] at hw
        cases hw
        have e : ∀ t, InExtSet t si ↔ ∃ a, InExtSet a si ∧ InExt (t - a) k.span := by
          intro t
          rw [hsp]
          constructor
          · intro h; exact ⟨t, h, by simp only [InExt]; ticks⟩
          · rintro ⟨a, ha, hb⟩
            have : t = a := by simp only [InExt] at hb; ticks
            rw [this]; exact ha
        have cr := h2.canon si ci e (noTouch_self ci)
        have : r = si := canon_extSet cr ci (fun t => by
          rw [h2.pts, ← e]; exact and_self_iff)
        rw [this, c, List.getElem?_set_self (by omega)]
      · rw [List.getElem?_set_ne c, hi]
    obtain ⟨sch', g1, g2, g3, g4⟩ := propagateLoop_ext dbg ci ks (sch.set k.dst r) hi' hp.2 (fun l hl' => by
      obtain ⟨⟨v, hv, cv⟩, rest⟩ := hk l (by simp [hl'])
      refine ⟨⟨v, ?_, cv⟩, rest⟩
      have := hp.1 l hl'
      rw [List.getElem?_set_ne (by omega), hv])
    refine ⟨sch', by rw [List.foldlM_cons, h1, ok_bind, g1], by rw [g2, List.length_set], fun j hj => ?_, fun l hl' hne => ?_⟩
    · by_cases c : j = i
      · rw [g3 j (Or.inl c), c, hi', hi]
      · rcases hj with hj | hj
        · exact absurd hj c
        · rw [g3 j (Or.inr (fun l hl' => hj l (by simp [hl']))), List.getElem?_set_ne (hj k (by simp))]
    · rcases List.mem_cons.1 hl' with rfl | hl'
      · refine ⟨w, r, hw, ?_, h2⟩
        rw [g3 l.dst (Or.inr (fun l' hl'' => by have := hp.1 l' hl''; omega)), List.getElem?_set_self hl]
      · obtain ⟨v, v', e1, e2, e3⟩ := g4 l hl' hne
        refine ⟨v, v', ?_, e2, e3⟩
        have := hp.1 l hl'
        rwa [List.getElem?_set_ne (by omega)] at e1

/-! ## Tests of a window against the slots -/

theorem extSet_legal {s : List Iv} (hs : ∀ i ∈ s, WF i) {t : Int} (ht : Legal t) : InExtSet t s ↔ InSet t s := by
  rw [inExtSet_iff hs]
  have e : (if t ≥ INF then INF else if t ≤ -INF then -INF else t) = t := by
    (repeat' split) <;> ticks
  rw [e]

theorem inSet_legal {s : List Iv} (hs : ∀ i ∈ s, WF i) {t : Int} (ht : InSet t s) : Legal t := by
  obtain ⟨i, hi, h1, h2⟩ := ht
  have := (hs i hi).lo
  have := (hs i hi).hi
  exact ⟨by omega, by omega⟩

/-- inclusion on the unbounded time line, for canonical sets -/
theorem subset_ext {a b : List Iv} (ha : Canon a) (hb : Canon b) :
    (∀ t, InExtSet t a → InExtSet t b) ↔ ∀ t, InSet t a → InSet t b := by
  constructor
  · intro h t ht
    have hl := inSet_legal ha.wf ht
    exact (extSet_legal hb.wf hl).1 (h t ((extSet_legal ha.wf hl).2 ht))
  · intro h t ht
    rw [inExtSet_iff ha.wf] at ht
    rw [inExtSet_iff hb.wf]
    exact h _ ht

theorem meet_ext {a b : List Iv} (ha : Canon a) (hb : Canon b) :
    (∃ t, InExtSet t a ∧ InExtSet t b) ↔ ∃ t, Date t ∧ InSet t a ∧ InSet t b := by
  constructor
  · rintro ⟨t, h1, h2⟩
    obtain ⟨x, hx, p⟩ := h1
    obtain ⟨y, hy, q⟩ := h2
    obtain ⟨g1, g2, g3, g4, g5⟩ := ha.wf x hx
    obtain ⟨k1, k2, k3, k4, k5⟩ := hb.wf y hy
    simp only [InExt] at p q
    have hw : WF ⟨max x.lower y.lower, min x.upper y.upper⟩ := by
      constructor <;> simp only <;> omega
    obtain ⟨d, hd, h1, h2⟩ := hw.exists_date
    simp only at h1 h2
    exact ⟨d, hd, ⟨x, hx, by constructor <;> omega⟩, ⟨y, hy, by constructor <;> omega⟩⟩
  · rintro ⟨t, ht, h1, h2⟩
    exact ⟨t, (inExtSet_date ha.wf ht).2 h1, (inExtSet_date hb.wf ht).2 h2⟩

theorem contains_ext {w : Window} (hw : ProperWindow w) {s : TSet} (hs : Canon s) :
    w.containsSet s = true ↔ ∀ t, InExtSet t s → InExtWindow t w := by
  cases w with
  | set r =>
    show TSet.containsSet r s = true ↔ ∀ t, InExtSet t s → InExtSet t r
    rw [subset_ext hs hw]
    simp only [TSet.containsSet, List.all_eq_true]
    constructor
    · rintro h t ⟨i, hi, h1, h2⟩
      exact (contains_points (w := .iv i) hw (hs.wf i hi)).1 (h i hi) t h1 h2
    · intro h i hi
      exact (contains_points (w := .iv i) hw (hs.wf i hi)).2 (fun t h1 h2 => h t ⟨i, hi, h1, h2⟩)
  | conv w =>
    show w.containsSet s = true ↔ ∀ t, InExtSet t s → InExtConvex t w
    simp only [Convex.containsSet, Convex.containsBounds, Bool.and_eq_true, decide_eq_true_eq]
    by_cases c : s = []
    · subst c
      have hno : ∀ t, ¬ InExtSet t [] := by rintro t ⟨i, hi, _⟩; simp at hi
      simp only [hno, false_implies, implies_true, iff_true]
      show w.lower ≤ INF ∧ -INF ≤ w.upper
      rcases extConvex_cases hw with ⟨e1, e2, e3, _⟩ | ⟨e1, ⟨g1, g2, g3, g4, g5⟩, _⟩
      · rw [e2, e3]; decide
      · simp only at *; omega
    · obtain ⟨⟨b1, b2, b3, b4, b5⟩, hl, hu, hall⟩ := canon_bounds hs c
      simp only at b1 b2 b3 b4 b5
      rcases extConvex_cases hw with ⟨e1, e2, e3, e4⟩ | ⟨e1, ⟨g1, g2, g3, g4, g5⟩, e3, -⟩
      · rw [e2, e3]
        constructor
        · intro h; omega
        · intro h
          obtain ⟨t, -, ht⟩ := canon_nonempty hs c
          exact absurd (h t ht) (e4 t)
      · simp only at g1 g2 g3 g4 g5
        constructor
        · rintro ⟨h1, h2⟩ t ⟨i, hi, h3⟩
          rw [e3]
          have hwi := hs.wf i hi
          have p := hall i.lower ⟨i, hi, Int.le_refl _, hwi.le⟩
          have q := hall i.upper ⟨i, hi, hwi.le, Int.le_refl _⟩
          obtain ⟨k1, k2, k3, k4, k5⟩ := hwi
          simp only [InExt] at h3 ⊢
          omega
        · intro h
          have far : ∀ x, InSet x s → InExt x ⟨w.lower, w.upper⟩ ∧ (x = INF → InExt (INF + w.upper.natAbs + 1) ⟨w.lower, w.upper⟩) ∧
              (x = -INF → InExt (-INF - w.lower.natAbs - 1) ⟨w.lower, w.upper⟩) := by
            intro x hx
            have hx' := (extSet_legal hs.wf (inSet_legal hs.wf hx)).2 hx
            refine ⟨(e3 x).1 (h x hx'), fun e => ?_, fun e => ?_⟩
            · refine (e3 _).1 (h _ ?_)
              rw [inExtSet_iff hs.wf, if_pos (by omega), ← e]; exact hx
            · refine (e3 _).1 (h _ ?_)
              rw [inExtSet_iff hs.wf, if_neg (by ticks), if_pos (by omega), ← e]; exact hx
          obtain ⟨p1, p2, p3⟩ := far _ hl
          obtain ⟨q1, q2, q3⟩ := far _ hu
          simp only [InExt] at *
          by_cases c1 : TSet.lowerBound s = -INF
          · have := p3 c1
            by_cases c2 : TSet.upperBound s = INF
            · have := q2 c2; omega
            · omega
          · by_cases c2 : TSet.upperBound s = INF
            · have := q2 c2; omega
            · omega

theorem overlaps_ext {w : Window} (hw : ProperWindow w) {s : TSet} (hs : Canon s)
    (hne : ∀ v, w = .conv v → (∃ t, InExtConvex t v) ∨ s ≠ TSet.all) :
    w.overlapsSet s = true ↔ ∃ t, InExtSet t s ∧ InExtWindow t w := by
  obtain ⟨a1, a2, -⟩ := asSet_spec hw
  have e : (∃ t, InExtSet t s ∧ InExtWindow t w) ↔ ∃ t, Date t ∧ InSet t s ∧ InSet t (asSet w) := by
    rw [← meet_ext hs a1]
    constructor
    · rintro ⟨t, h1, h2⟩; exact ⟨t, h1, (a2 t).2 h2⟩
    · rintro ⟨t, h1, h2⟩; exact ⟨t, h1, (a2 t).1 h2⟩
  rw [e]
  cases w with
  | set r =>
    show TSet.overlapsSet r s = true ↔ ∃ t, Date t ∧ InSet t s ∧ InSet t r
    rw [(C36_overlaps_set r s hw hs).1]
    constructor
    · rintro ⟨t, h1, h2, h3⟩; exact ⟨t, h1, h3, h2⟩
    · rintro ⟨t, h1, h2, h3⟩; exact ⟨t, h1, h3, h2⟩
  | conv w =>
    show TSet.overlaps s w = true ↔ _
    rw [overlaps_iff hs]
    rcases extConvex_cases hw with ⟨e1, e2, e3, e4⟩ | ⟨e1, e2, e3, -⟩
    · simp only [asSet, e1, if_true, InSet_nil, and_false, exists_false, iff_false]
      rintro ⟨i, hi, h1, h2⟩
      rw [e2] at h1
      rw [e3] at h2
      rcases hne w rfl with ⟨t, ht⟩ | hne
      · exact e4 t ht
      · apply hne
        have hwi := hs.wf i hi
        have ei : i = Iv.all := by
          have q1 := hwi.lo
          have q2 := hwi.hi
          cases i
          simp only at *
          unfold Iv.all
          congr <;> omega
        have key : ∀ s : List Iv, Canon s → i ∈ s → s = [i] := by
          intro s hs hi
          refine canon_extSet hs (canon_one (hs.wf i hi)) (fun t => ?_)
          rw [extSet_one]
          constructor
          · intro _; rw [ei]; exact ⟨Or.inl rfl, Or.inl rfl⟩
          · intro h; exact ⟨i, hi, h⟩
        rw [key s hs hi, ei]; rfl
    · simp only [asSet, e1]
      rw [overlaps_iv hs e2]
      simp only [InSet_singleton, InIv, Bool.false_eq_true, if_false]

/-! ## Propagation in the whole schedule -/

theorem propagateScheduling_ext (dbg : Bool) {s : Sched} (hv : Valid s.graph) (hz : ZeroDiag s.graph)
    (hs : Spanned s.graph) (hlen : s.schedule.length = s.graph.size)
    (hc : ∀ w ∈ s.schedule, Canon w) {i : Nat} (hi : i < s.graph.size) {si : TSet} (hsi : s.schedule[i]? = some si)
    (hne : si ≠ [])
    (hf : ∀ x ∈ si, ∀ j, j < s.graph.size → ∀ sp, s.graph.timespan i j = .ok sp → FitsSum x sp) :
    ∃ s', s.propagateScheduling dbg i = .ok s' ∧ s'.graph = s.graph ∧ s'.schedule.length = s.schedule.length ∧
      s'.schedule[i]? = some si ∧
      ∀ j, j < s.graph.size → j ≠ i → ∃ w w' sp, s.schedule[j]? = some w ∧ s'.schedule[j]? = some w' ∧
        s.graph.timespan i j = .ok sp ∧ Step w si sp w' := by
  obtain ⟨ks, h1, h2, h3, h4⟩ := C72_from_partial hv hi
  have get : ∀ j, j < s.graph.size → ∃ w, s.schedule[j]? = some w ∧ Canon w := by
    intro j hj
    have : j < s.schedule.length := by omega
    exact ⟨s.schedule[j], List.getElem?_eq_getElem this, hc _ (List.getElem_mem this)⟩
  have ci : Canon si := by
    obtain ⟨w, e, c⟩ := get i hi
    rw [hsi] at e; cases e; exact c
  obtain ⟨sch', g1, g2, g3, g4⟩ := propagateLoop_ext dbg ci ks s.schedule hsi h2 (fun k hk => by
    obtain ⟨-, hd, -, ht, -⟩ := h3 k hk
    refine ⟨get k.dst hd, hs i k.dst hi hd _ ht, fun x hx => hf x hx k.dst hd _ ht, fun e => ?_⟩
    rw [e, hz i hi] at ht
    injection ht with ht
    exact ht.symm)
  refine ⟨{ s with schedule := sch' }, ?_, rfl, g2, by rw [g3 i (Or.inl rfl), hsi], fun j hj hji => ?_⟩
  · unfold Sched.propagateScheduling
    rw [h1, ok_bind, g1]; rfl
  · by_cases c : ∃ k ∈ ks, k.dst = j
    · obtain ⟨k, hk, rfl⟩ := c
      obtain ⟨w, w', e1, e2, e3⟩ := g4 k hk hji
      exact ⟨w, w', k.span, e1, e2, (h3 k hk).2.2.2.1, e3⟩
    · have hno : ∀ k ∈ ks, k.dst ≠ j := fun k hk e => c ⟨k, hk, e⟩
      obtain ⟨w, e1, cw⟩ := get j hj
      have ht : s.graph.timespan i j = .ok ⟨-INF, INF⟩ := by
        rw [timespan_eq hv hi hj]
        refine Classical.byContradiction fun hn => ?_
        obtain ⟨k, hk, e⟩ := h4 j hj hji _ (timespan_eq hv hi hj) (fun e => hn (by rw [e]))
        exact hno k hk e
      refine ⟨w, w, _, e1, by rw [g3 j (Or.inr hno), e1], ht, fun t => ?_, fun _ _ _ _ => cw⟩
      obtain ⟨a, -, ha⟩ := canon_nonempty ci hne
      exact ⟨fun h => ⟨h, a, ha, Or.inl rfl, Or.inl rfl⟩, fun h => h.1⟩

theorem fits_of_within {W B : Int} (hB : W + B < INF) {x sp : Iv}
    (hx : (x.lower = -INF ∨ (-W ≤ x.lower ∧ x.lower ≤ W)) ∧ (x.upper = INF ∨ (-W ≤ x.upper ∧ x.upper ≤ W)))
    (hs : (sp.lower = -INF ∨ (-B ≤ sp.lower ∧ sp.lower ≤ B)) ∧ (sp.upper = INF ∨ (-B ≤ sp.upper ∧ sp.upper ≤ B))) :
    FitsSum x sp := by
  constructor <;> intro h1 h2 <;> ticks

theorem slot_get {s : Sched} {i : Nat} {w : TSet} (h : s.schedule[i]? = some w) (t : Int) :
    Slot s i t ↔ InExtSet t w := by
  unfold Slot Sched.scheduling
  rw [h]
  constructor
  · rintro ⟨w', e, h⟩; cases e; exact h
  · intro h; exact ⟨w, rfl, h⟩

theorem sched_get {s : Sched} (h : CanonSched s) {i : Nat} (hi : i < s.graph.size) :
    ∃ w, s.schedule[i]? = some w ∧ Canon w ∧ w ∈ s.schedule := by
  have : i < s.schedule.length := by rw [h.1]; exact hi
  exact ⟨s.schedule[i], List.getElem?_eq_getElem this, h.2 _ (List.getElem_mem this), List.getElem_mem this⟩

/-- the first tests of `retain` -/
theorem retain_test (dbg : Bool) {s : Sched} {i : Nat} {w : Window} {si : TSet} (h : s.schedule[i]? = some si) :
    s.retain dbg i w =
      if w.containsSet si then .ok (s, .unchanged)
      else if !w.overlapsSet si then .ok (s, .recovered)
      else (do
        let r ← w.restrict si
        let s' ← Sched.propagateScheduling dbg { s with schedule := s.schedule.set i r } i
        return (s', .propagated)) := by
  have hl : i < s.schedule.length := by
    rw [List.getElem?_eq_some_iff] at h
    exact h.1
  unfold Sched.retain sget sset
  rw [if_pos hl, h]
  simp only [ok_bind, if_pos hl]
  rfl

/-- `retain` when the window cuts the slots -/
theorem retain_ext (dbg : Bool) {s : Sched} (hv : Valid s.graph) (hz : ZeroDiag s.graph) (hs : Spanned s.graph)
    (hc : CanonSched s) {B W : Int} (hg : Within B s.graph) (hW : WithinSched W s) (hB : W + B < INF) {i : Nat}
    (hi : i < s.graph.size) {si : TSet} (hsi : s.schedule[i]? = some si) {w : Window} (hw : ProperWindow w)
    (hww : WithinWindow W w) (ha : Apart s i w)
    (hin : ¬ ∀ t, InExtSet t si → InExtWindow t w) (hov : ∃ t, InExtSet t si ∧ InExtWindow t w) :
    ∃ s' r, s.retain dbg i w = .ok (s', .propagated) ∧ s'.graph = s.graph ∧
      s'.schedule.length = s.schedule.length ∧ s'.schedule[i]? = some r ∧ Canon r ∧ WithinSet W r ∧
      (∀ t, InExtSet t r ↔ InExtSet t si ∧ InExtWindow t w) ∧
      ∀ j, j < s.graph.size → j ≠ i → ∃ v v' sp, s.schedule[j]? = some v ∧ s'.schedule[j]? = some v' ∧
        s.graph.timespan i j = .ok sp ∧ Step v r sp v' := by
  obtain ⟨si', e, ci, hmem⟩ := sched_get hc hi
  rw [hsi] at e; cases e
  obtain ⟨a1, a2, a3⟩ := asSet_spec hw
  obtain ⟨r, h1, h2, h3⟩ := restrict_ext hw ci (fun r e => by subst e; exact ha si hsi)
  have hwr : WithinSet W r := within_inter h2 (hW si hmem) (a3 W hww) (fun t => by rw [h3, a2])
  have hl : i < s.schedule.length := by rw [hc.1]; exact hi
  have hrne : r ≠ [] := by
    rintro rfl
    obtain ⟨t, ht⟩ := hov
    obtain ⟨x, hx, _⟩ := (h3 t).2 ht
    simp at hx
  obtain ⟨s', g1, g2, g3, g4, g5⟩ := propagateScheduling_ext dbg (s := { s with schedule := s.schedule.set i r }) hv hz hs
    (by simp only [List.length_set]; exact hc.1)
    (fun x hx => by
      rcases List.mem_or_eq_of_mem_set hx with hx | hx
      · exact hc.2 x hx
      · rw [hx]; exact h2) hi (List.getElem?_set_self hl) hrne
    (fun x hx j hj sp hsp => fits_of_within hB (hwr x hx) (hg i j hi hj sp hsp))
  refine ⟨s', r, ?_, g2, by rw [g3, List.length_set], g4, h2, hwr, h3, fun j hj hji => ?_⟩
  · rw [retain_test dbg hsi]
    rw [if_neg (by rw [contains_ext hw ci]; exact hin)]
    have hov' : w.overlapsSet si = true := (overlaps_ext hw ci (fun v e => Or.inl (by
      subst e; obtain ⟨t, -, ht⟩ := hov; exact ⟨t, ht⟩))).2 hov
    rw [hov', h1]
    simp only [ok_bind, Bool.not_true, Bool.false_eq_true, if_false, g1]
    rfl
  · obtain ⟨v, v', sp, e1, e2, e3, e4⟩ := g5 j hj hji
    refine ⟨v, v', sp, ?_, e2, e3, e4⟩
    rwa [List.getElem?_set_ne (fun e => hji e.symm)] at e1

end Chrono
