import Verif.Spec.Mirror
import Verif.Props.Mirror
import Verif.Props.SetLaws
import Verif.Lemmas.ShiftReq
import Verif.Lemmas.SchedAny

/-!
# Lemmas: requests to a scheduler seen in a mirror
-/

namespace Chrono
open Spec

theorem looseIv_neg {i : Iv} (h : LooseIv i) : LooseIv i.neg := by
  obtain ⟨h1, h2, h3, h4, h5⟩ := h
  constructor <;> simp only [Iv.neg] <;> omega

theorem loose_neg {s : List Iv} (h : Loose s) : Loose (TSet.neg s) := by
  refine ⟨fun i hi => ?_, gap_neg h.gap⟩
  obtain ⟨j, hj, rfl⟩ := mem_neg.1 hi
  exact looseIv_neg (h.wf j hj)

theorem inter_neg {a b : TSet} (ha : Loose a) (hb : Loose b) :
    ∃ r, TSet.inter a b = .ok r ∧ Loose r ∧ TSet.inter (TSet.neg a) (TSet.neg b) = .ok (TSet.neg r) := by
  obtain ⟨r, e, l, m⟩ := inter_mem ha hb
  obtain ⟨r', e', l', m'⟩ := inter_mem (loose_neg ha) (loose_neg hb)
  refine ⟨r, e, l, e'.trans (congrArg _ ?_)⟩
  refine gap_ext l' (loose_neg l) fun y => ?_
  rw [m', mem_neg]
  constructor
  · rintro ⟨x, hx, z, hz, l1, l2, rfl⟩
    obtain ⟨x, hx', rfl⟩ := mem_neg.1 hx
    obtain ⟨z, hz', rfl⟩ := mem_neg.1 hz
    simp only [Iv.neg] at l1 l2
    refine ⟨_, (m _).2 ⟨x, hx', z, hz', by omega, by omega, rfl⟩, ?_⟩
    simp only [Iv.neg, InterIter.meet, Iv.mk.injEq]
    omega
  · rintro ⟨j, hj, rfl⟩
    obtain ⟨x, hx, z, hz, l1, l2, rfl⟩ := (m j).1 hj
    refine ⟨_, mem_neg.2 ⟨x, hx, rfl⟩, _, mem_neg.2 ⟨z, hz, rfl⟩, ?_, ?_, ?_⟩
    · simp only [Iv.neg]; omega
    · simp only [Iv.neg]; omega
    · simp only [Iv.neg, InterIter.meet, Iv.mk.injEq]; omega

theorem trIv_neg {i sp : Iv} (hi : LooseIv i) (hs : WF sp) : trIv sp.neg i.neg = (trIv sp i).neg := by
  have e1 : i.addSpan false sp = .ok (trIv sp i) := by
    rcases addSpan_tr_loose false hi hs with h | h
    · exact h
    · cases h.1
  have e2 : i.neg.addSpan false sp.neg = .ok (trIv sp.neg i.neg) := by
    rcases addSpan_tr_loose false (looseIv_neg hi) hs.neg with h | h
    · exact h
    · cases h.1
  have l := hi.le
  have := (C122_translations (i := i) (s := sp) (d := 0) ⟨hi.lo, by have := hi.lo_lt; omega⟩ ⟨by have := hi.lt_hi; omega, hi.hi⟩ (by decide)
    ⟨hs.lo, by have := hs.lo_lt; omega⟩ ⟨by have := hs.lt_hi; omega, hs.hi⟩ false).2.2.2.1
  rw [e1, e2] at this
  exact Except.ok.inj this

theorem addSpan_ok_neg (dbg : Bool) {i sp : Iv} (hi : LooseIv i) (hs : WF sp) :
    i.neg.addSpan dbg sp.neg = .ok (trIv sp.neg i.neg) ↔ i.addSpan dbg sp = .ok (trIv sp i) := by
  have := (C122_translations (i := i) (s := sp) (d := 0) ⟨hi.lo, by have := hi.lo_lt; omega⟩ ⟨by have := hi.lt_hi; omega, hi.hi⟩ (by decide)
    ⟨hs.lo, by have := hs.lo_lt; omega⟩ ⟨by have := hs.lt_hi; omega, hs.hi⟩ dbg).2.2.2.1
  rw [this, trIv_neg hi hs]
  rcases addSpan_tr_loose dbg hi hs with h | ⟨-, h⟩
  · rw [h]; simp [Except.map]
  · rw [h]; simp [Except.map]

theorem trIv_empty_neg {i sp : Iv} (hi : LooseIv i) (hs : WF sp) : (trIv sp i).neg.isEmpty = (trIv sp i).isEmpty := by
  rcases trIv_cases hi hs with ⟨w, -⟩ | ⟨e, -⟩
  · rw [w.neg.not_isEmpty, w.not_isEmpty]
  · rw [e]; rfl

theorem setAddSpan_neg (dbg : Bool) {s : TSet} {sp : Iv} (hs : Loose s) (hsp : WF sp) :
    Moves TSet.neg Canon (TSet.addSpan dbg s sp) (TSet.addSpan dbg (TSet.neg s) sp.neg) := by
  rcases addSpan_full dbg hs hsp with ⟨T, e, c, ok, m⟩ | ⟨d, e, i, hi, hn⟩
  · rcases addSpan_full dbg (loose_neg hs) hsp.neg with ⟨T', e', c', -, m'⟩ | ⟨d, -, i, hi, hn⟩
    · have : T' = TSet.neg T := by
        refine canon_ext c' (canon_neg c) fun t => ?_
        rw [m', inSet_neg, m]
        constructor
        · rintro ⟨i, hi, h1, h2⟩
          obtain ⟨j, hj, rfl⟩ := mem_neg.1 hi
          rw [trIv_neg (hs.wf j hj) hsp] at h1 h2
          rw [trIv_empty_neg (hs.wf j hj) hsp] at h1
          exact ⟨j, hj, h1, by simp only [InIv, Iv.neg] at *; omega⟩
        · rintro ⟨j, hj, h1, h2⟩
          refine ⟨j.neg, mem_neg.2 ⟨j, hj, rfl⟩, ?_, ?_⟩
          · rw [trIv_neg (hs.wf j hj) hsp, trIv_empty_neg (hs.wf j hj) hsp, h1]
          · rw [trIv_neg (hs.wf j hj) hsp]
            simp only [InIv, Iv.neg] at *
            omega
      rw [e, e', this]
      exact moves_ok c
    · subst d
      obtain ⟨j, hj, rfl⟩ := mem_neg.1 hi
      exact absurd ((addSpan_ok_neg true (hs.wf j hj) hsp).2 (ok j hj)) hn
  · rcases addSpan_full dbg (loose_neg hs) hsp.neg with ⟨T', -, -, ok, -⟩ | ⟨-, e', -⟩
    · subst d
      exact absurd ((addSpan_ok_neg true (hs.wf i hi) hsp).1 (ok _ (mem_neg.2 ⟨i, hi, rfl⟩))) hn
    · rw [e, e']
      exact moves_error

/-! ## Windows -/

/-- chronological, separated, with no interval shorter than an empty one -/
def Thin (s : List Iv) : Prop := (∀ i ∈ s, i.lower ≤ i.upper + 1) ∧ s.Pairwise (fun a b => a.upper + 1 < b.lower)

theorem thin_loose {s : List Iv} (h : Loose s) : Thin s := ⟨fun i hi => (h.wf i hi).le, h.gap⟩

theorem thin_neg {s : List Iv} (h : Thin s) : Thin (TSet.neg s) := by
  refine ⟨fun i hi => ?_, gap_neg h.2⟩
  obtain ⟨j, hj, rfl⟩ := mem_neg.1 hi
  have := h.1 j hj
  simp only [Iv.neg]
  omega

def cutLow (c : Int) (s : List Iv) : List Iv := (s.filter fun x => decide (c ≤ x.upper)).map fun x => ⟨max x.lower c, x.upper⟩
def cutHigh (c : Int) (s : List Iv) : List Iv := (s.filter fun x => decide (x.lower ≤ c)).map fun x => ⟨x.lower, min x.upper c⟩

theorem before_cons (x : Iv) (s : List Iv) (c : Int) :
    (TSet.truncateBefore (x :: s) c).1 = if c ≤ x.upper then (x.truncateBefore c).1 :: s else (TSet.truncateBefore s c).1 := by
  unfold TSet.truncateBefore
  rw [List.findIdx?_cons]
  by_cases h : c ≤ x.upper
  · simp [h]
  · have h' : ¬ x.upper ≥ c := h
    simp only [h', decide_false, if_false, Bool.false_eq_true]
    cases e : s.findIdx? (fun i => decide (i.upper ≥ c)) with
    | none => cases s <;> simp [TSet.isEmpty]
    | some k =>
      cases k with
      | zero => cases s <;> simp at e ⊢
      | succ k =>
        have hk : k + 1 < s.length := (List.findIdx?_eq_some_iff_findIdx_eq.1 e).1
        have ed : s.drop (k + 1) = s[k + 1] :: s.drop (k + 1 + 1) := List.drop_eq_getElem_cons hk
        show Prod.fst (match List.drop (k + 1) s with | [] => (x :: s, false) | x :: xs => ((x.truncateBefore c).fst :: xs, true)) =
          Prod.fst (match List.drop (k + 1) s with | [] => (s, false) | x :: xs => ((x.truncateBefore c).fst :: xs, true))
        generalize List.drop (k + 1) s = d at ed
        subst ed
        rfl

theorem before_cut : ∀ {s : List Iv}, Thin s → ∀ c, (TSet.truncateBefore s c).1 = cutLow c s
  | [], _, c => rfl
  | x :: s, h, c => by
    have hp := List.pairwise_cons.1 h.2
    have ht : Thin s := ⟨fun i hi => h.1 i (List.mem_cons_of_mem _ hi), hp.2⟩
    rw [before_cons]
    unfold cutLow
    rw [List.filter_cons]
    by_cases hc : c ≤ x.upper
    · simp only [hc, if_true, decide_true, List.map_cons]
      have e1 : (x.truncateBefore c).1 = ⟨max x.lower c, x.upper⟩ := by
        unfold Iv.truncateBefore
        by_cases c1 : c ≤ x.lower
        · simp only [c1, if_true]
          have : max x.lower c = x.lower := by omega
          rw [this]
        · have c2 : ¬ x.upper < c := by omega
          simp only [c1, c2, if_false]
          have : max x.lower c = c := by omega
          rw [this]
      have e2 : ∀ y ∈ s, c ≤ y.upper ∧ max y.lower c = y.lower := fun y hy => by
        have := hp.1 y hy
        have := ht.1 y hy
        omega
      have e3 : s.filter (fun x => decide (c ≤ x.upper)) = s := List.filter_eq_self.2 fun y hy => by simp [e2 y hy]
      rw [e1, e3]
      congr 1
      conv => lhs; rw [← List.map_id s]
      refine List.map_congr_left fun y hy => ?_
      rw [(e2 y hy).2]
      rfl
    · simp only [hc, if_false, decide_false, Bool.false_eq_true]
      exact before_cut ht c

theorem after_cut {s : List Iv} (h : Thin s) (c : Int) : (TSet.truncateAfter s c).1 = cutHigh c s := by
  have e := after_neg (TSet.neg s) (-c)
  rw [neg_neg, Int.neg_neg] at e
  rw [e, before_cut (thin_neg h)]
  unfold cutLow cutHigh TSet.neg
  rw [List.filter_map, ← List.map_reverse, List.map_map, List.filter_reverse, ← List.map_reverse, List.reverse_reverse, List.map_map]
  have f : ((fun x => decide (-c ≤ x.upper)) ∘ Iv.neg) = fun x : Iv => decide (x.lower ≤ c) := by
    funext x
    simp only [Function.comp, Iv.neg, Int.neg_le_neg_iff]
  rw [f]
  refine List.map_congr_left fun x _ => ?_
  simp only [Function.comp, Iv.neg, Iv.mk.injEq]
  omega

theorem thin_low {s : List Iv} (h : Thin s) (c : Int) : Thin (cutLow c s) := by
  constructor
  · intro i hi
    obtain ⟨x, hx, rfl⟩ := List.mem_map.1 hi
    obtain ⟨hx, hc⟩ := List.mem_filter.1 hx
    have := h.1 x hx
    have := of_decide_eq_true hc
    simp only
    omega
  · refine List.pairwise_map.2 (List.Pairwise.imp ?_ (List.Pairwise.filter _ h.2))
    intro a b hab
    simp only
    omega

theorem thin_high {s : List Iv} (h : Thin s) (c : Int) : Thin (cutHigh c s) := by
  constructor
  · intro i hi
    obtain ⟨x, hx, rfl⟩ := List.mem_map.1 hi
    obtain ⟨hx, hc⟩ := List.mem_filter.1 hx
    have := h.1 x hx
    have := of_decide_eq_true hc
    simp only
    omega
  · refine List.pairwise_map.2 (List.Pairwise.imp ?_ (List.Pairwise.filter _ h.2))
    intro a b hab
    simp only
    omega

theorem cut_comm {l u : Int} (h : l ≤ u) (s : List Iv) : cutLow l (cutHigh u s) = cutHigh u (cutLow l s) := by
  unfold cutLow cutHigh
  rw [List.filter_map, List.filter_map, List.filter_filter, List.filter_filter, List.map_map, List.map_map]
  have f : ∀ x : Iv, (((fun x => decide (l ≤ x.upper)) ∘ fun x : Iv => (⟨x.lower, min x.upper u⟩ : Iv)) x && decide (x.lower ≤ u)) =
      (((fun x => decide (x.lower ≤ u)) ∘ fun x : Iv => (⟨max x.lower l, x.upper⟩ : Iv)) x && decide (l ≤ x.upper)) := by
    intro x
    rw [Bool.eq_iff_iff]
    simp only [Function.comp, Bool.and_eq_true, decide_eq_true_eq]
    omega
  rw [List.filter_congr fun x _ => f x]
  rfl

theorem convex_bounds {w : Convex} (hw : Proper w) : w.lower ≤ w.upper ∨ (w.lower = INF ∧ w.upper = -INF) := by
  cases w <;> simp only [Proper, Convex.lower, Convex.upper] at *
  case iv i =>
    rcases hw with hw | rfl
    · exact Or.inl hw.le
    · exact Or.inr ⟨rfl, rfl⟩
  case point p => exact Or.inl (Int.le_refl _)
  case range a b =>
    split
    · left; unfold justBefore; ticks
    · exact Or.inr ⟨rfl, rfl⟩
  case rangeFrom a => left; omega
  case rangeIncl a b =>
    split
    · left; assumption
    · exact Or.inr ⟨rfl, rfl⟩
  case rangeTo b => left; unfold justBefore; ticks
  case rangeToIncl b => left; omega

theorem interAssign_neg {s : TSet} (hs : Loose s) {w w' : Convex} (hw : Proper w) (h : w'.lower = -w.upper ∧ w'.upper = -w.lower) :
    TSet.interAssignConvex (TSet.neg s) w' = TSet.neg (TSet.interAssignConvex s w) := by
  rcases convex_bounds hw with le | ⟨e1, e2⟩
  · unfold TSet.interAssignConvex
    rw [h.1, h.2, after_neg, before_neg]
    simp only
    rw [before_cut (thin_loose hs), after_cut (thin_low (thin_loose hs) _), after_cut (thin_loose hs), before_cut (thin_high (thin_loose hs) _),
      cut_comm le]
  · rw [interAssign_empty hs e1 e2, interAssign_empty (loose_neg hs) (by rw [h.1, e2]; omega) (by rw [h.2, e1])]
    rfl

theorem overlaps_loose_iff {s : List Iv} (hs : Loose s) {w : Convex} :
    TSet.overlaps s w = true ↔ ∃ i ∈ s, i.upper ≥ w.lower ∧ i.lower ≤ w.upper := by
  refine ⟨fun h => ?_, overlaps_loose hs⟩
  unfold TSet.overlaps at h
  split at h
  · next ts e =>
    have := List.find?_some e
    exact ⟨ts, List.mem_of_find?_eq_some e, of_decide_eq_true this, of_decide_eq_true h⟩
  · cases h

theorem overlaps_neg {s : List Iv} (hs : Loose s) {w w' : Convex} (h : w'.lower = -w.upper ∧ w'.upper = -w.lower) :
    TSet.overlaps (TSet.neg s) w' = TSet.overlaps s w := by
  rw [Bool.eq_iff_iff, overlaps_loose_iff hs, overlaps_loose_iff (loose_neg hs), h.1, h.2]
  constructor
  · rintro ⟨j, hj, h⟩
    obtain ⟨k, hk, rfl⟩ := mem_neg.1 hj
    simp only [Iv.neg] at h
    exact ⟨k, hk, by omega, by omega⟩
  · rintro ⟨k, hk, h⟩
    refine ⟨_, mem_neg.2 ⟨k, hk, rfl⟩, ?_⟩
    simp only [Iv.neg]
    omega

theorem lowerBound_neg (a : TSet) : TSet.lowerBound (TSet.neg a) = -TSet.upperBound a := by
  simp only [TSet.lowerBound, TSet.upperBound, TSet.neg, List.head?_map, List.head?_reverse]
  cases a.getLast? <;> simp [Iv.neg]

theorem upperBound_neg (a : TSet) : TSet.upperBound (TSet.neg a) = -TSet.lowerBound a := by
  simp only [TSet.lowerBound, TSet.upperBound, TSet.neg, List.getLast?_map, List.getLast?_reverse]
  cases a.head? <;> simp [Iv.neg]

theorem windowOverlaps_neg {s : TSet} (hs : Loose s) {w w' : Window} (hw : ProperWindow w) (h : Opposite w w') :
    w'.overlapsSet (TSet.neg s) = w.overlapsSet s := by
  cases w <;> cases w' <;> simp only [Opposite] at h
  case conv w w' => exact overlaps_neg hs h
  case set r r' =>
    subst h
    have one : ∀ i : Iv, TSet.overlaps (TSet.neg r) (.iv i.neg) = TSet.overlaps r (.iv i) := fun i => overlaps_neg (Canon.loose hw) ⟨rfl, rfl⟩
    simp only [Window.overlapsSet, TSet.overlapsSet]
    rw [Bool.eq_iff_iff, List.any_eq_true, List.any_eq_true]
    constructor
    · rintro ⟨j, hj, h⟩
      obtain ⟨k, hk, rfl⟩ := mem_neg.1 hj
      rw [one] at h
      exact ⟨k, hk, h⟩
    · rintro ⟨k, hk, h⟩
      exact ⟨_, mem_neg.2 ⟨k, hk, rfl⟩, by rw [one]; exact h⟩

theorem windowContains_neg {s : TSet} {w w' : Window} (hw : ProperWindow w) (h : Opposite w w') (hc : ∀ r, w = .set r → Canon s) :
    w'.containsSet (TSet.neg s) = w.containsSet s := by
  cases w <;> cases w' <;> simp only [Opposite] at h
  case conv w w' =>
    simp only [Window.containsSet, Convex.containsSet, Convex.containsBounds, lowerBound_neg, upperBound_neg, h.1, h.2, Int.neg_le_neg_iff]
    exact Bool.and_comm _ _
  case set r r' =>
    subst h
    exact (C122_relations hw (hc r rfl)).1

theorem restrict_neg {s : TSet} (hs : Loose s) {w w' : Window} (hw : ProperWindow w) (h : Opposite w w') :
    Moves TSet.neg Loose (w.restrict s) (w'.restrict (TSet.neg s)) := by
  obtain ⟨r, e, l, -⟩ := restrict_loose hw hs (within_inf_loose hs) (withinWindow_inf hw)
  rw [e]
  have : w'.restrict (TSet.neg s) = .ok (TSet.neg r) := by
    cases w <;> cases w' <;> simp only [Opposite] at h
    case conv w w' =>
      simp only [Window.restrict] at e ⊢
      cases e
      rw [interAssign_neg hs hw h]
    case set q q' =>
      subst h
      obtain ⟨r', e', -, e2⟩ := inter_neg hs (Canon.loose hw)
      simp only [Window.restrict] at e ⊢
      rw [e] at e'; cases e'
      exact e2
  rw [this]
  exact moves_ok l

/-! ## Graphs -/

/-- the constraint which asks the opposite delays -/
def mirrorOf (k : Constr) : Constr := ⟨k.src, k.dst, k.isEmpty, -k.upper, -k.lower⟩

theorem mirror_mat {g g' : Graph} (hv : Valid g) (hv' : Valid g') (h : MirrorGraph g g') {i j : Nat} (hi : i < g.size) (hj : j < g.size) :
    mat g' i j = mat g j i := by
  have e := h.2 i j hi hj
  rw [timespan_eq hv hj hi, timespan_eq hv' (by rw [h.1]; exact hi) (by rw [h.1]; exact hj)] at e
  have e := congrArg Iv.lower (Except.ok.inj e)
  exact e

theorem mirror_from {g g' : Graph} (hv : Valid g) (hv' : Valid g') (h : MirrorGraph g g') {i : Nat} (hi : i < g.size) :
    ∃ ks, g.constraintsFrom i = .ok ks ∧ g'.constraintsFrom i = .ok (ks.map fun k => viewOf g' i k.dst) ∧
      ∀ k ∈ ks, k = viewOf g i k.dst ∧ k.dst < g.size := by
  have hi' : i < g'.size := by rw [h.1]; exact hi
  obtain ⟨ks, h1, h2, h3, h4⟩ := runFrom_spec hv hi (g.size + 1) 0 (by omega) (by omega)
  obtain ⟨ks', h1', h2', h3', h4'⟩ := runFrom_spec hv' hi' (g'.size + 1) 0 (by omega) (by omega)
  have rel : ∀ j, j < g.size → (Rel g' i j ↔ Rel g i j) := fun j hj => by
    unfold Rel
    rw [mirror_mat hv hv' h hi hj, mirror_mat hv hv' h hj hi]
    exact Or.comm
  have e : ks' = ks.map fun k => viewOf g' i k.dst := by
    have ext : ∀ {a b : List Constr}, a.Pairwise (fun k l => k.dst < l.dst) → b.Pairwise (fun k l => k.dst < l.dst) →
        (∀ y, y ∈ a ↔ y ∈ b) → a = b := by
      intro a
      induction a with
      | nil =>
        intro b _ _ h
        cases b with
        | nil => rfl
        | cons y b => exact absurd ((h y).2 (by simp)) (by simp)
      | cons x a ih =>
        intro b ha hb h
        cases b with
        | nil => exact absurd ((h x).1 (by simp)) (by simp)
        | cons y b =>
          have ha' := List.pairwise_cons.1 ha
          have hb' := List.pairwise_cons.1 hb
          have e : x = y := by
            rcases List.mem_cons.1 ((h x).1 (by simp)) with q | q
            · exact q
            rcases List.mem_cons.1 ((h y).2 (by simp)) with r | r
            · exact r.symm
            have := ha'.1 y r
            have := hb'.1 x q
            omega
          subst e
          congr 1
          refine ih ha'.2 hb'.2 fun z => ?_
          have := h z
          simp only [List.mem_cons] at this
          constructor
          · intro hz
            rcases this.1 (Or.inr hz) with rfl | r
            · have := ha'.1 z hz; omega
            · exact r
          · intro hz
            rcases this.2 (Or.inr hz) with rfl | r
            · have := hb'.1 z hz; omega
            · exact r
    refine ext h2' (List.pairwise_map.2 h2) fun y => ?_
    rw [List.mem_map]
    constructor
    · intro hy
      obtain ⟨a1, a2, a3, a4, a5⟩ := h3' y hy
      rw [h.1] at a3
      exact ⟨_, h4 y.dst a2 a3 a4 ((rel _ a3).1 a5), a1.symm⟩
    · rintro ⟨k, hk, rfl⟩
      obtain ⟨a1, a2, a3, a4, a5⟩ := h3 k hk
      exact h4' k.dst a2 (by rw [h.1]; exact a3) a4 ((rel _ a3).2 a5)
  refine ⟨_, h1, ?_, ?_⟩
  · unfold Graph.constraintsFrom
    rw [h1', e]
    rfl
  · intro k hk
    rcases List.mem_cons.1 hk with rfl | hk
    · exact ⟨rfl, by show 0 < _; omega⟩
    · obtain ⟨a1, -, a3, -⟩ := h3 k hk
      exact ⟨a1, a3⟩

/-! ## Requests -/

theorem sget_neg {P : TSet → Prop} {sch : List TSet} {i : Nat} (h : ∀ w, sch[i]? = some w → P w) :
    Moves TSet.neg P (sget sch i) (sget (sch.map TSet.neg) i) := by
  unfold sget
  rw [List.getElem?_map]
  cases e : sch[i]? with
  | none => exact moves_error
  | some w => exact moves_ok (h w e)

theorem sset_neg {P : List TSet → Prop} {sch : List TSet} {i : Nat} {r : TSet} (h : P (sch.set i r)) :
    Moves (List.map TSet.neg) P (sset sch i r) (sset (sch.map TSet.neg) i (TSet.neg r)) := by
  unfold sset
  rw [List.length_map]
  split
  · rw [← List.map_set]
    exact moves_ok h
  · exact moves_error

theorem inter_moves {a b : TSet} (ha : Loose a) (hb : Loose b) :
    Moves TSet.neg Loose (TSet.inter a b) (TSet.inter (TSet.neg a) (TSet.neg b)) := by
  obtain ⟨r, e, l, e'⟩ := inter_neg ha hb
  rw [e, e']
  exact moves_ok l

def LooseAll (n : Nat) (sch : List TSet) : Prop := sch.length = n ∧ ∀ w ∈ sch, Loose w

theorem looseAll_set {n i : Nat} {sch : List TSet} {r : TSet} (h : LooseAll n sch) (hr : Loose r) : LooseAll n (sch.set i r) := by
  refine ⟨by rw [List.length_set]; exact h.1, fun w hw => ?_⟩
  rcases List.mem_or_eq_of_mem_set hw with hw | rfl
  · exact h.2 w hw
  · exact hr

theorem propagateOne_neg (dbg : Bool) {n i : Nat} {k k' : Constr} (hk : WF k.span) (hd : k'.dst = k.dst) (hs : k'.span = k.span.neg)
    {sch : List TSet} (h : LooseAll n sch) :
    Moves (List.map TSet.neg) (LooseAll n) (Sched.propagateOne dbg i sch k) (Sched.propagateOne dbg i (sch.map TSet.neg) k') := by
  unfold Sched.propagateOne
  rw [hd, hs]
  refine moves_bind (f := TSet.neg) (P := Loose) (sget_neg fun w hw => h.2 w (List.mem_of_getElem? hw)) fun sj hj => ?_
  refine moves_bind (f := TSet.neg) (P := Loose) (sget_neg fun w hw => h.2 w (List.mem_of_getElem? hw)) fun si hi => ?_
  refine moves_bind (setAddSpan_neg dbg hi hk) fun t ht => ?_
  refine moves_bind (inter_moves hj ht.loose) fun x hx => ?_
  exact sset_neg (looseAll_set h hx)

theorem propagateLoop_neg (dbg : Bool) {n i : Nat} (m : Constr → Constr) : ∀ (ks : List Constr) (sch : List TSet),
    (∀ k ∈ ks, WF k.span ∧ (m k).dst = k.dst ∧ (m k).span = k.span.neg) → LooseAll n sch →
      Moves (List.map TSet.neg) (LooseAll n) (ks.foldlM (Sched.propagateOne dbg i) sch)
        ((ks.map m).foldlM (Sched.propagateOne dbg i) (sch.map TSet.neg))
  | [], sch, _, h => moves_ok h
  | k :: ks, sch, hk, h => by
    rw [List.map_cons, List.foldlM_cons, List.foldlM_cons]
    obtain ⟨a, b, c⟩ := hk k List.mem_cons_self
    exact moves_bind (propagateOne_neg dbg a b c h) fun x hx =>
      propagateLoop_neg dbg m ks x (fun k hk' => hk k (List.mem_cons_of_mem _ hk')) hx

/-- what the requests preserve -/
def LooseOn (g : Graph) (s : Sched) : Prop := s.graph = g ∧ LooseAll g.size s.schedule

/-- the hypotheses on the graph and its mirror image -/
structure Mirrored (g g' : Graph) : Prop where
  valid : Valid g
  valid' : Valid g'
  spanned : Spanned g
  mirror : MirrorGraph g g'

theorem propagateScheduling_neg (dbg : Bool) {g g' : Graph} (m : Mirrored g g') {s : Sched} (h : LooseOn g s) {i : Nat} (hi : i < g.size) :
    Moves (mirrorSched g') (LooseOn g) (s.propagateScheduling dbg i) ((mirrorSched g' s).propagateScheduling dbg i) := by
  obtain ⟨ks, e, e', hk⟩ := mirror_from m.valid m.valid' m.mirror hi
  obtain ⟨hg, h⟩ := h
  unfold Sched.propagateScheduling
  change Moves _ _ (s.graph.constraintsFrom i >>= _) (g'.constraintsFrom i >>= _)
  rw [hg, e, e', ok_bind, ok_bind]
  have loop := propagateLoop_neg dbg (i := i) (fun k => viewOf g' i k.dst) ks s.schedule (fun k hk' => by
    obtain ⟨ek, hd⟩ := hk k hk'
    have hs : k.span = ⟨mat g i k.dst, -mat g k.dst i⟩ := by rw [ek]; rfl
    refine ⟨?_, rfl, ?_⟩
    · rw [hs]
      exact m.spanned i k.dst hi hd _ (timespan_eq m.valid hi hd)
    · rw [hs]
      show (⟨mat g' i k.dst, -mat g' k.dst i⟩ : Iv) = _
      rw [mirror_mat m.valid m.valid' m.mirror hi hd, mirror_mat m.valid m.valid' m.mirror hd hi]
      simp only [Iv.neg, Int.neg_neg]) h
  obtain ⟨e1, n⟩ := loop
  change Moves _ _ _ ((ks.map fun k => viewOf g' i k.dst).foldlM (Sched.propagateOne dbg i) (s.schedule.map TSet.neg) >>= _)
  rw [e1]
  cases e2 : ks.foldlM (Sched.propagateOne dbg i) s.schedule with
  | error x => exact moves_error
  | ok sch => exact moves_ok (f := mirrorSched g') (P := LooseOn g) (x := ⟨g, sch⟩) ⟨rfl, n sch e2⟩

/-- the mirror image of the schedule, with the same answer -/
def mirrorPair (g' : Graph) (p : Sched × Outcome) : Sched × Outcome := (mirrorSched g' p.1, p.2)

theorem retain_neg (dbg : Bool) {g g' : Graph} (m : Mirrored g g') {s : Sched} (h : LooseOn g s) (i : Nat) {w w' : Window}
    (hw : ProperWindow w) (ho : Opposite w w') (hc : ∀ r, w = .set r → ∀ x, s.schedule[i]? = some x → Canon x) :
    Moves (mirrorPair g') (fun p => LooseOn g p.1) (s.retain dbg i w) ((mirrorSched g' s).retain dbg i w') := by
  unfold Sched.retain
  have e : (mirrorSched g' s).schedule = s.schedule.map TSet.neg := rfl
  rw [e, List.length_map]
  split
  · rename_i hi
    have hi' : i < g.size := by rw [← h.2.1]; exact hi
    refine moves_bind (f := TSet.neg) (P := fun x => Loose x ∧ s.schedule[i]? = some x)
      (sget_neg fun x hx => ⟨h.2.2 x (List.mem_of_getElem? hx), hx⟩) fun si hsi => ?_
    rw [windowContains_neg hw ho fun r hr => hc r hr si hsi.2, windowOverlaps_neg hsi.1 hw ho]
    split
    · exact moves_ok (f := mirrorPair g') (x := (s, .unchanged)) h
    · split
      · exact moves_ok (f := mirrorPair g') (x := (s, .recovered)) h
      · refine moves_bind (restrict_neg hsi.1 hw ho) fun x hx => ?_
        refine moves_bind (f := List.map TSet.neg) (P := LooseAll g.size) (sset_neg (looseAll_set h.2 hx)) fun sch hs => ?_
        have hl : LooseOn g { s with schedule := sch } := ⟨h.1, hs⟩
        refine moves_bind (propagateScheduling_neg dbg m hl hi') fun t ht => ?_
        exact moves_ok (f := mirrorPair g') (x := (t, .propagated)) ht
  · exact moves_error

theorem retainLoop_neg (dbg : Bool) {g g' : Graph} (m : Mirrored g g') {w w' : Convex} (hw : Proper w)
    (ho : Opposite (.conv w) (.conv w')) : ∀ (l : List Nat) (p : Sched × Outcome), LooseOn g p.1 →
      Moves (mirrorPair g') (fun p => LooseOn g p.1) (l.foldlM (retainStep dbg (.conv w)) p)
        (l.foldlM (retainStep dbg (.conv w')) (mirrorPair g' p))
  | [], p, h => moves_ok (f := mirrorPair g') h
  | i :: l, p, h => by
    rw [List.foldlM_cons, List.foldlM_cons]
    refine moves_bind (f := mirrorPair g') (P := fun p => LooseOn g p.1) ?_ fun q hq => retainLoop_neg dbg m hw ho l q hq
    unfold retainStep
    refine moves_bind (retain_neg dbg m h i (w := .conv w) hw ho (fun r e => nomatch e)) fun q hq => ?_
    obtain ⟨t, o⟩ := q
    cases o
    · exact moves_ok (f := mirrorPair g') (x := (t, p.2)) hq
    · exact moves_ok (f := mirrorPair g') (x := (t, .propagated)) hq
    · exact moves_error
    · exact moves_error

theorem retainAll_neg (dbg : Bool) {g g' : Graph} (m : Mirrored g g') {s : Sched} (h : LooseOn g s) {w w' : Convex} (hw : Proper w)
    (ho : Opposite (.conv w) (.conv w')) :
    Moves (mirrorPair g') (fun p => LooseOn g p.1) (s.retainAll dbg (.conv w)) ((mirrorSched g' s).retainAll dbg (.conv w')) := by
  have e : (mirrorSched g' s).retainAll dbg (.conv w') =
      (List.range s.schedule.length).foldlM (retainStep dbg (.conv w')) (mirrorPair g' (s, .unchanged)) := by
    unfold Sched.retainAll
    have : (mirrorSched g' s).schedule.length = s.schedule.length := List.length_map ..
    rw [this]; rfl
  rw [e]
  exact retainLoop_neg dbg m hw ho _ (s, .unchanged) h

theorem anySched_neg {p p' : TSet → Bool} : ∀ {sch : List TSet}, (∀ w ∈ sch, p' (TSet.neg w) = p w) →
    (sch.map TSet.neg).any p' = sch.any p
  | [], _ => rfl
  | x :: s, h => by
    rw [List.map_cons, List.any_cons, List.any_cons, h x List.mem_cons_self, anySched_neg fun i hi => h i (List.mem_cons_of_mem _ hi)]

theorem not_neg {w : Negatable} (hw : ProperNeg w) : (oppositeNeg w).not = TSet.neg w.not := by
  cases w with
  | set s => exact (C122_operations hw hw).2.1
  | iv i =>
    rcases hw with hw | rfl
    · exact (C122_intervals hw hw).2.2.1
    · decide
  | point t =>
    have hw : Date t := hw
    have hw' : Date (-t) := by simp only [Date] at *; omega
    have c : Canon [(⟨t, t⟩ : Iv)] := ⟨fun i hi => by cases List.mem_singleton.1 hi; simp only [Date] at hw; constructor <;> simp only <;> omega, List.pairwise_singleton _ _⟩
    show pointCompl (-t) = TSet.neg (pointCompl t)
    rw [point_compl_eq hw, point_compl_eq hw']
    exact (C122_operations c c).2.1

theorem run_neg (dbg : Bool) {g g' : Graph} (m : Mirrored g g') {s : Sched} (h : LooseOn g s) {q q' : Req} (hq : q.Proper g.size)
    (ho : MirrorReq q q') (hc : ¬ Unclean s q) :
    Moves (mirrorPair g') (fun p => LooseOn g p.1) (q.run dbg s) (q'.run dbg (mirrorSched g' s)) := by
  have clean : ∀ {i}, (¬ ∃ w, s.scheduling i = some w ∧ ¬ Canon w) → ∀ x, s.schedule[i]? = some x → Canon x := fun h x hx =>
    Classical.byContradiction fun hn => h ⟨x, hx, hn⟩
  cases q <;> cases q' <;> simp only [MirrorReq] at ho
  case retain.retain i w j w' =>
    obtain ⟨rfl, ho⟩ := ho
    refine retain_neg dbg m h _ hq.2 ho fun r e => ?_
    subst e
    exact clean hc
  case remove.remove i w j w' =>
    obtain ⟨rfl, rfl⟩ := ho
    exact retain_neg dbg m h _ (w := .set w.not) (neg_any hq.2).1 (not_neg hq.2) fun r e => clean hc
  case deadline.startline t u =>
    subst ho
    change Moves _ _ (s.setDeadline dbg t) ((mirrorSched g' s).setStartline dbg (-t))
    unfold Sched.setDeadline Sched.setStartline
    have any : (mirrorSched g' s).schedule.any (fun tw => decide (TSet.upperBound tw < -t)) =
        s.schedule.any (fun tw => decide (TSet.lowerBound tw > t)) := by
      refine anySched_neg fun x _ => ?_
      rw [upperBound_neg, decide_eq_decide]
      omega
    rw [any]
    split
    · exact moves_ok (f := mirrorPair g') (x := (s, .recovered)) h
    · exact retainAll_neg dbg m h (w := .rangeToIncl t) hq ⟨rfl, by simp [Convex.upper, Convex.lower]⟩
  case startline.deadline t u =>
    subst ho
    change Moves _ _ (s.setStartline dbg t) ((mirrorSched g' s).setDeadline dbg (-t))
    unfold Sched.setDeadline Sched.setStartline
    have any : (mirrorSched g' s).schedule.any (fun tw => decide (TSet.lowerBound tw > -t)) =
        s.schedule.any (fun tw => decide (TSet.upperBound tw < t)) := by
      refine anySched_neg fun x _ => ?_
      rw [lowerBound_neg, decide_eq_decide]
      omega
    rw [any]
    split
    · exact moves_ok (f := mirrorPair g') (x := (s, .recovered)) h
    · exact retainAll_neg dbg m h (w := .rangeFrom t) hq ⟨rfl, rfl⟩

end Chrono
