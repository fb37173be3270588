import Verif.Props.SetArith
import Verif.Props.Interval
import Verif.Props.Set
import Verif.Spec.Chain

/-!
# Chains of lazy iterators (C48, C104)
-/

set_option linter.unusedSimpArgs false

namespace Chrono
open Spec

theorem canon_sublist {l r : List Iv} (h : Canon r) (hs : List.Sublist l r) : Canon l :=
  ⟨fun i hi => h.wf i (hs.subset hi), h.gap.sublist hs⟩

theorem stepList_sublist (n : Nat) (l : List Iv) : List.Sublist (stepList n l) l := by
  fun_induction stepList n l with
  | case1 => exact List.Sublist.slnil
  | case2 x xs ih => exact (ih.trans (List.drop_sublist n xs)).cons_cons x

theorem stepList_get (n : Nat) (l : List Iv) (k : Nat) : (stepList n l)[k]? = l[k * (n + 1)]? := by
  induction k generalizing l with
  | zero => cases l <;> simp [stepList]
  | succ k ih =>
    cases l with
    | nil => simp [stepList]
    | cons x xs =>
      have e : (k + 1) * (n + 1) = n + k * (n + 1) + 1 := by rw [Nat.succ_mul]; omega
      rw [stepList, List.getElem?_cons_succ, ih, List.getElem?_drop, e, List.getElem?_cons_succ]

/-- C104. `step_by(n)` on any chain yields the items whose positions are multiples of `n`, in order, and no other; `n = 0` is
refused. -/
theorem C104_step_by (dbg : Bool) (n : Nat) (c : Chain) (l : List Iv) (hl : c.items dbg = .ok l) :
    (n = 0 → (Chain.stepBy n c).items dbg = .error .assertFail) ∧
    (0 < n → ∃ r, (Chain.stepBy n c).items dbg = .ok r ∧ ∀ k : Nat, r[k]? = l[k * n]?) := by
  refine ⟨fun h => by subst h; rfl, fun h => ?_⟩
  obtain ⟨m, rfl⟩ : ∃ m, n = m + 1 := ⟨n - 1, by omega⟩
  refine ⟨stepList m l, ?_, stepList_get m l⟩
  simp only [Chain.items, hl]
  rfl

example : (Chain.stepBy 2 (.set [⟨0, 1⟩, ⟨5, 6⟩, ⟨9, 9⟩])).items true = .ok [⟨0, 1⟩, ⟨9, 9⟩] := by
  show Except.ok (stepList 1 [⟨0, 1⟩, ⟨5, 6⟩, ⟨9, 9⟩]) = _
  simp [stepList]

/-- a window converted to an interval before it is iterated yields the same -/
theorem into_iter {w : Convex} (h : Proper w) : (Convex.iv ⟨w.lower, w.upper⟩).iter = w.iter := by
  rcases h.cases with ⟨e1, e2, e3, _, _⟩ | ⟨e1, e2, -, -⟩
  · rw [e2, e3]
    simp only [Convex.iter, e1, if_true]
    rfl
  · have : isFutureInfinite w.lower = false := by
      rw [← Bool.not_eq_true, isFutureInfinite_iff]
      have := e2.lo_lt
      simp only at this
      omega
    show (if isFutureInfinite w.lower = true then [] else [_]) = if w.isEmpty = true then [] else [_]
    rw [this, e1]
    rfl

/-- all that is known of a chain used properly -/
theorem chain_spec {dbg : Bool} {c : Chain} (h : Used dbg c) :
    ∃ r, c.items dbg = .ok r ∧ Canon r ∧ c.operators dbg = .ok r := by
  induction c with
  | set s => exact ⟨s, rfl, h, rfl⟩
  | win w => exact ⟨w.iter, rfl, (C93_structure w h).2.2.2.1, rfl⟩
  | into w =>
    refine ⟨w.iter, ?_, (C93_structure w h).2.2.2.1, rfl⟩
    rw [Chain.items, into_iter h]
  | union a b iha ihb =>
    obtain ⟨x, a1, a2, a3⟩ := iha h.1
    obtain ⟨y, b1, b2, b3⟩ := ihb h.2
    refine ⟨_, by rw [Chain.items, a1, ok_bind, b1, ok_bind]; rfl, (UnionIter.good_new a2 b2).1, ?_⟩
    rw [Chain.operators, a3, ok_bind, b3, ok_bind, TSet.union_eq a2 b2]
  | inter a b iha ihb =>
    obtain ⟨x, a1, a2, a3⟩ := iha h.1
    obtain ⟨y, b1, b2, b3⟩ := ihb h.2.1
    obtain ⟨r, e1, e2, -, e3⟩ := C33_inter_canonical_partial x y a2 b2
    refine ⟨r, by rw [Chain.items, a1, ok_bind, b1, ok_bind, e2]; rfl, (e3 (h.2.2 x y a1 b1)).1, ?_⟩
    rw [Chain.operators, a3, ok_bind, b3, ok_bind, e1]
  | compl a iha =>
    obtain ⟨x, a1, a2, a3⟩ := iha h
    refine ⟨_, by rw [Chain.items, a1, ok_bind, ComplIter.drain_new a2]; rfl, (compl_spec a2).1, ?_⟩
    rw [Chain.operators, a3, ok_bind]
    rfl
  | excl a b iha ihb =>
    obtain ⟨x, a1, a2, a3⟩ := iha h.1
    obtain ⟨y, b1, b2, b3⟩ := ihb h.2.1
    obtain ⟨r, e1, e2, -, e3⟩ := C33_inter_canonical_partial x (TSet.compl y) a2 (compl_spec b2).1
    refine ⟨r, ?_, (e3 (h.2.2 x y a1 b1)).1, ?_⟩
    · rw [Chain.items, a1, ok_bind, b1, ok_bind, TSet.exclusion, ComplIter.drain_new b2, e2]; rfl
    · rw [Chain.operators, a3, ok_bind, b3, ok_bind, e1]
  | transl d a iha =>
    obtain ⟨x, a1, a2, a3⟩ := iha h.1
    obtain ⟨r, e1, e2⟩ := C85_translation_partial dbg x d a2 h.2.1 (h.2.2 x a1)
    obtain ⟨r', f1, f2, -⟩ := C40_add dbg x d a2 h.2.1 (h.2.2 x a1)
    rw [e2] at f1
    cases f1
    exact ⟨r, by rw [Chain.items, a1, ok_bind, e1], f2, by rw [Chain.operators, a3, ok_bind, e2]⟩
  | scale ty n a iha =>
    obtain ⟨x, a1, a2, a3⟩ := iha h.1
    obtain ⟨-, hn, hty, hf⟩ := h
    obtain ⟨r, e1, e2⟩ := C85_scaling_partial ty x n a2 (by omega) hty (hf x a1)
    obtain ⟨r', f1, -, f2, -⟩ := C43_mul_partial ty x n a2 (by omega) hty (hf x a1)
    rw [if_neg (by omega)] at e2
    rw [e2] at f1
    cases f1
    exact ⟨r, by rw [Chain.items, a1, ok_bind, e1], f2, by rw [Chain.operators, a3, ok_bind, e2]⟩
  | filter p a iha =>
    obtain ⟨x, a1, a2, a3⟩ := iha h
    have c := canon_sublist a2 (List.filter_sublist (p := p) (l := x))
    exact ⟨_, by rw [Chain.items, a1, ok_bind]; rfl, c, by rw [Chain.operators, a3, ok_bind, TSet.fromIter_canon c]⟩
  | skipWhile p a iha =>
    obtain ⟨x, a1, a2, a3⟩ := iha h
    have c := canon_sublist a2 (List.dropWhile_sublist (l := x) p)
    exact ⟨_, by rw [Chain.items, a1, ok_bind]; rfl, c, by rw [Chain.operators, a3, ok_bind, TSet.fromIter_canon c]⟩
  | takeWhile p a iha =>
    obtain ⟨x, a1, a2, a3⟩ := iha h
    have c := canon_sublist a2 (List.takeWhile_sublist (l := x) p)
    exact ⟨_, by rw [Chain.items, a1, ok_bind]; rfl, c, by rw [Chain.operators, a3, ok_bind, TSet.fromIter_canon c]⟩
  | skip n a iha =>
    obtain ⟨x, a1, a2, a3⟩ := iha h
    have c := canon_sublist a2 (List.drop_sublist n x)
    exact ⟨_, by rw [Chain.items, a1, ok_bind]; rfl, c, by rw [Chain.operators, a3, ok_bind, TSet.fromIter_canon c]⟩
  | take n a iha =>
    obtain ⟨x, a1, a2, a3⟩ := iha h
    have c := canon_sublist a2 (List.take_sublist n x)
    exact ⟨_, by rw [Chain.items, a1, ok_bind]; rfl, c, by rw [Chain.operators, a3, ok_bind, TSet.fromIter_canon c]⟩
  | stepBy n a iha =>
    obtain ⟨x, a1, a2, a3⟩ := iha h.2
    obtain ⟨hn, -⟩ := h
    cases n with
    | zero => omega
    | succ n =>
      have c := canon_sublist a2 (stepList_sublist n x)
      exact ⟨_, by rw [Chain.items, a1, ok_bind]; rfl, c, by rw [Chain.operators, a3, ok_bind, TSet.fromIter_canon c]⟩
  | same a iha => exact iha h

/-- C48, partial: collecting a chain of lazy operations of any depth gives the same set as the operators with a set
collected at each step, without panic, provided that the chain is used properly (see `Used`). Missing: intersections of
sets that touch, see `C48_violated`; negative factors, see `C104_scaling_violated`. -/
theorem C48_any_chain_partial {dbg : Bool} {c : Chain} (h : Used dbg c) :
    ∃ r, c.collect dbg = .ok r ∧ c.operators dbg = .ok r ∧ c.items dbg = .ok r := by
  obtain ⟨r, h1, h2, h3⟩ := chain_spec h
  exact ⟨r, by rw [Chain.collect, h1, ok_bind, TSet.fromIter_canon h2], h3, h1⟩

/-- C104, partial: the items of a chain used properly are non-empty intervals, sorted, with at least one missing date
between two successive ones. -/
theorem C104_contract_partial {dbg : Bool} {c : Chain} (h : Used dbg c) :
    ∃ r, c.items dbg = .ok r ∧ Canon r := by
  obtain ⟨r, h1, h2, -⟩ := chain_spec h
  exact ⟨r, h1, h2⟩

/-- C104, partial: a chain of set operations used properly has exactly the dates it is meant to have. -/
theorem C104_dates_partial {dbg : Bool} {c : Chain} (h : Used dbg c) (hp : SetOps dbg c) {r : List Iv}
    (hr : c.items dbg = .ok r) {t : Int} (ht : Date t) : InSet t r ↔ Meant t c := by
  induction c generalizing r with
  | set s => cases hr; exact Iff.rfl
  | win w => cases hr; exact (C93_structure w h).2.2.2.2.1 t ht
  | into w =>
    rw [Chain.items, into_iter h] at hr
    cases hr; exact (C93_structure w h).2.2.2.2.1 t ht
  | union a b iha ihb =>
    obtain ⟨x, a1, a2, -⟩ := chain_spec h.1
    obtain ⟨y, b1, b2, -⟩ := chain_spec h.2
    rw [Chain.items, a1, ok_bind, b1, ok_bind] at hr
    cases hr
    show _ ↔ Meant t a ∨ Meant t b
    rw [← iha h.1 hp.1 a1, ← ihb h.2 hp.2.1 b1]
    exact ⟨(UnionIter.good_new a2 b2).2 t, UnionIter.complete_new a2 b2 (hp.2.2 x y a1 b1) t⟩
  | inter a b iha ihb =>
    obtain ⟨x, a1, a2, -⟩ := chain_spec h.1
    obtain ⟨y, b1, b2, -⟩ := chain_spec h.2.1
    rw [Chain.items, a1, ok_bind, b1, ok_bind] at hr
    cases hr
    show _ ↔ Meant t a ∧ Meant t b
    rw [← iha h.1 hp.1 a1, ← ihb h.2.1 hp.2 b1]
    exact (C32_inter x y a2 b2).2 t
  | compl a iha =>
    obtain ⟨x, a1, a2, -⟩ := chain_spec (c := a) h
    rw [Chain.items, a1, ok_bind, ComplIter.drain_new a2] at hr
    cases hr
    show _ ↔ ¬ Meant t a
    rw [← iha h hp a1]
    exact (compl_spec a2).2.2 t ht
  | excl a b iha ihb =>
    obtain ⟨x, a1, a2, -⟩ := chain_spec h.1
    obtain ⟨y, b1, b2, -⟩ := chain_spec h.2.1
    rw [Chain.items, a1, ok_bind, b1, ok_bind] at hr
    cases hr
    show _ ↔ Meant t a ∧ ¬ Meant t b
    rw [← iha h.1 hp.1 a1, ← ihb h.2.1 hp.2 b1]
    exact C47_exclusion x y a2 b2 t ht
  | same a iha => exact iha h hp hr
  | transl d a iha => exact absurd hp (by intro h; cases h)
  | scale ty n a iha => exact absurd hp (by intro h; cases h)
  | filter p a iha => exact absurd hp (by intro h; cases h)
  | skipWhile p a iha => exact absurd hp (by intro h; cases h)
  | takeWhile p a iha => exact absurd hp (by intro h; cases h)
  | skip n a iha => exact absurd hp (by intro h; cases h)
  | take n a iha => exact absurd hp (by intro h; cases h)
  | stepBy n a iha => exact absurd hp (by intro h; cases h)

/-- C104, partial: a pipeline of set operations may be rewritten: two pipelines used properly, which are meant to have the same dates, yield
the same items one by one, whatever their shapes (unless some item is bounded by the first or the last date of all, which may as well be
unbounded). -/
theorem C104_rewrite_partial {dbg : Bool} {c c' : Chain} (h : Used dbg c) (hp : SetOps dbg c) (h' : Used dbg c') (hp' : SetOps dbg c')
    (hm : ∀ t, Date t → (Meant t c ↔ Meant t c')) :
    ∃ r r', c.items dbg = .ok r ∧ c'.items dbg = .ok r' ∧ (NoExtreme r → NoExtreme r' → r = r') := by
  obtain ⟨r, h1, h2⟩ := C104_contract_partial h
  obtain ⟨r', h1', h2'⟩ := C104_contract_partial h'
  refine ⟨r, r', h1, h1', fun n n' => ?_⟩
  have e := ((C34_set_eq r r' h2 h2').2 n n').2 fun t ht =>
    (C104_dates_partial h hp h1 ht).trans ((hm t ht).trans (C104_dates_partial h' hp' h1' ht).symm)
  exact eqWin_go.1 e

/-- De Morgan, on two sets -/
example : ∃ r, (Chain.compl (.union (.set [⟨0, 3⟩]) (.set [⟨2, 5⟩, ⟨9, 9⟩]))).items true = .ok r ∧
    (Chain.inter (.compl (.set [⟨0, 3⟩])) (.compl (.set [⟨2, 5⟩, ⟨9, 9⟩]))).items true = .ok r ∧ NoExtreme r := by
  have c1 : Canon [⟨0, 3⟩] := by decide
  have c2 : Canon [⟨2, 5⟩, ⟨9, 9⟩] := by decide
  have a1 : (Chain.compl (.set [⟨0, 3⟩])).items true = .ok [⟨-INF, -1⟩, ⟨4, INF⟩] := by decide +kernel
  have a2 : (Chain.compl (.set [⟨2, 5⟩, ⟨9, 9⟩])).items true = .ok [⟨-INF, 1⟩, ⟨6, 8⟩, ⟨10, INF⟩] := by decide +kernel
  obtain ⟨r, r', e, e', h⟩ := C104_rewrite_partial (dbg := true) (c := .compl (.union (.set [⟨0, 3⟩]) (.set [⟨2, 5⟩, ⟨9, 9⟩])))
    (c' := .inter (.compl (.set [⟨0, 3⟩])) (.compl (.set [⟨2, 5⟩, ⟨9, 9⟩]))) ⟨c1, c2⟩
    ⟨trivial, trivial, fun x y hx hy => by cases hx; cases hy; exact Or.inr (by decide)⟩
    ⟨c1, c2, fun x y hx hy => by rw [a1] at hx; rw [a2] at hy; cases hx; cases hy; decide⟩ ⟨trivial, trivial⟩
    (fun t _ => by simp only [Meant]; exact not_or)
  have q : (Chain.compl (.union (.set [⟨0, 3⟩]) (.set [⟨2, 5⟩, ⟨9, 9⟩]))).items true = .ok [⟨-INF, -1⟩, ⟨6, 8⟩, ⟨10, INF⟩] := by decide +kernel
  have q' : (Chain.inter (.compl (.set [⟨0, 3⟩])) (.compl (.set [⟨2, 5⟩, ⟨9, 9⟩]))).items true = .ok [⟨-INF, -1⟩, ⟨6, 8⟩, ⟨10, INF⟩] := by
    decide +kernel
  exact ⟨_, q, q', by decide⟩

/-- the first item of the complement -/
theorem compl_first {x : Iv} (l : List Iv) (h1 : -INF + 1 < x.lower) (h2 : x.lower < INF) :
    (ComplIter.new (x :: l)).drain = ⟨-INF, x.lower - 1⟩ :: (ComplIter.mk l (justAfter x.upper)).drain := by
  have e : justBefore x.lower = x.lower - 1 := by
    rw [justBefore_eq]
    split <;> omega
  have h0 : isPastInfinite (-INF) = true := by decide
  have c : (x.lower - 1 == -INF) = false := by
    rw [beq_eq_false_iff_ne]
    omega
  rw [ComplIter.drain_next]
  simp only [ComplIter.new, ComplIter.next, h0, e, c, if_true, Bool.false_eq_true, if_false]

/-- the last item of the complement -/
theorem compl_last {l : Int} (h1 : -INF < l) (h2 : l < INF) : (ComplIter.mk [] l).drain = [⟨l, INF⟩] := by
  have a : isPastInfinite l = false := by rw [← Bool.not_eq_true, isPastInfinite_iff]; omega
  have b : isFutureInfinite l = false := by rw [← Bool.not_eq_true, isFutureInfinite_iff]; omega
  have c : isPastInfinite INF = false := by decide
  have d : isFutureInfinite INF = true := by decide
  rw [ComplIter.drain_next]
  simp only [ComplIter.next, ComplIter.scan, a, b, Bool.false_eq_true, if_false]
  rw [ComplIter.drain_next]
  simp only [ComplIter.next, ComplIter.scan, c, d, Bool.false_eq_true, if_false, if_true]

theorem touch_items (dbg : Bool) (i j : Iv) (hi : WF i) (hj : WF j) (h : i.upper + 1 = j.lower) :
    (Chain.inter (.set [i]) (.set [j])).items dbg = .ok [⟨j.lower, i.upper⟩] := by
  have ci : Canon [i] := Canon_cons.2 ⟨hi, by simp, Canon_nil⟩
  have cj : Canon [j] := Canon_cons.2 ⟨hj, by simp, Canon_nil⟩
  have e := (C33_inter_touch_violated i j hi hj h).1
  rw [TSet.inter_eq ci cj] at e
  exact e

theorem touch_compl (dbg : Bool) (i j : Iv) (hi : WF i) (hj : WF j) (h : i.upper + 1 = j.lower) :
    (Chain.compl (.inter (.set [i]) (.set [j]))).items dbg = .ok [⟨-INF, i.upper⟩, ⟨j.lower, INF⟩] := by
  have a := hi.lt_hi
  have b := hj.lo_lt
  rw [Chain.items, touch_items dbg i j hi hj h, ok_bind, compl_first (x := ⟨j.lower, i.upper⟩) [] (by simp only; omega) b]
  have e : justAfter i.upper = j.lower := by
    rw [justAfter_eq]
    split <;> omega
  simp only [e]
  rw [compl_last (by omega) b]
  have e : j.lower - 1 = i.upper := by omega
  rw [e]
  rfl

/-- C48 is violated: for all sets `{i}`, `{j}` where `j` starts just after `i` ends, the lazy complement of their
intersection collects to the set of all dates, and `!(i & j)` is another value, made of two intervals. -/
theorem C48_violated (dbg : Bool) (i j : Iv) (hi : WF i) (hj : WF j) (h : i.upper + 1 = j.lower) :
    (Chain.compl (.inter (.set [i]) (.set [j]))).collect dbg = .ok [Iv.all] ∧
    (Chain.compl (.inter (.set [i]) (.set [j]))).operators dbg = .ok [⟨-INF, i.upper⟩, ⟨j.lower, INF⟩] := by
  have a := hi.lt_hi
  have b := hj.lo_lt
  have p : -INF < INF := by decide
  have w1 : WF ⟨-INF, i.upper⟩ := ⟨by simp only; omega, by simp only; omega, hi.hi, p, a⟩
  have w2 : WF ⟨j.lower, INF⟩ := ⟨by simp only; omega, hj.lo, by simp only; omega, b, p⟩
  constructor
  · rw [Chain.collect, touch_compl dbg i j hi hj h, ok_bind]
    have u : (UnionIter.new [⟨-INF, i.upper⟩] [⟨j.lower, INF⟩]).drain = [Iv.all] := by
      rw [UnionIter.new, UnionIter.drain_init_cons _ _ _ w1 w2, if_neg (by simp only; omega), if_neg (by simp only; omega),
        if_pos (by simp only; omega), UnionIter.drain_waitI_nil]
      have e : min (-INF) j.lower = -INF := by omega
      simp only [e]
      rfl
    have o : TSet.ofConvex (.iv ⟨-INF, i.upper⟩) = [⟨-INF, i.upper⟩] := by
      rw [TSet.ofConvex, show (Convex.iv ⟨-INF, i.upper⟩).isEmpty = false from w1.not_isEmpty]; rfl
    have e : justAfter i.upper = j.lower := by
      rw [justAfter_eq]
      split <;> omega
    have ub : TSet.upperBound [⟨-INF, i.upper⟩] = i.upper := rfl
    rw [TSet.fromIter]
    show TSet.fromIterFuel (_ + 1) _ = _
    rw [TSet.fromIterFuel, o, List.foldlM_cons, ub, e, if_neg (by simp only; omega), TSet.iter_wf w2, u,
      TSet.fromIterFuel_id (by simp [Gap]) (by decide), ok_bind]
    rfl
  · have e := (C33_inter_touch_violated i j hi hj h).1
    have q : isPastInfinite i.upper = false := by rw [← Bool.not_eq_true, isPastInfinite_iff]; omega
    have e1 : justBefore j.lower = i.upper := by
      rw [justBefore_eq]
      split <;> omega
    have e2 : justAfter i.upper = j.lower := by
      rw [justAfter_eq]
      split <;> omega
    have f : isFutureInfinite j.lower = false := by rw [← Bool.not_eq_true, isFutureInfinite_iff]; omega
    simp only [Chain.operators, ok_bind, e, TSet.compl, TSet.complTail, e1, e2, q, f]
    simp [Convex.into, Convex.lower, Convex.upper, e1, pure, Except.pure]

/-- C104 is violated: for all sets `{i}`, `{j}` where `j` starts just after `i` ends, so that they have no common date,
`i.intersection(j)` yields an empty interval and its double complement has all the dates from the start of `j` on. -/
theorem C104_touch_violated (dbg : Bool) (i j : Iv) (hi : WF i) (hj : WF j) (h : i.upper + 1 = j.lower) :
    (Chain.inter (.set [i]) (.set [j])).items dbg = .ok [⟨j.lower, i.upper⟩] ∧
    (Chain.compl (.compl (.inter (.set [i]) (.set [j])))).items dbg = .ok [⟨j.lower, INF⟩] := by
  refine ⟨touch_items dbg i j hi hj h, ?_⟩
  have a := hi.lt_hi
  have b := hj.lo_lt
  rw [Chain.items, touch_compl dbg i j hi hj h, ok_bind]
  have e : justAfter i.upper = j.lower := by
    rw [justAfter_eq]
    split <;> omega
  have h0 : isPastInfinite (-INF) = true := by decide
  have h1 : (justBefore (-INF) == -INF) = true := by decide
  have h2 : isFutureInfinite j.lower = false := by rw [← Bool.not_eq_true, isFutureInfinite_iff]; omega
  have h3 : isPastInfinite INF = false := by decide
  have h4 : isFutureInfinite INF = true := by decide
  rw [ComplIter.drain_next]
  simp only [ComplIter.new, ComplIter.next, h0, h1, e, if_true, ComplIter.scan, Int.lt_irrefl, if_false, h2,
    Bool.false_eq_true]
  rw [ComplIter.drain_next]
  simp only [ComplIter.next, ComplIter.scan, h3, h4, Bool.false_eq_true, if_false, if_true]
  rfl

/-- C104 is violated by every negative factor on every set with several intervals: the items of `scaling(n)` are not
sorted, and the complement of the iterator shares a date with it. -/
theorem C104_scaling_violated (dbg : Bool) (ty : Iv.ScaleTy) (n : Int) (s : TSet) (hs : Canon s) (hn : n < 0)
    (hty : ScaleOk ty n) (hf : ∀ i ∈ s, FitsMul i n) (h2 : 2 ≤ s.length) :
    ∃ r q t, (Chain.scale ty n (.set s)).items dbg = .ok r ∧ ¬ Canon r ∧
      (Chain.compl (.scale ty n (.set s))).items dbg = .ok q ∧ Date t ∧ InSet t r ∧ InSet t q := by
  obtain ⟨r, e1, e2⟩ := C85_scaling_partial ty s n hs (by omega) hty hf
  obtain ⟨r', f1, -, f2, -, -, f3⟩ := C43_mul_partial ty s n hs (by omega) hty hf
  rw [if_pos hn] at e2
  rw [e2] at f1
  cases f1
  have l := congrArg List.length (f3 hn)
  rw [List.length_reverse, List.length_reverse, List.length_map] at l
  match r, l, h2 with
  | [], l, h2 => simp only [List.length_nil] at l; omega
  | [x], l, h2 => simp only [List.length_cons, List.length_nil] at l; omega
  | x :: y :: l, _, _ =>
    have g := f2.gap
    rw [List.pairwise_reverse] at g
    have g := (List.pairwise_cons.1 g).1 y (by simp)
    have wx := f2.wf x (by simp)
    have wy := f2.wf y (by simp)
    have a1 := wx.le
    have a2 := wy.le
    have a3 := wy.lt_hi
    have a4 := wx.lo_lt
    refine ⟨_, ⟨-INF, x.lower - 1⟩ :: (ComplIter.mk (y :: l) (justAfter x.upper)).drain, y.upper, e1, fun c => ?_, ?_, ⟨a3, by omega⟩, ⟨y, by simp, a2, Int.le_refl _⟩, ?_⟩
    · have := (Canon_cons.1 c).2.1 y (by simp)
      omega
    · rw [Chain.items, show (Chain.scale ty n (.set s)).items dbg = _ from e1, ok_bind,
        compl_first _ (by omega) a4]
      rfl
    · exact InSet_cons.2 (Or.inl ⟨by simp only; omega, by simp only; omega⟩)

/-- the pipeline `a.union(b).exclusion(c).complementary().translation(100).scaling(2).filter(..).step_by(2).take(2)` -/
def exChain : Chain :=
  .take 2 (.stepBy 2 (.filter (fun i => decide (i.lower ≠ 7)) (.scale .small 2 (.transl 100 (.compl
    (.excl (.union (.set [⟨0, 3⟩, ⟨7, 30⟩]) (.set [⟨3, 4⟩, ⟨50, INF⟩])) (.set [⟨10, 12⟩])))))))

theorem exLeaf {s : TSet} (h : Canon s) : Used true (.set s) := h

theorem exChain_used : Used true exChain := by
  have u : (UnionIter.new [⟨0, 3⟩, ⟨7, 30⟩] [⟨3, 4⟩, ⟨50, INF⟩]).drain = [⟨0, 4⟩, ⟨7, 30⟩, ⟨50, INF⟩] := by
    decide +kernel
  have e : (TSet.exclusion [⟨0, 4⟩, ⟨7, 30⟩, ⟨50, INF⟩] [⟨10, 12⟩]).drain = [⟨0, 4⟩, ⟨7, 9⟩, ⟨13, 30⟩, ⟨50, INF⟩] := by
    decide +kernel
  have c : (ComplIter.new [⟨0, 4⟩, ⟨7, 9⟩, ⟨13, 30⟩, ⟨50, INF⟩]).drain = [⟨-INF, -1⟩, ⟨5, 6⟩, ⟨10, 12⟩, ⟨31, 49⟩] := by
    decide +kernel
  have t : TSet.translIter true 100 [⟨-INF, -1⟩, ⟨5, 6⟩, ⟨10, 12⟩, ⟨31, 49⟩] =
      .ok [⟨-INF, 99⟩, ⟨105, 106⟩, ⟨110, 112⟩, ⟨131, 149⟩] := by decide +kernel
  have i1 : (Chain.union (.set [⟨0, 3⟩, ⟨7, 30⟩]) (.set [⟨3, 4⟩, ⟨50, INF⟩])).items true =
      .ok [⟨0, 4⟩, ⟨7, 30⟩, ⟨50, INF⟩] := by
    simp only [Chain.items, ok_bind, u]; rfl
  have i2 : (Chain.compl (.excl (.union (.set [⟨0, 3⟩, ⟨7, 30⟩]) (.set [⟨3, 4⟩, ⟨50, INF⟩])) (.set [⟨10, 12⟩]))).items true =
      .ok [⟨-INF, -1⟩, ⟨5, 6⟩, ⟨10, 12⟩, ⟨31, 49⟩] := by
    rw [Chain.items, Chain.items, i1, ok_bind, Chain.items, ok_bind, e]
    show Except.ok (ComplIter.new _).drain = _
    rw [c]
  refine ⟨by decide, ⟨⟨⟨⟨exLeaf (by decide), exLeaf (by decide)⟩, exLeaf (by decide), fun x y hx hy => ?_⟩, by decide, fun x hx => ?_⟩, by decide,
    by decide, fun x hx => ?_⟩⟩
  · rw [i1] at hx
    cases hx
    cases hy
    decide
  · rw [i2] at hx
    cases hx
    decide
  · rw [Chain.items, i2, ok_bind, t] at hx
    cases hx
    decide

example : Used true exChain ∧ exChain.items true = .ok [⟨-INF, 198⟩, ⟨220, 224⟩] ∧
    Used true (.compl (.inter (.set [⟨0, 4⟩]) (.set [⟨3, 9⟩]))) ∧
    SetOps true (.compl (.inter (.set [⟨0, 4⟩]) (.set [⟨3, 9⟩]))) := by
  refine ⟨exChain_used, by decide +kernel, ⟨exLeaf (by decide), exLeaf (by decide), fun x y hx hy => ?_⟩, ⟨trivial, trivial⟩⟩
  cases hx
  cases hy
  decide

example : WF ⟨0, 4⟩ ∧ WF ⟨5, 9⟩ ∧ (4 : Int) + 1 = 5 ∧ Canon [⟨0, 3⟩, ⟨7, 9⟩] ∧ ScaleOk .small (-2) ∧
    (∀ i ∈ ([⟨0, 3⟩, ⟨7, 9⟩] : TSet), FitsMul i (-2)) := by decide

example : Proper (.range 3 9) ∧ Proper (.range 9 3) ∧
    (Chain.compl (.inter (.union (.set [⟨0, 4⟩]) (.into (.range 3 9))) (.win (.rangeFrom 2)))).items true =
      .ok [⟨-INF, 1⟩, ⟨9, INF⟩] := by
  refine ⟨by decide, by decide, by decide +kernel⟩

end Chrono
