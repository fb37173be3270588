import Verif.Lemmas.CrashSet
import Verif.Props.Overflow

/-!
# Properties of interrupted compound assignments (C138)
-/

set_option linter.unusedSimpArgs false

namespace Chrono
open Spec

/-- C138. A compound assignment which is not interrupted computes what it computes when its writes are not looked at. -/
theorem C138_results (i j : Iv) (d n : Int) (s : TSet) (ty : Iv.ScaleTy) (F : FTy) (f : Fl) :
    (i.addAssignTvT d).res = i.addAssignTv d ∧ (i.subAssignTvT d).res = i.subAssignTv d ∧
    (i.addAssignSpanT j).res = i.addAssignSpan j ∧ (i.subAssignSpanT j).res = i.subAssignSpan j ∧
    (s.addAssignTvT d).res = s.addAssignTv d ∧ (s.subAssignTvT d).res = s.subAssignTv d ∧
    (s.mulAssignT ty n).res = s.mulAssign ty n ∧ (s.divAssignT ty n).res = s.div ty n ∧
    (s.mulAssignFT F f).res = s.mulAssignF F f :=
  ⟨by rw [addAssignTvT_eq, addAssignTv_eq, addAssignSpanT_res], by rw [subAssignTvT_eq, subAssignTv_eq, addAssignSpanT_res],
    addAssignSpanT_res i j, by rw [subAssignSpanT_eq, subAssignSpan_eq, addAssignSpanT_res], addAssignTvSet_res s d,
    subAssignTvSet_res s d, mulSet_res ty s n, divSet_res ty s n, mulSetF_res F s f⟩

/-! ## C138 -/

/-- C138. The operations which compute the whole set before they write it (`|=`, `&=` of a set, `+=` and `-=` of a span or of spans) leave the
set as it was when they panic. -/
theorem C138_replace (s : TSet) (r : Res TSet) {e : Panic} (h : (TSet.replaceT r).res = .error e) : left s (TSet.replaceT r) = s := by
  cases r with
  | error e' => rfl
  | ok x => cases h

/-- C138. So does the division by an integer, which only panics for 0. -/
theorem C138_divide (ty : Iv.ScaleTy) (s : TSet) (n : Int) (hn : IsScale ty n) {e : Panic} (h : (s.divAssignT ty n).res = .error e) :
    n = 0 ∧ left s (s.divAssignT ty n) = s := by
  by_cases c : n = 0
  · subst c
    exact ⟨rfl, rfl⟩
  · exfalso
    have key : ∀ t, ∃ r, tvDiv ty t n = .ok r := by
      intro t
      cases ty
      · show ∃ r, divSmall t n = .ok r
        unfold divSmall satDiv64
        rw [if_neg c]
        exact ⟨_, rfl⟩
      · show ∃ r, divBig t n = .ok r
        unfold divBig satDiv64
        rw [if_neg c]
        split <;> exact ⟨_, rfl⟩
      · have h0 := hn rfl
        show ∃ r, divUBig t n.toNat = .ok r
        unfold divUBig satDiv64
        rw [if_neg (by omega : ¬ ((n.toNat : Nat) : Int) = 0)]
        split <;> exact ⟨_, rfl⟩
    have ki : ∀ i : Iv, ∃ r, i.div ty n = .ok r := by
      intro i
      unfold Iv.div
      split
      · obtain ⟨a, ha⟩ := key i.upper
        obtain ⟨b, hb⟩ := key i.lower
        rw [ha, hb]; exact ⟨_, rfl⟩
      · obtain ⟨a, ha⟩ := key i.lower
        obtain ⟨b, hb⟩ := key i.upper
        rw [ha, hb]; exact ⟨_, rfl⟩
    have ks : ∀ s : TSet, ∃ r, s.mapM (fun tw => tw.div ty n) = .ok r := by
      intro s
      induction s with
      | nil => exact ⟨_, rfl⟩
      | cons x s ih =>
        obtain ⟨a, ha⟩ := ki x
        obtain ⟨b, hb⟩ := ih
        rw [List.mapM_cons, ha, hb]
        exact ⟨_, rfl⟩
    obtain ⟨r, hr⟩ := ks s
    rw [divSet_res] at h
    unfold TSet.div at h
    rw [if_neg c, hr] at h
    cases h

/-- C138. What is left of an interval when `+=` of a span panics: the sum. The panic comes after the writes. -/
theorem C138_interval (i s : Iv) (hi : WF i) (hs : WF s) {e : Panic} (h : (i.addAssignSpanT s).res = .error e) :
    i.lower = i.upper ∧ s.lower = s.upper ∧
      left i (i.addAssignSpanT s) = ⟨i.lower + s.lower, i.lower + s.lower⟩ := by
  rw [addAssignSpanT_res] at h
  obtain ⟨-, h1, h2, h3⟩ := ((C83_exact true i s hi hs).1 e).1 h
  obtain ⟨b1, b2⟩ := addSpan_bounds hi hs
  refine ⟨h1, h2, ?_⟩
  rw [left_addAssignSpanT b1 b2]
  obtain ⟨a1, a2, a3, a4, a5⟩ := hi
  obtain ⟨c1, c2, c3, c4, c5⟩ := hs
  have n1 : ¬ (i.lower = -INF ∨ s.lower = -INF) := by ticks
  have n2 : ¬ (i.upper = INF ∨ s.upper = INF) := by ticks
  have n3 : round (i.lower + s.lower) = i.lower + s.lower := by
    unfold round
    rw [if_neg (by ticks), if_neg (by ticks)]
  simp only [satIv]
  rw [if_neg n1, if_neg n2, ← h1, ← h2, n3]

/-- C138. The same with `-=` of a span, and with `+=` and `-=` of a duration. -/
theorem C138_interval_others (i s : Iv) (d : Int) (hi : WF i) (hs : WF s) (hd : Date d) :
    (∀ e, (i.subAssignSpanT s).res = .error e → i.lower = i.upper ∧ s.lower = s.upper ∧
      left i (i.subAssignSpanT s) = ⟨i.lower - s.lower, i.lower - s.lower⟩) ∧
    (∀ e, (i.addAssignTvT d).res = .error e → i.lower = i.upper ∧ left i (i.addAssignTvT d) = ⟨i.lower + d, i.lower + d⟩) ∧
    (∀ e, (i.subAssignTvT d).res = .error e → i.lower = i.upper ∧ left i (i.subAssignTvT d) = ⟨i.lower - d, i.lower - d⟩) := by
  refine ⟨fun e h => ?_, fun e h => ?_, fun e h => ?_⟩
  · rw [subAssignSpanT_eq] at h ⊢
    have hn : WF (Iv.neg s) := by
      obtain ⟨c1, c2, c3, c4, c5⟩ := hs
      simp only [Iv.neg, tvNeg]
      exact ⟨by ticks, by ticks, by ticks, by ticks, by ticks⟩
    obtain ⟨h1, h2, h3⟩ := C138_interval i _ hi hn h
    simp only [Iv.neg, tvNeg] at h2 h3
    refine ⟨h1, by omega, ?_⟩
    rw [h3, show i.lower + -s.upper = i.lower - s.lower by omega]
  · rw [addAssignTvT_eq] at h ⊢
    obtain ⟨h1, h2, h3⟩ := C138_interval i _ hi (wf_point hd) h
    exact ⟨h1, h3⟩
  · rw [subAssignTvT_eq] at h ⊢
    obtain ⟨h1, h2, h3⟩ := C138_interval i _ hi (wf_point (by ticks)) h
    refine ⟨h1, ?_⟩
    rw [h3]
    rfl

/-- C138. What is left of a set when `+=` of a duration panics (for `-=`, the opposite duration): up to the first single date which is moved
to a representable date, and with it, the intervals have been moved, the others have not. -/
theorem C138_translate (s : TSet) (d : Int) (hs : Canon s) (hd : Date d) {e : Panic} (h : (s.addAssignTvT d).res = .error e) :
    s.subAssignTvT (-d) = s.addAssignTvT d ∧
    ∃ a x b, s = a ++ x :: b ∧ x.lower = x.upper ∧ Date (x.lower + d) ∧ (∀ i ∈ a, ¬ (i.lower = i.upper ∧ Date (i.lower + d))) ∧
      left s (s.addAssignTvT d) = a.map (shiftIv d) ++ ⟨x.lower + d, x.lower + d⟩ :: b := by
  refine ⟨by rw [subAssignTvSet_eq]; congr 1; omega, ?_⟩
  have hr : ∀ i : Iv, (i.addAssignTvT d).res = i.addAssignTv d := fun i => by
    rw [addAssignTvT_eq, addAssignTv_eq, addAssignSpanT_res]
  have hl : ∀ i y : Iv, i.addAssignTv d = .ok y → left i (i.addAssignTvT d) = y := fun i y e => by
    rw [addAssignTvT_eq]
    rw [addAssignTv_eq] at e
    exact addAssignSpanT_left e i
  obtain ⟨a, x, b, ys, h1, h2, h3, h4⟩ := forEachT_error (g := fun tw => tw.addAssignTv d) hr hl s [] h
  have hsp := wf_point hd
  have hx : WF x := hs.wf x (by rw [h1]; simp)
  have hx' : (x.addAssignSpanT ⟨d, d⟩).res = .error e := by rw [addAssignSpanT_res, ← addAssignTv_eq]; exact h3
  obtain ⟨c1, -, c3⟩ := C138_interval x ⟨d, d⟩ hx hsp hx'
  have c2 := ((C83_exact true x ⟨d, d⟩ hx hsp).1 e).1 h3
  have hg : ∀ (a ys : List Iv), (∀ i ∈ a, WF i) → a.mapM (fun tw => tw.addAssignTv d) = .ok ys →
      ys = a.map (shiftIv d) ∧ ∀ i ∈ a, ¬ (i.lower = i.upper ∧ Date (i.lower + d)) := by
    intro a
    induction a with
    | nil => intro ys _ h; cases h; exact ⟨rfl, fun _ h => nomatch h⟩
    | cons i a ih =>
      intro ys hw h
      rw [List.mapM_cons] at h
      obtain ⟨y, e1, h⟩ := bind_ok h
      obtain ⟨zs, e2, h⟩ := bind_ok h
      cases h
      obtain ⟨g1, g2⟩ := ih zs (fun j hj => hw j (List.mem_cons_of_mem _ hj)) e2
      have wi := hw i (List.mem_cons_self ..)
      constructor
      · rw [List.map_cons, g1]
        congr 1
        obtain ⟨b1, b2⟩ := addSpan_bounds wi hsp
        rw [shiftIv_sat hd, ← addAssignSpanT_left (s := ⟨d, d⟩) e1 i, left_addAssignSpanT b1 b2]
      · intro j hj
        rcases List.mem_cons.1 hj with rfl | hj
        · rintro ⟨k1, k2⟩
          have := ((C83_exact true j ⟨d, d⟩ wi hsp).1 .assertFail).2 ⟨rfl, k1, rfl, k2⟩
          rw [addAssignTv_eq] at e1
          rw [this] at e1
          cases e1
        · exact g2 j hj
  obtain ⟨g1, g2⟩ := hg a ys (fun i hi => hs.wf i (by rw [h1]; simp [hi])) h2
  refine ⟨a, x, b, h1, c1, c2.2.2.2, g2, ?_⟩
  have : left s (s.addAssignTvT d) = _ := h4
  rw [this, addAssignTvT_eq, c3, g1]
  rfl

/-- the single date `x`, `d` later -/
theorem shift_point {x : Iv} {d : Int} (h : x.lower = x.upper) (hx : WF x) (hd : Date (x.lower + d)) :
    shiftIv d x = ⟨x.lower + d, x.lower + d⟩ := by
  obtain ⟨a1, a2, a3, a4, a5⟩ := hx
  have n3 : round (x.lower + d) = x.lower + d := by
    unfold round
    rw [if_neg (by ticks), if_neg (by ticks)]
  unfold shiftIv
  rw [if_neg (by ticks), if_neg (by ticks), ← h, n3]

/-- C138 is violated whenever `+=` of a duration other than 0 panics: the set is not as it was. -/
theorem C138_translate_violated (s : TSet) (d : Int) (hs : Canon s) (hd : Date d) (h0 : d ≠ 0) {e : Panic}
    (h : (s.addAssignTvT d).res = .error e) : left s (s.addAssignTvT d) ≠ s := by
  obtain ⟨-, a, x, b, h1, -, -, -, h2⟩ := C138_translate s d hs hd h
  rw [h2]
  intro e
  rw [h1] at e
  have := (List.append_inj e (by simp)).2
  have := congrArg Iv.lower (List.cons.inj this).1
  dsimp only at this
  omega

/-- C138. The set left by `+=` of a duration is in order iff the first single date, moved, is still before the next interval and does not touch
it. (No interval before it overflows as a whole.) -/
theorem C138_canonical_exact (a b : List Iv) (x : Iv) (d : Int) (hs : Canon (a ++ x :: b)) (hd : Date d) (hx : x.lower = x.upper)
    (hm : Date (x.lower + d)) (ha : ∀ i ∈ a, HasSum i ⟨d, d⟩ ∧ i.lower ≠ i.upper) :
    (∃ e, (TSet.addAssignTvT (a ++ x :: b) d).res = .error e) ∧
    (Canon (left (a ++ x :: b) (TSet.addAssignTvT (a ++ x :: b) d)) ↔ ∀ y, b.head? = some y → x.lower + d + 1 < y.lower) := by
  have hsp := wf_point hd
  have wx : WF x := hs.wf x (by simp)
  have wa : ∀ i ∈ a, WF i := fun i hi => hs.wf i (by simp [hi])
  have hex : ∃ e, (TSet.addAssignTvT (a ++ x :: b) d).res = .error e := by
    rw [addAssignTvSet_res]
    exact (C83_set_exact true _ d hs hd).1.2 ⟨x, by simp, hx, hm⟩
  refine ⟨hex, ?_⟩
  obtain ⟨e, he⟩ := hex
  have hr : ∀ i : Iv, (i.addAssignTvT d).res = i.addAssignTv d := fun i => by
    rw [addAssignTvT_eq, addAssignTv_eq, addAssignSpanT_res]
  have hl : ∀ i y : Iv, i.addAssignTv d = .ok y → left i (i.addAssignTvT d) = y := fun i y e => by
    rw [addAssignTvT_eq]
    rw [addAssignTv_eq] at e
    exact addAssignSpanT_left e i
  have hga : a.mapM (fun tw => tw.addAssignTv d) = .ok (a.map (shiftIv d)) := by
    refine mapM_ok (fun i hi => ?_)
    rw [addAssignTv_eq, addAssignSpan_sat (wa i hi) hsp, shiftIv_sat hd, if_pos]
    cases c : ((satIv i ⟨d, d⟩).lower != (satIv i ⟨d, d⟩).upper || !isFinite (satIv i ⟨d, d⟩).lower) with
    | true => rfl
    | false =>
      exfalso
      have hw := (hasSum_iff (wa i hi) hsp).1 (ha i hi).1
      simp only [Bool.or_eq_false_iff, bne_eq_false_iff_eq, Bool.not_eq_false'] at c
      obtain ⟨w1, w2, w3, w4, w5⟩ := hw
      have := (satIv_point (wa i hi) hsp).1 ⟨c.1, by ticks⟩
      exact (ha i hi).2 this.1
  have hgx : x.addAssignTv d = .error .assertFail :=
    ((C83_exact true x ⟨d, d⟩ wx hsp).1 .assertFail).2 ⟨rfl, hx, rfl, hm⟩
  have hx' : (x.addAssignSpanT ⟨d, d⟩).res = .error .assertFail := by rw [addAssignSpanT_res, ← addAssignTv_eq]; exact hgx
  have hleft : left (a ++ x :: b) (TSet.addAssignTvT (a ++ x :: b) d) = a.map (shiftIv d) ++ ⟨x.lower + d, x.lower + d⟩ :: b := by
    have := (forEachT_at (g := fun tw => tw.addAssignTv d) hr hl hgx b a [] hga).2
    rw [addAssignTvT_eq, (C138_interval x ⟨d, d⟩ wx hsp hx').2.2] at this
    exact this
  rw [hleft]
  have hp := hs.gap
  rw [List.pairwise_append, List.pairwise_cons] at hp
  obtain ⟨p1, ⟨p2, p3⟩, p4⟩ := hp
  constructor
  · intro h y hy
    have := h.gap
    rw [List.pairwise_append, List.pairwise_cons] at this
    exact this.2.1.1 y (List.mem_of_mem_head? hy)
  · intro h
    have wsx : WF (satIv x ⟨d, d⟩) := by
      rw [← shiftIv_sat hd, shift_point hx wx hm]
      constructor <;> ticks
    have ws : ∀ i ∈ a, WF (satIv i ⟨d, d⟩) := fun i hi => (hasSum_iff (wa i hi) hsp).1 (ha i hi).1
    have hb : ∀ y ∈ b, x.lower + d + 1 < y.lower := by
      cases b with
      | nil => intro y hy; cases hy
      | cons z b =>
        intro y hy
        have hz := h z rfl
        rcases List.mem_cons.1 hy with rfl | hy
        · exact hz
        · have := (List.pairwise_cons.1 p3).1 y hy
          have wz := (hs.wf z (by simp)).1
          omega
    have hax : ∀ i ∈ a, (shiftIv d i).upper + 1 < x.lower + d := by
      intro i hi
      have := satIv_gap (wa i hi) wx hd (p4 i hi x (by simp)) (ws i hi) wsx
      rw [← shiftIv_sat hd, ← shiftIv_sat hd, shift_point hx wx hm] at this
      exact this
    constructor
    · intro i hi
      rcases List.mem_append.1 hi with hi | hi
      · obtain ⟨j, hj, rfl⟩ := List.mem_map.1 hi
        rw [shiftIv_sat hd]
        exact ws j hj
      · rcases List.mem_cons.1 hi with rfl | hi
        · rw [← shift_point hx wx hm, shiftIv_sat hd]; exact wsx
        · exact hs.wf i (by simp [hi])
    · rw [List.pairwise_append, List.pairwise_cons]
      refine ⟨?_, ⟨hb, p3⟩, ?_⟩
      · rw [List.pairwise_map]
        refine List.Pairwise.imp_of_mem ?_ p1
        intro i j hi hj hij
        rw [shiftIv_sat hd, shiftIv_sat hd]
        exact satIv_gap (wa i hi) (wa j hj) hd hij (ws i hi) (ws j hj)
      · intro i hi j hj
        obtain ⟨k, hk, rfl⟩ := List.mem_map.1 hi
        have h1 := hax k hk
        rcases List.mem_cons.1 hj with rfl | hj
        · exact h1
        · have := hb j hj; omega

/-- C138 is violated: whenever the first single date is moved up to the next interval, or beyond, the set left is not even in order. -/
theorem C138_canonical_violated (a b : List Iv) (x y : Iv) (d : Int) (hs : Canon (a ++ x :: y :: b)) (hd : Date d) (hx : x.lower = x.upper)
    (hm : Date (x.lower + d)) (ha : ∀ i ∈ a, HasSum i ⟨d, d⟩ ∧ i.lower ≠ i.upper) (hy : y.lower ≤ x.lower + d + 1) :
    ¬ Canon (left (a ++ x :: y :: b) (TSet.addAssignTvT (a ++ x :: y :: b) d)) := by
  intro h
  have := (C138_canonical_exact a (y :: b) x d hs hd hx hm ha).2.1 h y rfl
  omega

/-- C138 is violated: such a set no longer answers `contains` rightly. The caller has `{0} ∪ [2, 3]` and adds 5 ticks; what is left holds the date
2, and says that it does not. -/
theorem C138_lookup_violated : Canon [⟨0, 0⟩, ⟨2, 3⟩] ∧ (TSet.addAssignTvT [⟨0, 0⟩, ⟨2, 3⟩] 5).res = .error .assertFail ∧
    left [⟨0, 0⟩, ⟨2, 3⟩] (TSet.addAssignTvT [⟨0, 0⟩, ⟨2, 3⟩] 5) = [⟨5, 5⟩, ⟨2, 3⟩] ∧ InSet 2 [⟨5, 5⟩, ⟨2, 3⟩] ∧
    TSet.contains [⟨5, 5⟩, ⟨2, 3⟩] (.point 2) = false := by
  refine ⟨⟨?_, ?_⟩, by decide +kernel, by decide +kernel, ⟨⟨2, 3⟩, by simp, by unfold InIv; decide⟩, by decide⟩
  · intro i hi
    simp only [List.mem_cons, List.not_mem_nil, or_false] at hi
    rcases hi with rfl | rfl <;> constructor <;> ticks
  · decide

/-- C138 is violated: an infinite duration widens the interval before the panic. -/
theorem C138_infinite_violated (p : Int) (hp : Date p) :
    (Iv.addAssignTvT ⟨p, INF⟩ (-INF)).res = .error .assertFail ∧ left ⟨p, INF⟩ (Iv.addAssignTvT ⟨p, INF⟩ (-INF)) = Iv.all := by
  have h1 : tvAdd p (-INF) = .ok (-INF) := by
    unfold tvAdd
    have a1 : isFutureInfinite p = false := by simp only [isFutureInfinite, beq_eq_false_iff_ne]; ticks
    have a2 : isPastInfinite p = false := by simp only [isPastInfinite, beq_eq_false_iff_ne]; ticks
    rw [a1, a2]
    rfl
  have h2 : tvAdd INF (-INF) = .error .assertFail := rfl
  unfold Iv.addAssignTvT
  rw [h1]
  refine ⟨rfl, rfl⟩

/-- C138. What is left of a set when `*=` of an integer panics: the intervals before the one which overflows have been multiplied, the others have
not. -/
theorem C138_scale (ty : Iv.ScaleTy) (s : TSet) (n : Int) {e : Panic} (h : (s.mulAssignT ty n).res = .error e) :
    ∃ a x b a', s = a ++ x :: b ∧ a.mapM (fun i => i.mul ty n) = .ok a' ∧ x.mul ty n = .error e ∧
      left s (s.mulAssignT ty n) = a' ++ x :: b := by
  have h0 : n ≠ 0 := by
    rintro rfl
    unfold TSet.mulAssignT at h
    rw [if_pos rfl] at h
    split at h <;> cases h
  unfold TSet.mulAssignT at h ⊢
  rw [if_neg h0] at h ⊢
  have hf : (TSet.forEachT (fun tw => Run.put (tw.mul ty n)) [] s).res = .error e := by
    rw [Run.res_bind] at h
    cases hr : (TSet.forEachT (fun tw => Run.put (tw.mul ty n)) [] s).res with
    | error e' => rw [hr] at h; exact h
    | ok l =>
      rw [hr] at h
      change (if n < 0 then Run.put (.ok l.reverse) else pure l : Run TSet TSet).res = _ at h
      split at h <;> cases h
  obtain ⟨a, x, b, ys, h1, h2, h3, h4⟩ :=
    forEachT_error (g := fun i => i.mul ty n) (fun i => Run.res_put _) put_left s [] hf
  refine ⟨a, x, b, ys, h1, h2, h3, ?_⟩
  rw [left_bind_error hf]
  rw [h3] at h4
  exact h4

/-- C138. The same for `*=` of a float (for `/=`, its inverse). -/
theorem C138_scale_float (F : FTy) (s : TSet) (f : Fl) {e : Panic} (h : (s.mulAssignFT F f).res = .error e) :
    ∃ a x b a', s = a ++ x :: b ∧ a.mapM (fun i => i.mulF F f) = .ok a' ∧ x.mulF F f = .error e ∧
      left s (s.mulAssignFT F f) = a' ++ x :: b := by
  unfold TSet.mulAssignFT at h ⊢
  have hf : (TSet.forEachT (fun tw => Run.put (tw.mulF F f)) [] s).res = .error e := by
    rw [Run.res_bind] at h
    cases hr : (TSet.forEachT (fun tw => Run.put (tw.mulF F f)) [] s).res with
    | error e' => rw [hr] at h; exact h
    | ok l =>
      rw [hr] at h
      exfalso
      revert h
      cases c : Fl.lt f Fl.zero <;> cases c' : Fl.lt f.abs (Fl.one F) <;>
        simp only [c, c', if_true, if_false, Bool.false_eq_true] <;> (intro h; cases h)
  obtain ⟨a, x, b, ys, h1, h2, h3, h4⟩ :=
    forEachT_error (g := fun i => i.mulF F f) (fun i => Run.res_put _) put_left s [] hf
  refine ⟨a, x, b, ys, h1, h2, h3, ?_⟩
  rw [left_bind_error hf]
  rw [h3] at h4
  exact h4

/-- C138 is violated by `*=`: whenever an interval overflows as a whole and a former one, multiplied, reaches it, the set left is not in order. -/
theorem C138_scale_violated (ty : Iv.ScaleTy) (a b : List Iv) (x y : Iv) (n : Int) (hs : Canon (a ++ x :: b)) (hn : 0 < n)
    (hty : ScaleOk ty n) (hf : ∀ i ∈ a, FitsMul i n) (hx : INF ≤ x.lower * n) (hy : y ∈ a) (hxy : x.lower ≤ y.upper * n + 1) :
    (∃ e, (TSet.mulAssignT ty (a ++ x :: b) n).res = .error e) ∧
    ¬ Canon (left (a ++ x :: b) (TSet.mulAssignT ty (a ++ x :: b) n)) := by
  have ca : Canon a := ⟨fun i hi => hs.wf i (by simp [hi]), (List.pairwise_append.1 hs.gap).1⟩
  have wx : WF x := hs.wf x (by simp)
  have wy := ca.wf y hy
  have hn0 : n ≠ 0 := by omega
  have hma := mul_map ca hn0 hty hf
  have hmx : x.mul ty n = .error .assertFail := by
    obtain ⟨a1, a2, a3, a4, a5⟩ := wx
    have hl : tvMul ty x.lower n = INF := by
      obtain ⟨t1, t2, t3⟩ := hty
      have key : fromTicks (sat64 (x.lower * n)) = INF := by
        unfold fromTicks sat64
        ticks
      cases ty
      · exact key
      · show mulBig x.lower n = INF
        unfold mulBig
        rw [if_neg (by ticks), if_neg (by ticks)]
        exact key
      · show mulUBig x.lower n.toNat = INF
        unfold mulUBig
        have : (n.toNat : Int) = n := by omega
        rw [this, if_neg (by ticks)]
        exact key
    unfold Iv.mul
    rw [if_neg (by omega : ¬ n < 0)]
    dsimp only
    rw [hl]
    rfl
  have hloop := forEachT_at (f := fun tw => Run.put (tw.mul ty n)) (g := fun i => i.mul ty n) (fun i => Run.res_put _) put_left hmx b a [] hma
  have hres : (TSet.mulAssignT ty (a ++ x :: b) n).res = .error .assertFail := by
    unfold TSet.mulAssignT
    rw [if_neg hn0, Run.res_bind, hloop.1]
    rfl
  refine ⟨⟨_, hres⟩, ?_⟩
  have hl : left (a ++ x :: b) (TSet.mulAssignT ty (a ++ x :: b) n) = a.map (mulIv n) ++ x :: b := by
    unfold TSet.mulAssignT
    rw [if_neg hn0, left_bind_error hloop.1]
    have := hloop.2
    rw [hmx] at this
    exact this
  rw [hl]
  intro hc
  have hp := (List.pairwise_append.1 hc.gap).2.2 (mulIv n y) (List.mem_map_of_mem hy) x (by simp)
  have hg := (List.pairwise_append.1 hs.gap).2.2 y hy x (by simp)
  have e := (mulIv_spec_pos hn wy (hf y hy)).2.2.1
  obtain ⟨a1, a2, a3, a4, a5⟩ := wx
  rw [if_neg (by ticks)] at e
  omega

/-! ## The hypotheses can be met -/

example : (TSet.divAssignT .small [⟨0, 4⟩, ⟨7, 9⟩] 0).res = .error .assertFail := by decide +kernel

example : (TSet.replaceT (TSet.addSpan true [⟨0, 4⟩, ⟨INF - 3, INF - 2⟩] ⟨5, 6⟩)).res = .error .debugAssert := by decide +kernel

/-- `[-9, -5] ∪ {0} ∪ [2, 3]`, moved by 5 ticks -/
example : Canon ([⟨-9, -5⟩] ++ (⟨0, 0⟩ : Iv) :: [⟨2, 3⟩]) ∧ Date 5 ∧ Date ((⟨0, 0⟩ : Iv).lower + 5) ∧
    (∀ i ∈ [(⟨-9, -5⟩ : Iv)], HasSum i ⟨5, 5⟩ ∧ i.lower ≠ i.upper) ∧ (⟨2, 3⟩ : Iv).lower ≤ (⟨0, 0⟩ : Iv).lower + 5 + 1 := by
  refine ⟨⟨?_, by decide⟩, by unfold Date; decide, by unfold Date; decide, ?_, by decide⟩
  · intro i hi
    simp only [List.cons_append, List.nil_append, List.mem_cons, List.not_mem_nil, or_false] at hi
    rcases hi with rfl | rfl | rfl <;> constructor <;> ticks
  · intro i hi
    simp only [List.mem_cons, List.not_mem_nil, or_false] at hi
    subst hi
    refine ⟨⟨-1, by unfold Date; decide, -6, 5, ?_, ?_, rfl⟩, by decide⟩
    · unfold InExt; decide
    · unfold InExt; decide

/-- `[2^60, 2^60 + 1] ∪ [2^62, 2^62 + 1]`, multiplied by 4 -/
example : Canon ([⟨2 ^ 60, 2 ^ 60 + 1⟩] ++ (⟨2 ^ 62, 2 ^ 62 + 1⟩ : Iv) :: []) ∧ ScaleOk .small 4 ∧
    (∀ i ∈ [(⟨2 ^ 60, 2 ^ 60 + 1⟩ : Iv)], FitsMul i 4) ∧ INF ≤ (⟨2 ^ 62, 2 ^ 62 + 1⟩ : Iv).lower * 4 ∧
    (⟨2 ^ 62, 2 ^ 62 + 1⟩ : Iv).lower ≤ (⟨2 ^ 60, 2 ^ 60 + 1⟩ : Iv).upper * 4 + 1 := by
  refine ⟨⟨?_, by decide⟩, by unfold ScaleOk IsScale; decide, ?_, by decide, by decide⟩
  · intro i hi
    simp only [List.cons_append, List.nil_append, List.mem_cons, List.not_mem_nil, or_false] at hi
    rcases hi with rfl | rfl <;> constructor <;> ticks
  · intro i hi
    simp only [List.mem_cons, List.not_mem_nil, or_false] at hi
    subst hi
    unfold FitsMul Date
    decide

example : (TSet.mulAssignFT .f64 [⟨2 ^ 60, 2 ^ 60 + 1⟩, ⟨2 ^ 62, 2 ^ 62 + 1⟩] (.fin false (2 ^ 1076))).res = .error .assertFail := by
  decide +kernel

end Chrono
