import Verif.Props.Interval

/-!
# The length of a slot (C143)
-/

namespace Chrono
open Spec

/-- C143. The `duration()` of a slot with a date is the least duration which separates no two points of the slot, `+oo` if there is none. -/
theorem C143_longest (i : Iv) (hi : WF i) :
    ∃ d, i.duration = .ok d ∧ 0 ≤ d ∧ d ≤ INF ∧ ∀ D, D < INF → (d ≤ D ↔ ∀ a b, InExt a i → InExt b i → b - a ≤ D) := by
  obtain ⟨h1, h2, h3, h4, h5⟩ := hi
  obtain ⟨l, u⟩ := i
  simp only at h1 h2 h3 h4 h5
  refine ⟨_, C26_duration _ ⟨by ticks, by ticks⟩ ⟨by ticks, by ticks⟩, ?_, ?_, fun D hD => ?_⟩
  · simp only; split <;> (try split) <;> (try split) <;> ticks
  · simp only; split <;> (try split) <;> (try split) <;> ticks
  · simp only [InExt]
    by_cases c1 : u ≤ l
    · rw [if_pos c1]
      constructor
      · intro h a b ha hb; ticks
      · intro h; have := h l l (by ticks) (by ticks); omega
    · rw [if_neg c1]
      by_cases c2 : l = -INF ∨ u = INF
      · rw [if_pos c2]
        constructor
        · intro h; omega
        · intro h
          rcases c2 with c | c
          · have := h (u - D.natAbs - 1) u (by omega) (by omega); omega
          · have := h l (l + D.natAbs + 1) (by omega) (by omega); omega
      · rw [if_neg c2]
        constructor
        · intro h a b ha hb
          split at h <;> omega
        · intro h
          have := h l u (by omega) (by omega)
          split <;> omega

example : WF ⟨3, 7⟩ ∧ (⟨3, 7⟩ : Iv).duration = .ok 4 ∧ WF ⟨-INF + 1, INF - 1⟩ ∧ (⟨-INF + 1, INF - 1⟩ : Iv).duration = .ok INF ∧
    WF ⟨-INF, 7⟩ ∧ (⟨-INF, 7⟩ : Iv).duration = .ok INF := by decide

/-- The duration is determined by the distances between the points. -/
theorem length_unique {i j : Iv} {d e : Int} (hi : WF i) (hj : WF j) (hd : i.duration = .ok d) (he : j.duration = .ok e)
    (h : ∀ D, D < INF → (∀ a b, InExt a j → InExt b j → b - a ≤ D) → ∀ a b, InExt a i → InExt b i → b - a ≤ D) : d ≤ e := by
  obtain ⟨d', e1, _, hd1, p⟩ := C143_longest i hi
  obtain ⟨e', e2, _, he1, q⟩ := C143_longest j hj
  rw [hd] at e1; rw [he] at e2
  injection e1 with e1; injection e2 with e2
  subst e1; subst e2
  rcases Int.lt_or_le e INF with c | c
  · exact (p e c).2 (h e c ((q e c).1 (Int.le_refl e)))
  · omega

/-- C143. A slot within another one is not longer. -/
theorem C143_inside {i j : Iv} {d e : Int} (hi : WF i) (hj : WF j) (h : ∀ t, InExt t i → InExt t j) (hd : i.duration = .ok d)
    (he : j.duration = .ok e) : d ≤ e :=
  length_unique hi hj hd he (fun _ _ hD a b ha hb => hD a b (h a ha) (h b hb))

example : WF ⟨3, 7⟩ ∧ WF ⟨0, 10⟩ ∧ (⟨3, 7⟩ : Iv).duration = .ok 4 ∧ (⟨0, 10⟩ : Iv).duration = .ok 10 ∧
    (∀ t, InExt t ⟨3, 7⟩ → InExt t ⟨0, 10⟩) := by
  refine ⟨by decide, by decide, by decide, by decide, fun t h => ?_⟩
  simp only [InExt] at h ⊢; ticks

/-- C143. Moving a slot, to the future or to the past, does not change its length. -/
theorem C143_translate (dbg : Bool) (i : Iv) (d : Int) (hi : WF i) (hd : Date d) :
    ((Date i.lower → Date (i.lower + d)) → (Date i.upper → Date (i.upper + d)) →
      (do (← i.addTv dbg d).duration) = i.duration) ∧
    ((Date i.lower → Date (i.lower - d)) → (Date i.upper → Date (i.upper - d)) →
      (do (← i.subTv dbg d).duration) = i.duration) := by
  obtain ⟨h1, h2, -⟩ := C22_translate dbg i d hi hd
  obtain ⟨a, ha, -⟩ := C143_longest i hi
  have key : ∀ (c : Int) (j : Iv), WF j → (∀ t, InExt t j ↔ InExt (t - c) i) → j.duration = i.duration := by
    intro c j hj h
    obtain ⟨b, hb, -⟩ := C143_longest j hj
    have l1 := length_unique hi hj ha hb (fun D _ hD x y hx hy => by
      have := hD (x + c) (y + c) ((h _).2 (by rw [Int.add_sub_cancel]; exact hx)) ((h _).2 (by rw [Int.add_sub_cancel]; exact hy)); omega)
    have l2 := length_unique hj hi hb ha (fun D _ hD x y hx hy => by
      have := hD (x - c) (y - c) ((h _).1 hx) ((h _).1 hy); omega)
    rw [ha, hb]; congr 1; omega
  constructor
  · intro a1 a2
    obtain ⟨j, e, hj, h⟩ := h1 a1 a2
    rw [e]; exact key d j hj h
  · intro a1 a2
    obtain ⟨j, e, hj, h⟩ := h2 a1 a2
    rw [e]; exact key (-d) j hj (fun t => by rw [h, Int.sub_neg])

example : WF ⟨3, 7⟩ ∧ Date 5 ∧ Iv.addTv true ⟨3, 7⟩ 5 = .ok ⟨8, 12⟩ ∧ (⟨8, 12⟩ : Iv).duration = .ok 4 := by decide

theorem add_nonneg {x w : Int} (hx : 0 ≤ x) (hx' : x ≤ INF) (hw : 0 ≤ w) (hw' : w ≤ INF) :
    tvAdd x w = .ok (if INF ≤ x + w then INF else x + w) := by
  rw [tvAdd_ok ⟨by ticks, by ticks⟩ ⟨by ticks, by ticks⟩ (by ticks) (by ticks)]
  congr 1
  simp only [round]
  repeat' split
  all_goals ticks

/-- The length of a slot from `l` to `u`. -/
theorem length_eq {l u : Int} (hi : WF ⟨l, u⟩) :
    (⟨l, u⟩ : Iv).duration = .ok (if l = -INF ∨ u = INF ∨ INF ≤ u - l then INF else u - l) := by
  obtain ⟨h1, h2, h3, h4, h5⟩ := hi
  simp only at h1 h2 h3 h4 h5
  rw [C26_duration _ ⟨by ticks, by ticks⟩ ⟨by ticks, by ticks⟩]
  congr 1
  simp only
  repeat' split
  all_goals ticks

/-- C143. Adding an uncertain delay to a slot, or subtracting it, lengthens the slot by the width of the delay. -/
theorem C143_span (dbg : Bool) (i s : Iv) (hi : WF i) (hs : WF s) (hb : Date s.lower ∧ Date s.upper) (hw : s.upper - s.lower ≤ INF) :
    ((Date i.lower → Date (i.lower + s.lower)) → (Date i.upper → Date (i.upper + s.upper)) →
      (do (← i.addSpan dbg s).duration) = (do tvAdd (← i.duration) (s.upper - s.lower))) ∧
    ((Date i.lower → Date (i.lower - s.upper)) → (Date i.upper → Date (i.upper - s.lower)) →
      (do (← i.subSpan dbg s).duration) = (do tvAdd (← i.duration) (s.upper - s.lower))) := by
  have key : ∀ s : Iv, WF s → Date s.lower ∧ Date s.upper → s.upper - s.lower ≤ INF →
      (Date i.lower → Date (i.lower + s.lower)) → (Date i.upper → Date (i.upper + s.upper)) →
      (do (← i.addSpan dbg s).duration) = (do tvAdd (← i.duration) (s.upper - s.lower)) := by
    intro s hs hb hw a1 a2
    obtain ⟨⟨l, u⟩, e, hj, e1, e2⟩ := addSpan_spec dbg hi hs (fun x _ => a1 x) (fun x _ => a2 x)
    rw [e]
    show Iv.duration ⟨l, u⟩ = _
    rw [length_eq hj]
    obtain ⟨l', u'⟩ := i
    rw [length_eq hi]
    obtain ⟨h1, h2, h3, h4, h5⟩ := hi
    obtain ⟨g1, g2, g3, g4, g5⟩ := hs
    simp only [Date] at h1 h2 h3 h4 h5 e1 e2 hb a1 a2
    show _ = tvAdd _ _
    rw [add_nonneg (by split <;> ticks) (by split <;> ticks) (by omega) hw]
    congr 1
    subst e1; subst e2
    repeat' split
    all_goals ticks
  refine ⟨key s hs hb hw, fun a1 a2 => ?_⟩
  rw [subSpan_eq]
  have := key s.neg hs.neg (by simp only [Iv.neg]; exact ⟨by ticks, by ticks⟩) (by simp only [Iv.neg]; omega)
    (by simp only [Iv.neg]; intro h; have := a1 h; rwa [← Int.sub_eq_add_neg])
    (by simp only [Iv.neg]; intro h; have := a2 h; rwa [← Int.sub_eq_add_neg])
  rw [this]
  simp only [Iv.neg]
  rw [show -s.lower - -s.upper = s.upper - s.lower by omega]

example : WF ⟨3, 7⟩ ∧ WF ⟨2, 5⟩ ∧ Iv.addSpan true ⟨3, 7⟩ ⟨2, 5⟩ = .ok ⟨5, 12⟩ ∧ (⟨5, 12⟩ : Iv).duration = .ok 7 ∧
    (⟨3, 7⟩ : Iv).duration = .ok 4 := by decide

/-- C143. Cutting a slot at one of its dates gives two slots whose lengths add up to its length. -/
theorem C143_cut (i : Iv) (c : Int) (hi : WF i) (hc : Date c) (hin : InIv c i) :
    (do tvAdd (← (i.truncateAfter c).1.duration) (← (i.truncateBefore c).1.duration)) = i.duration := by
  obtain ⟨l, u⟩ := i
  have hi' := hi
  obtain ⟨h1, h2, h3, h4, h5⟩ := hi
  simp only [InIv] at h1 h2 h3 h4 h5 hin
  have ea : (Iv.truncateAfter ⟨l, u⟩ c).1 = ⟨l, c⟩ := by
    simp only [Iv.truncateAfter]
    split
    · simp only [Iv.mk.injEq, true_and]; omega
    · rw [if_neg (by omega)]
  have eb : (Iv.truncateBefore ⟨l, u⟩ c).1 = ⟨c, u⟩ := by
    simp only [Iv.truncateBefore]
    split
    · simp only [Iv.mk.injEq, and_true]; omega
    · rw [if_neg (by omega)]
  have wa : WF ⟨l, c⟩ := ⟨by simp only; omega, by ticks, by ticks, by ticks, by ticks⟩
  have wb : WF ⟨c, u⟩ := ⟨by simp only; omega, by ticks, by ticks, by ticks, by ticks⟩
  rw [ea, eb, length_eq wa, length_eq wb, length_eq hi']
  show tvAdd _ _ = _
  rw [add_nonneg (by split <;> ticks) (by split <;> ticks) (by split <;> ticks) (by split <;> ticks)]
  congr 1
  repeat' split
  all_goals ticks

example : WF ⟨3, 7⟩ ∧ Date 4 ∧ InIv 4 ⟨3, 7⟩ ∧ (Iv.truncateAfter ⟨3, 7⟩ 4).1.duration = .ok 1 ∧ (Iv.truncateBefore ⟨3, 7⟩ 4).1.duration = .ok 3 := by
  decide

/-- C143. Enlarging a slot by `d` on both sides lengthens it by twice `d`. -/
theorem C143_enlarge (i : Iv) (d : Int) (hi : WF i) (hd : 0 ≤ d) (hd2 : 2 * d ≤ INF)
    (h1 : Date i.lower → Date (i.lower - d)) (h2 : Date i.upper → Date (i.upper + d)) :
    ∃ j, i.enlarge d = .ok (some j) ∧ j.duration = (do tvAdd (← i.duration) (2 * d)) := by
  have e := enlarge_eq i d hi ⟨by ticks, by ticks⟩ h1 h2
  obtain ⟨g1, g2, g3, g4, g5⟩ := id hi
  simp only at e
  rw [if_pos (by (repeat' split) <;> ticks)] at e
  rcases i with ⟨l, u⟩
  simp only at *
  have hw : WF ⟨if l = -INF then -INF else l - d, if u = INF then INF else u + d⟩ := by
    constructor <;> simp only <;> (repeat' split) <;> ticks
  refine ⟨_, e, ?_⟩
  rw [length_eq hw, length_eq hi]
  show _ = tvAdd _ _
  rw [add_nonneg (by split <;> ticks) (by split <;> ticks) (by omega) hd2]
  congr 1
  repeat' split
  all_goals ticks

example : WF ⟨3, 7⟩ ∧ Iv.enlarge ⟨3, 7⟩ 2 = .ok (some ⟨1, 9⟩) ∧ (⟨1, 9⟩ : Iv).duration = .ok 8 := by decide

/-- C143. The start of a bounded slot plus its length is its end. -/
theorem C143_end (i : Iv) (hi : WF i) (hb : Date i.lower ∧ Date i.upper) (hs : i.upper - i.lower < INF) :
    (do tsAdd i.lower (← i.duration)) = .ok i.upper ∧ (do tsSubDur i.upper (← i.duration)) = .ok i.lower := by
  obtain ⟨l, u⟩ := i
  rw [length_eq hi]
  obtain ⟨g1, g2, g3, g4, g5⟩ := hi
  simp only [Date] at g1 g2 g3 g4 g5 hb hs
  rw [if_neg (by omega)]
  constructor
  · show tvAdd l (u - l) = _
    rw [tvAdd_fin ⟨by omega, by omega⟩ ⟨by ticks, by omega⟩, round_of_date ⟨by ticks, by ticks⟩]
    congr 1; simp only; omega
  · show tvAdd u (-(u - l)) = _
    rw [tvAdd_fin ⟨by omega, by omega⟩ ⟨by ticks, by ticks⟩, round_of_date ⟨by ticks, by ticks⟩]
    congr 1; simp only; omega

example : WF ⟨3, 7⟩ ∧ (⟨3, 7⟩ : Iv).duration = .ok 4 ∧ tsAdd 3 4 = .ok 7 ∧ tsSubDur 7 4 = .ok 3 := by decide

end Chrono
