import Verif.Lemmas.Seq
import Verif.Props.Duration

set_option linter.unusedSimpArgs false

/-!
# Properties of time sequences (C53-C57, C86-C89)

`Spec.FSeq.item s n` is the result of the `n`-th call to `next()`, counting from 0 (Spec/Seq.lean).
-/

namespace Chrono
open Spec

/-! ## C53 forward sequence -/

/-- C53, partial: if the start is at least one period after the beginning of time, the `n`-th call to `next()`
on `t.forward_sequence(p)` returns `t + n*p` as long as that is finite, then `None` forever. Missing: earlier
starts, for which the construction panics (`C53_violated`). -/
theorem C53_forward_partial (t p : Int) (ht : Date t) (hp : 0 < p) (hp' : p < INF) (h : -INF < t - p) :
    ∃ s, forwardSequence t p = .ok s ∧
      ∀ n : Nat, s.item n = .ok (if t + n * p < INF then some (t + n * p) else none) := by
  refine ⟨⟨t - p, p⟩, ?_, fun n => ?_⟩
  · unfold forwardSequence; rw [FSeq.new_eq ht hp hp', if_pos h]
  · rw [FSeq.item_eq n ⟨h, by ticks, hp, hp'⟩]
    simp only
    rw [show t - p + ((n : Int) + 1) * p = t + n * p by grind]

/-- C53. Which calls are accepted: `forward_sequence` succeeds exactly on a date and a strictly positive finite period which can be
subtracted from it; a zero, negative or infinite period and an infinite start are refused. -/
theorem C53_accepted (t p : Int) (ht : Legal t) (hp : Legal p) :
    (∃ s, forwardSequence t p = .ok s) ↔ Date t ∧ 0 < p ∧ p < INF ∧ -INF < t - p := by
  by_cases h : 0 < p
  · by_cases hd : Date t ∧ p < INF
    · unfold forwardSequence
      rw [FSeq.new_eq hd.1 h hd.2]
      by_cases h' : -INF < t - p
      · rw [if_pos h']; exact ⟨fun _ => ⟨hd.1, h, hd.2, h'⟩, fun _ => ⟨_, rfl⟩⟩
      · rw [if_neg h']; exact ⟨fun ⟨_, e⟩ => (nomatch e), fun e => absurd e.2.2.2 h'⟩
    · constructor
      · rintro ⟨s, hs⟩
        exfalso
        unfold forwardSequence FSeq.new at hs
        rw [if_pos (by simpa [isStrictlyPositive] using h)] at hs
        have e : ∀ r, tsSubDur t p = .ok r → isFinite r = false := by
          intro r hr
          have hd' : t = INF ∨ t = -INF ∨ p = INF := by
            apply Decidable.byContradiction
            intro c
            exact hd ⟨by ticks, by ticks⟩
          unfold tsSubDur tvSub at hr
          simp only [tvNeg] at hr
          rw [tvAdd_eq ht (by ticks)] at hr
          revert hr
          repeat' split
          all_goals first | (intro hr; cases hr; done) | skip
          all_goals
            intro hr
            injection hr with hr
            subst hr
            first | decide | (exfalso; ticks)
        cases hr : tsSubDur t p with
        | error x => rw [hr] at hs; cases hs
        | ok r =>
          rw [hr] at hs
          have := e r hr
          simp only [bind, Except.bind, this] at hs
          cases hs
      · rintro ⟨h1, -, h3, -⟩; exact absurd ⟨h1, h3⟩ hd
  · constructor
    · rintro ⟨s, hs⟩
      unfold forwardSequence FSeq.new at hs
      rw [if_neg (by simpa [isStrictlyPositive] using h)] at hs
      cases hs
    · rintro ⟨-, h2, -⟩; exact absurd h2 h

example : Legal 100 ∧ Legal 7 ∧ (∃ s, forwardSequence 100 7 = .ok s) ∧ Legal 0 ∧ ¬ ∃ s, forwardSequence 100 0 = .ok s :=
  ⟨by decide, by decide, (C53_accepted 100 7 (by decide) (by decide)).2 (by decide), by decide,
    fun h => absurd ((C53_accepted 100 0 (by decide) (by decide)).1 h).2.1 (by decide)⟩

/-- C53 is violated for every start less than one period after the beginning of time: panic. -/
theorem C53_violated (t p : Int) (ht : Date t) (hp : 0 < p) (hp' : p < INF) (h : t - p ≤ -INF) :
    forwardSequence t p = .error .assertFail := by
  unfold forwardSequence; rw [FSeq.new_eq ht hp hp', if_neg (by omega)]

example : Date 100 ∧ -INF < 100 - 7 ∧ Date (-INF + 3) ∧ -INF + 3 - 7 ≤ -INF := by decide

/-! ## C54 len -/

/-- C54, partial: from a date which is not before the origin, `len()`, `count()` and both bounds of
`size_hint()` are the number of elements still to come, unless the step divides the distance to the end of time.
Missing: see `C54_forward_violated`. -/
theorem C54_forward_partial (s : FSeq) (h : FState s) (h0 : 0 ≤ s.t) (hd : s.t = INF ∨ ¬ s.step ∣ INF - s.t) :
    ∃ k, s.len = .ok k ∧ s.count = .ok k ∧ s.sizeHint = .ok (k, k) ∧ FRemaining s k := by
  have hst := h
  obtain ⟨h1, h2, h3, h4⟩ := h
  have hl := FSeq.len_eq hst
  rw [if_pos h0] at hl
  have q0 : 0 ≤ (INF - s.t) / s.step := Int.ediv_nonneg (by omega) (by omega)
  refine ⟨_, hl, hl, by rw [FSeq.sizeHint, hl]; rfl, q0, fun n => ⟨_, FSeq.item_eq n hst, ?_⟩⟩
  have key : s.t + ((n : Int) + 1) * s.step < INF ↔ (n : Int) < (INF - s.t) / s.step := by
    have e1 := Int.mul_ediv_add_emod (INF - s.t) s.step
    have e2 := Int.emod_nonneg (INF - s.t) (show s.step ≠ 0 by omega)
    have e3 := Int.emod_lt_of_pos (INF - s.t) h3
    have e4 : s.t = INF ∨ (INF - s.t) % s.step ≠ 0 := by
      rcases hd with hd | hd
      · exact Or.inl hd
      · exact Or.inr (fun hh => hd (Int.dvd_of_emod_eq_zero hh))
    generalize (INF - s.t) / s.step = q at *
    generalize (INF - s.t) % s.step = r at *
    have e5 : ((n : Int) + 1) * s.step = n * s.step + s.step := by grind
    have e6 : 0 ≤ (n : Int) * s.step := Int.mul_nonneg (by omega) (by omega)
    rw [e5]
    constructor
    · intro hlt
      rcases Int.lt_or_le n q with h | h
      · exact h
      · have := Int.mul_le_mul_of_nonneg_left h (Int.le_of_lt h3)
        have e7 : s.step * (n : Int) = n * s.step := Int.mul_comm _ _
        ticks
    · intro hlt
      have := Int.mul_le_mul_of_nonneg_left (show (n : Int) + 1 ≤ q by omega) (Int.le_of_lt h3)
      have e7 : s.step * ((n : Int) + 1) = n * s.step + s.step := by grind
      rcases e4 with e4 | e4
      · have : s.step * q ≤ 0 := by ticks
        have : 0 < q := by omega
        have := Int.mul_pos h3 this
        omega
      · ticks
  by_cases c : s.t + ((n : Int) + 1) * s.step < INF
  · rw [if_pos c]; simp only [Option.isSome_some, true_iff]; exact key.1 c
  · rw [if_neg c]; simp only [Option.isSome_none]
    constructor
    · intro h; cases h
    · intro h; exact absurd (key.2 h) c

/-- C54 is violated, for a forward sequence, (1) from every date before the origin, whatever the step, and
(2) whenever the step divides the distance to the end of time: `len()` counts elements that `next()` does not
return. -/
theorem C54_forward_violated (s : FSeq) (h : FState s)
    (hd : s.t < 0 ∨ (s.t ≠ INF ∧ s.step ∣ INF - s.t)) :
    ∃ k, s.len = .ok k ∧ ¬ FRemaining s k := by
  have hst := h
  obtain ⟨h1, h2, h3, h4⟩ := h
  -- a call whose index is below the announced length, and which returns nothing
  have main : ∀ k : Int, 0 < k → INF ≤ s.t + k * s.step → ¬ FRemaining s k := by
    intro k hk hinf hr
    obtain ⟨r, hr1, hr2⟩ := hr.2 (k.toNat - 1)
    rw [FSeq.item_eq _ hst] at hr1
    have e : (((k.toNat - 1 : Nat) : Int) + 1) = k := by omega
    rw [e, if_neg (by omega)] at hr1
    injection hr1 with hr1
    subst hr1
    have := hr2.2 (by omega)
    cases this
  rcases hd with hd | ⟨hd, hd'⟩
  · have hl := FSeq.len_eq hst
    rw [if_neg (by omega)] at hl
    have q0 : 0 ≤ (-s.t) / s.step := Int.ediv_nonneg (by omega) (by omega)
    refine ⟨_, hl, main _ (by ticks) ?_⟩
    have e1 := Int.mul_ediv_add_emod (-s.t) s.step
    have e2 := Int.emod_nonneg (-s.t) (show s.step ≠ 0 by omega)
    have e3 := Int.emod_lt_of_pos (-s.t) h3
    generalize (-s.t) / s.step = q at *
    generalize (-s.t) % s.step = r at *
    have e4 : (INF + q) * s.step = INF * s.step + s.step * q := by grind
    have e5 : INF * s.step = INF + INF * (s.step - 1) := by grind
    have e6 : s.step - 1 ≤ INF * (s.step - 1) := by
      have := Int.mul_le_mul_of_nonneg_right (show 1 ≤ INF by decide) (show 0 ≤ s.step - 1 by omega)
      omega
    rw [e4, e5]
    generalize INF * (s.step - 1) = z at *
    ticks
  · by_cases h0 : s.t < 0
    · have hl := FSeq.len_eq hst
      rw [if_neg (by omega)] at hl
      have q0 : 0 ≤ (-s.t) / s.step := Int.ediv_nonneg (by omega) (by omega)
      refine ⟨_, hl, main _ (by ticks) ?_⟩
      have e1 := Int.mul_ediv_add_emod (-s.t) s.step
      have e2 := Int.emod_nonneg (-s.t) (show s.step ≠ 0 by omega)
      have e3 := Int.emod_lt_of_pos (-s.t) h3
      generalize (-s.t) / s.step = q at *
      generalize (-s.t) % s.step = r at *
      have e4 : (INF + q) * s.step = INF * s.step + s.step * q := by grind
      have e5 : INF * s.step = INF + INF * (s.step - 1) := by grind
      have e6 : s.step - 1 ≤ INF * (s.step - 1) := by
        have := Int.mul_le_mul_of_nonneg_right (show 1 ≤ INF by decide) (show 0 ≤ s.step - 1 by omega)
        omega
      rw [e4, e5]
      generalize INF * (s.step - 1) = z at *
      ticks
    · have hl := FSeq.len_eq hst
      rw [if_pos (by omega)] at hl
      have e : (INF - s.t) / s.step * s.step = INF - s.t := Int.ediv_mul_cancel hd'
      refine ⟨_, hl, main _ ?_ (by omega)⟩
      have := Int.le_of_dvd (show 0 < INF - s.t by omega) hd'
      exact Int.ediv_pos_of_pos_of_dvd (by omega) (by omega) hd'

/-- C54, partial, backward: from a date before the origin, `len()` and the others are the number of elements still
to come, unless one of the two ticks before the beginning of time is reached exactly. Missing: see
`C54_backward_violated`. -/
theorem C54_backward_partial (s : BSeq) (h : BState s) (h0 : s.t < 0)
    (hd : (¬ s.step ∣ s.t + INF ∧ ¬ s.step ∣ s.t + INF + 1) ∨ (s.t = -INF ∧ 1 < s.step)) :
    ∃ k, s.len = .ok k ∧ s.count = .ok k ∧ s.sizeHint = .ok (k, k) ∧ BRemaining s k := by
  have hst := h
  obtain ⟨h1, h2, h3, h4⟩ := h
  have hl := BSeq.len_eq hst
  rw [if_pos h0] at hl
  have q0 : 0 ≤ (s.t + INF + 1) / s.step := Int.ediv_nonneg (by ticks) (by omega)
  refine ⟨_, hl, hl, by rw [BSeq.sizeHint, hl]; rfl, q0, fun n => ⟨_, BSeq.item_eq n hst, ?_⟩⟩
  have key : -INF < s.t - ((n : Int) + 1) * s.step ↔ (n : Int) < (s.t + INF + 1) / s.step := by
    have e1 := Int.mul_ediv_add_emod (s.t + INF + 1) s.step
    have e2 := Int.emod_nonneg (s.t + INF + 1) (show s.step ≠ 0 by omega)
    have e3 := Int.emod_lt_of_pos (s.t + INF + 1) h3
    have e4 : (s.t = -INF ∧ 1 < s.step) ∨
        ((s.t + INF + 1) % s.step ≠ 0 ∧ (s.t + INF + 1) % s.step ≠ 1) := by
      rcases hd with hd | hd
      · refine Or.inr ⟨fun hh => hd.2 (Int.dvd_of_emod_eq_zero hh), fun hh => ?_⟩
        apply hd.1
        refine ⟨(s.t + INF + 1) / s.step, ?_⟩
        omega
      · exact Or.inl hd
    generalize (s.t + INF + 1) / s.step = q at *
    generalize (s.t + INF + 1) % s.step = r at *
    have e5 : ((n : Int) + 1) * s.step = n * s.step + s.step := by grind
    have e6 : 0 ≤ (n : Int) * s.step := Int.mul_nonneg (by omega) (by omega)
    rw [e5]
    constructor
    · intro hlt
      rcases Int.lt_or_le n q with h | h
      · exact h
      · have := Int.mul_le_mul_of_nonneg_left h (Int.le_of_lt h3)
        have e7 : s.step * (n : Int) = n * s.step := Int.mul_comm _ _
        omega
    · intro hlt
      have := Int.mul_le_mul_of_nonneg_left (show (n : Int) + 1 ≤ q by omega) (Int.le_of_lt h3)
      have e7 : s.step * ((n : Int) + 1) = n * s.step + s.step := by grind
      rcases e4 with e4 | e4
      · have := Int.mul_le_mul_of_nonneg_left (show 1 ≤ q by omega) (Int.le_of_lt h3)
        omega
      · omega
  by_cases c : -INF < s.t - ((n : Int) + 1) * s.step
  · rw [if_pos c]; simp only [Option.isSome_some, true_iff]; exact key.1 c
  · rw [if_neg c]; simp only [Option.isSome_none]
    constructor
    · intro h; cases h
    · intro h; exact absurd (key.2 h) c

/-- C54 is violated, for a backward sequence, (1) from every date which is not before the origin, and (2) whenever
one of the two ticks before the beginning of time is reached exactly: `len()` counts elements that `next()` does
not return. Together with the previous theorem this covers all the states. -/
theorem C54_backward_violated (s : BSeq) (h : BState s)
    (hd : 0 ≤ s.t ∨ ((s.step ∣ s.t + INF ∨ s.step ∣ s.t + INF + 1) ∧ ¬ (s.t = -INF ∧ 1 < s.step))) :
    ∃ k, s.len = .ok k ∧ ¬ BRemaining s k := by
  have hst := h
  obtain ⟨h1, h2, h3, h4⟩ := h
  have hl := BSeq.len_eq hst
  have main : ∀ k : Int, 0 < k → s.t - k * s.step ≤ -INF → ¬ BRemaining s k := by
    intro k hk hinf hr
    obtain ⟨r, hr1, hr2⟩ := hr.2 (k.toNat - 1)
    rw [BSeq.item_eq _ hst] at hr1
    have e : (((k.toNat - 1 : Nat) : Int) + 1) = k := by omega
    rw [e, if_neg (by omega)] at hr1
    injection hr1 with hr1
    subst hr1
    have := hr2.2 (by omega)
    cases this
  by_cases h0 : 0 ≤ s.t
  · rw [if_neg (by omega)] at hl
    have q0 : 0 ≤ 1 / s.step := Int.ediv_nonneg (by omega) (by omega)
    refine ⟨_, hl, main _ (by ticks) ?_⟩
    generalize 1 / s.step = q at *
    have := Int.mul_le_mul_of_nonneg_left (show 1 ≤ s.step by omega) (show 0 ≤ s.t + INF + q by ticks)
    omega
  · rw [if_pos (by omega)] at hl
    obtain ⟨hd, hne⟩ : (s.step ∣ s.t + INF ∨ s.step ∣ s.t + INF + 1) ∧ ¬ (s.t = -INF ∧ 1 < s.step) := by
      rcases hd with hd | hd
      · exact absurd hd h0
      · exact hd
    refine ⟨_, hl, ?_⟩
    have e1 := Int.mul_ediv_add_emod (s.t + INF + 1) s.step
    have e2 := Int.emod_nonneg (s.t + INF + 1) (show s.step ≠ 0 by omega)
    have e3 := Int.emod_lt_of_pos (s.t + INF + 1) h3
    have e4 : (s.t + INF + 1) % s.step ≤ 1 := by
      rcases hd with hd | hd
      · obtain ⟨c, hc⟩ := hd
        rw [show s.t + INF + 1 = 1 + s.step * c by omega, Int.add_mul_emod_self_left]
        rcases Int.lt_or_le 1 s.step with h | h
        · rw [Int.emod_eq_of_lt (by omega) h]; omega
        · have : s.step = 1 := by omega
          rw [this]; decide
      · rw [Int.emod_eq_zero_of_dvd hd]; omega
    generalize (s.t + INF + 1) / s.step = q at *
    generalize (s.t + INF + 1) % s.step = r at *
    have e5 : q * s.step = s.step * q := Int.mul_comm _ _
    refine main q ?_ (by omega)
    rcases Int.lt_or_le 0 q with h | h
    · exact h
    · have := Int.mul_le_mul_of_nonneg_left h (Int.le_of_lt h3)
      have : s.step = 1 := by omega
      rw [this] at e1 e3
      omega

example : FState ⟨INF - 100, 7⟩ ∧ (0 : Int) ≤ INF - 100 ∧ ¬ (7 : Int) ∣ INF - (INF - 100) ∧
    FSeq.len ⟨INF - 100, 7⟩ = .ok 14 := by decide
example : FState ⟨INF - 98, 7⟩ ∧ (7 : Int) ∣ INF - (INF - 98) ∧ FSeq.len ⟨INF - 98, 7⟩ = .ok 14 := by decide
example : BState ⟨-INF + 100, 7⟩ ∧ ¬ (7 : Int) ∣ -INF + 100 + INF ∧ ¬ (7 : Int) ∣ -INF + 100 + INF + 1 ∧
    BSeq.len ⟨-INF + 100, 7⟩ = .ok 14 := by decide

/-! ## C55 nth -/

/-- C55, partial: beyond the end, from a date not before the origin, `nth(n)` returns `None` and leaves the
sequence exhausted, as `n + 1` calls to `next()` do. Missing: the elements (`C55_violated`). -/
theorem C55_nth_beyond_partial (s : FSeq) (h : FState s) (h0 : 0 ≤ s.t) (n : Nat)
    (hn : INF - s.t < n * s.step) :
    ∃ s', s.nth n = .ok (none, s') ∧ s.item n = .ok none ∧ s.after (n + 1) = .ok s' := by
  have hst := h
  obtain ⟨h1, h2, h3, h4⟩ := h
  have hl := FSeq.len_eq hst
  rw [if_pos h0] at hl
  have e5 : ((n : Int) + 1) * s.step = n * s.step + s.step := by grind
  have e6 : ((n + 1 : Nat) : Int) * s.step = n * s.step + s.step := by grind
  refine ⟨⟨INF, s.step⟩, ?_, ?_, ?_⟩
  · rw [FSeq.nth, hl, ok_bind, if_pos (Int.ediv_lt_of_lt_mul h3 hn)]; rfl
  · rw [FSeq.item_eq n hst, if_neg (by omega)]
  · rw [FSeq.after_eq _ hst, if_neg (by omega)]

/-- C55 is violated for every element: `nth(n)` returns what the call of `next()` before the one of index `n`
returns (for `n = 0`, the element already returned), while `n + 1` calls to `next()` return another one. -/
theorem C55_violated (s : FSeq) (h : FState s) (h0 : 0 ≤ s.t) (n : Nat) (hn : s.t + n * s.step < INF) :
    ∃ s', s.nth n = .ok (some (s.t + n * s.step), s') ∧ s.item n ≠ .ok (some (s.t + n * s.step)) ∧
      (0 < n → s.item (n - 1) = .ok (some (s.t + n * s.step))) := by
  have hst := h
  obtain ⟨h1, h2, h3, h4⟩ := h
  have hl := FSeq.len_eq hst
  rw [if_pos h0] at hl
  have e5 : ((n : Int) + 1) * s.step = n * s.step + s.step := by grind
  have e6 : 0 ≤ (n : Int) * s.step := Int.mul_nonneg (by omega) (by omega)
  have e7 : (n : Int) ≤ n * s.step := by
    have := Int.mul_le_mul_of_nonneg_left (show 1 ≤ s.step by omega) (show 0 ≤ (n : Int) by omega)
    omega
  refine ⟨⟨s.t + n * s.step, s.step⟩, ?_, ?_, ?_⟩
  · have : ¬ (INF - s.t) / s.step < n := by
      have := Int.le_ediv_of_mul_le h3 (show (n : Int) * s.step ≤ INF - s.t by omega)
      omega
    rw [FSeq.nth, hl, ok_bind, if_neg this]
    have hm : mulUBig s.step n = n * s.step := by
      rw [mulUBig, if_neg (by ticks), fromTicks_sat, Int.mul_comm, round_of_date (by ticks)]
    rw [hm, tsAdd, tvAdd_exact (by ticks) (by ticks) (by ticks)]
    rfl
  · rw [FSeq.item_eq n hst]
    intro hh
    injection hh with hh
    split at hh
    · injection hh with hh; omega
    · cases hh
  · intro hpos
    have e8 : (((n - 1 : Nat) : Int) + 1) = n := by omega
    rw [FSeq.item_eq _ hst, e8, if_pos hn]

/-- C55 is violated for a backward sequence in the same way. -/
theorem C55_backward_violated (s : BSeq) (h : BState s) (h0 : s.t < 0) (n : Nat)
    (hn : -INF < s.t - n * s.step) :
    ∃ s', s.nth n = .ok (some (s.t - n * s.step), s') ∧ s.item n ≠ .ok (some (s.t - n * s.step)) ∧
      (0 < n → s.item (n - 1) = .ok (some (s.t - n * s.step))) := by
  have hst := h
  obtain ⟨h1, h2, h3, h4⟩ := h
  have hl := BSeq.len_eq hst
  rw [if_pos h0] at hl
  have e5 : ((n : Int) + 1) * s.step = n * s.step + s.step := by grind
  have e6 : 0 ≤ (n : Int) * s.step := Int.mul_nonneg (by omega) (by omega)
  have e7 : (n : Int) ≤ n * s.step := by
    have := Int.mul_le_mul_of_nonneg_left (show 1 ≤ s.step by omega) (show 0 ≤ (n : Int) by omega)
    omega
  refine ⟨⟨s.t - n * s.step, s.step⟩, ?_, ?_, ?_⟩
  · have : ¬ (s.t + INF + 1) / s.step < n := by
      have := Int.le_ediv_of_mul_le h3 (show (n : Int) * s.step ≤ s.t + INF + 1 by omega)
      omega
    rw [BSeq.nth, hl, ok_bind, if_neg this]
    have hm : mulUBig s.step n = n * s.step := by
      rw [mulUBig, if_neg (by ticks), fromTicks_sat, Int.mul_comm, round_of_date (by ticks)]
    rw [hm, tsSubDur, tvSub, tvNeg, tvAdd_exact (by ticks) (by ticks) (by ticks)]
    rfl
  · rw [BSeq.item_eq n hst]
    intro hh
    injection hh with hh
    split at hh
    · injection hh with hh; omega
    · cases hh
  · intro hpos
    have e8 : (((n - 1 : Nat) : Int) + 1) = n := by omega
    rw [BSeq.item_eq _ hst, e8, if_pos hn]

/-- The date `n` steps after the current one, or the end of time if it, or the length of the jump, is out of range. -/
theorem fseq_jump {s : FSeq} (h : FState s) (n : Nat) :
    tsAdd s.t (mulUBig s.step n) = .ok (if n * s.step < INF ∧ s.t + n * s.step < INF then s.t + n * s.step else INF) := by
  obtain ⟨h1, h2, h3, h4⟩ := h
  have e6 : 0 ≤ (n : Int) * s.step := Int.mul_nonneg (by omega) (by omega)
  have e7 : (n : Int) ≤ n * s.step := by
    have := Int.mul_le_mul_of_nonneg_left (show 1 ≤ s.step by omega) (show 0 ≤ (n : Int) by omega)
    omega
  have hm : mulUBig s.step n = if n * s.step < INF then n * s.step else INF := by
    rw [mulUBig]
    split
    · rw [if_neg (by ticks)]
    · rw [fromTicks_sat, Int.mul_comm, round]
      repeat' split
      all_goals ticks
  rw [hm, tsAdd, tvAdd_eq ⟨by ticks, h2⟩ ⟨by split <;> ticks, by split <;> ticks⟩]
  generalize (n : Int) * s.step = z at *
  simp only [round]
  repeat' split
  all_goals first | rfl | (exfalso; ticks) | (congr 1; ticks)

/-- The date `n` steps before the current one, or the beginning of time if it, or the length of the jump, is out of range. -/
theorem bseq_jump {s : BSeq} (h : BState s) (n : Nat) :
    tsSubDur s.t (mulUBig s.step n) = .ok (if n * s.step < INF ∧ -INF < s.t - n * s.step then s.t - n * s.step else -INF) := by
  obtain ⟨h1, h2, h3, h4⟩ := h
  have e6 : 0 ≤ (n : Int) * s.step := Int.mul_nonneg (by omega) (by omega)
  have e7 : (n : Int) ≤ n * s.step := by
    have := Int.mul_le_mul_of_nonneg_left (show 1 ≤ s.step by omega) (show 0 ≤ (n : Int) by omega)
    omega
  have hm : mulUBig s.step n = if n * s.step < INF then n * s.step else INF := by
    rw [mulUBig]
    split
    · rw [if_neg (by ticks)]
    · rw [fromTicks_sat, Int.mul_comm, round]
      repeat' split
      all_goals ticks
  rw [hm, tsSubDur, tvSub, tvNeg, tvAdd_eq ⟨h1, by ticks⟩ ⟨by split <;> ticks, by split <;> ticks⟩]
  generalize (n : Int) * s.step = z at *
  simp only [round]
  repeat' split
  all_goals first | rfl | (exfalso; ticks) | (congr 1; ticks)

/-- C55, decided for all states and all `n`: `nth(n)` agrees with `n + 1` calls to `next()`, in result and in state, iff `n` is
greater than `len()`. Otherwise it returns the element before, or the end of time as if it were an element. -/
theorem C55_exact_partial (s : FSeq) (h : FState s) (n : Nat) :
    ∃ l, s.len = .ok l ∧
      ((∃ o s', s.nth n = .ok (o, s') ∧ s.item n = .ok o ∧ s.after (n + 1) = .ok s') ↔ l < n) ∧
      (n ≤ l → ∃ s', s.nth n = .ok (some (if n * s.step < INF ∧ s.t + n * s.step < INF then s.t + n * s.step else INF), s')) := by
  have hst := h
  have hl := FSeq.len_eq hst
  have hj := fseq_jump hst n
  obtain ⟨h1, h2, h3, h4⟩ := h
  have e6 : 0 ≤ (n : Int) * s.step := Int.mul_nonneg (by omega) (by omega)
  have e5 : ((n : Int) + 1) * s.step = n * s.step + s.step := by grind
  have e6' : ((n + 1 : Nat) : Int) * s.step = n * s.step + s.step := by grind
  refine ⟨_, hl, ?_, ?_⟩
  · constructor
    · rintro ⟨o, s', k1, k2, -⟩
      rcases Int.lt_or_le (if 0 ≤ s.t then (INF - s.t) / s.step else INF + (-s.t) / s.step) n with c | c
      · exact c
      · exfalso
        rw [FSeq.nth, hl, ok_bind, if_neg (by omega), hj, ok_bind] at k1
        rw [FSeq.item_eq n hst, e5] at k2
        injection k1 with k1
        injection k2 with k2
        have k1 := (Prod.mk.inj k1).1
        rw [← k1] at k2
        revert k2
        repeat' split
        all_goals intro k2
        all_goals first | (cases k2; done) | (injection k2 with k2; ticks)
    · intro c
      have hb : INF < s.t + n * s.step := by
        by_cases h0 : 0 ≤ s.t
        · rw [if_pos h0] at c
          have := Int.lt_mul_of_ediv_lt h3 c
          omega
        · rw [if_neg h0] at c
          have c1 : (-s.t) / s.step < n - INF := by omega
          have c2 := Int.lt_mul_of_ediv_lt h3 c1
          have c3 : ((n : Int) - INF) * s.step = n * s.step - INF * s.step := by grind
          have c4 : INF * 1 ≤ INF * s.step := Int.mul_le_mul_of_nonneg_left (by omega) (by decide)
          omega
      refine ⟨none, ⟨INF, s.step⟩, ?_, ?_, ?_⟩
      · rw [FSeq.nth, hl, ok_bind, if_pos c]; rfl
      · rw [FSeq.item_eq n hst, if_neg (by omega)]
      · rw [FSeq.after_eq _ hst, if_neg (by omega)]
  · intro c
    rw [FSeq.nth, hl, ok_bind, if_neg (by omega), hj, ok_bind]
    exact ⟨_, rfl⟩

/-- C55, backward, decided for all states and all `n`. -/
theorem C55_backward_exact_partial (s : BSeq) (h : BState s) (n : Nat) :
    ∃ l, s.len = .ok l ∧
      ((∃ o s', s.nth n = .ok (o, s') ∧ s.item n = .ok o ∧ s.after (n + 1) = .ok s') ↔ l < n) ∧
      (n ≤ l → ∃ s', s.nth n = .ok (some (if n * s.step < INF ∧ -INF < s.t - n * s.step then s.t - n * s.step else -INF), s')) := by
  have hst := h
  have hl := BSeq.len_eq hst
  have hj := bseq_jump hst n
  obtain ⟨h1, h2, h3, h4⟩ := h
  have e6 : 0 ≤ (n : Int) * s.step := Int.mul_nonneg (by omega) (by omega)
  have e5 : ((n : Int) + 1) * s.step = n * s.step + s.step := by grind
  have e6' : ((n + 1 : Nat) : Int) * s.step = n * s.step + s.step := by grind
  have e7 : (n : Int) ≤ n * s.step := by
    have := Int.mul_le_mul_of_nonneg_left (show 1 ≤ s.step by omega) (show 0 ≤ (n : Int) by omega)
    omega
  refine ⟨_, hl, ?_, ?_⟩
  · constructor
    · rintro ⟨o, s', k1, k2, -⟩
      rcases Int.lt_or_le (if s.t < 0 then (s.t + INF + 1) / s.step else s.t + INF + 1 / s.step) n with c | c
      · exact c
      · exfalso
        rw [BSeq.nth, hl, ok_bind, if_neg (by omega), hj, ok_bind] at k1
        rw [BSeq.item_eq n hst, e5] at k2
        injection k1 with k1
        injection k2 with k2
        have k1 := (Prod.mk.inj k1).1
        rw [← k1] at k2
        revert k2
        repeat' split
        all_goals intro k2
        all_goals first | (cases k2; done) | (injection k2 with k2; ticks)
    · intro c
      have hb : s.t - n * s.step < -INF := by
        by_cases h0 : s.t < 0
        · rw [if_pos h0] at c
          have := Int.lt_mul_of_ediv_lt h3 c
          omega
        · rw [if_neg h0] at c
          have q0 : 0 ≤ 1 / s.step := Int.ediv_nonneg (by omega) (by omega)
          omega
      refine ⟨none, ⟨-INF, s.step⟩, ?_, ?_, ?_⟩
      · rw [BSeq.nth, hl, ok_bind, if_pos c]; rfl
      · rw [BSeq.item_eq n hst, if_neg (by omega)]
      · rw [BSeq.after_eq _ hst, if_neg (by omega)]
  · intro c
    rw [BSeq.nth, hl, ok_bind, if_neg (by omega), hj, ok_bind]
    exact ⟨_, rfl⟩

example : FState ⟨-20, 7⟩ ∧ FSeq.len ⟨-20, 7⟩ = .ok (INF + 2) ∧
    (FSeq.nth ⟨-20, 7⟩ 9223372036854775809).toOption.map (·.1) = some (some INF) ∧
    (FSeq.nth ⟨-20, 7⟩ 9223372036854775810).toOption.map (·.1) = some none := by decide

example : FState ⟨93, 7⟩ ∧ (93 : Int) + 2 * 7 < INF ∧ (FSeq.nth ⟨93, 7⟩ 2).toOption.map (·.1) = some (some 107) ∧
    (FSeq.item ⟨93, 7⟩ 2) = .ok (some 114) := by decide
example : FState ⟨INF - 3, 7⟩ ∧ INF - (INF - 3) < 1 * 7 := by decide

/-! ## C56 backward sequence -/

/-- C56, partial: the elements of `t.backward_sequence(p)` descend by `p`, down to the beginning of time, then
`None` forever; but the first one is `t - 2p`. Missing: the first two elements (`C56_violated`). -/
theorem C56_backward_partial (t p : Int) (ht : Date t) (hp : 0 < p) (hp' : p < INF) (h : -INF < t - p) :
    ∃ s, backwardSequence t p = .ok s ∧
      ∀ n : Nat, s.item n = .ok (if -INF < t - (n + 2) * p then some (t - (n + 2) * p) else none) := by
  refine ⟨⟨t - p, p⟩, ?_, fun n => ?_⟩
  · unfold backwardSequence; rw [BSeq.new_eq ht hp hp', if_pos h]
  · rw [BSeq.item_eq n ⟨by ticks, by ticks, hp, hp'⟩]
    simp only
    rw [show t - p - ((n : Int) + 1) * p = t - (n + 2) * p by grind]

/-- C56. Which calls are accepted: `backward_sequence` succeeds exactly on a date and a strictly positive finite period which can be
subtracted from it; a zero, negative or infinite period and an infinite start are refused. -/
theorem C56_accepted (t p : Int) (ht : Legal t) (hp : Legal p) :
    (∃ s, backwardSequence t p = .ok s) ↔ Date t ∧ 0 < p ∧ p < INF ∧ -INF < t - p := by
  by_cases h : 0 < p
  · by_cases hd : Date t ∧ p < INF
    · unfold backwardSequence
      rw [BSeq.new_eq hd.1 h hd.2]
      by_cases h' : -INF < t - p
      · rw [if_pos h']; exact ⟨fun _ => ⟨hd.1, h, hd.2, h'⟩, fun _ => ⟨_, rfl⟩⟩
      · rw [if_neg h']; exact ⟨fun ⟨_, e⟩ => (nomatch e), fun e => absurd e.2.2.2 h'⟩
    · constructor
      · rintro ⟨s, hs⟩
        exfalso
        unfold backwardSequence BSeq.new at hs
        rw [if_pos (by simpa [isStrictlyPositive] using h)] at hs
        have e : ∀ r, tsSubDur t p = .ok r → isFinite r = false := by
          intro r hr
          have hd' : t = INF ∨ t = -INF ∨ p = INF := by
            apply Decidable.byContradiction
            intro c
            exact hd ⟨by ticks, by ticks⟩
          unfold tsSubDur tvSub at hr
          simp only [tvNeg] at hr
          rw [tvAdd_eq ht (by ticks)] at hr
          revert hr
          repeat' split
          all_goals first | (intro hr; cases hr; done) | skip
          all_goals
            intro hr
            injection hr with hr
            subst hr
            first | decide | (exfalso; ticks)
        cases hr : tsSubDur t p with
        | error x => rw [hr] at hs; cases hs
        | ok r =>
          rw [hr] at hs
          have := e r hr
          simp only [bind, Except.bind, this] at hs
          cases hs
      · rintro ⟨h1, -, h3, -⟩; exact absurd ⟨h1, h3⟩ hd
  · constructor
    · rintro ⟨s, hs⟩
      unfold backwardSequence BSeq.new at hs
      rw [if_neg (by simpa [isStrictlyPositive] using h)] at hs
      cases hs
    · rintro ⟨-, h2, -⟩; exact absurd h2 h

example : Legal 100 ∧ Legal 7 ∧ (∃ s, backwardSequence 100 7 = .ok s) ∧ Legal 0 ∧ ¬ ∃ s, backwardSequence 100 0 = .ok s :=
  ⟨by decide, by decide, (C56_accepted 100 7 (by decide) (by decide)).2 (by decide), by decide,
    fun h => absurd ((C56_accepted 100 0 (by decide) (by decide)).1 h).2.1 (by decide)⟩

/-- C56 is violated for every start and every period: the first call to `next()` does not return the start (it
returns `t - 2p` or `None`), or the construction panics. -/
theorem C56_violated (t p : Int) (ht : Date t) (hp : 0 < p) (hp' : p < INF) :
    ∀ s, backwardSequence t p = .ok s → s.item 0 ≠ .ok (some t) := by
  intro s hs
  by_cases h : -INF < t - p
  · obtain ⟨s', h1, h2⟩ := C56_backward_partial t p ht hp hp' h
    rw [hs] at h1
    injection h1 with h1
    subst h1
    rw [h2 0]
    intro hh
    injection hh with hh
    split at hh
    · injection hh with hh
      have : ((0 : Nat) : Int) = 0 := rfl
      rw [this] at hh
      omega
    · cases hh
  · unfold backwardSequence at hs
    rw [BSeq.new_eq ht hp hp', if_neg h] at hs
    cases hs

example : Date 100 ∧ -INF < 100 - 7 ∧ (backwardSequence 100 7).toOption = some ⟨93, 7⟩ ∧
    BSeq.item ⟨93, 7⟩ 0 = .ok (some 86) := by decide

/-! ## C57, C89 periods -/

/-- C57, partial: let `m` be the least multiple of `p` that is not before `t`. If `t` is after the origin, or at
or before it and `t - 1` is not a multiple of `p`, `t.forward_periods(p)` yields `m, m + p, m + 2p, ...` up to the
end of time, then `None` forever. Missing: `t ≤ 0` with `t - 1` a multiple of `p` (`C57_violated`), and the first
period of time (where the construction panics). -/
theorem C57_forward_periods_partial (t p m : Int) (ht : Date t) (hp : 0 < p) (hp' : p < INF)
    (hm : p ∣ m) (hge : t ≤ m) (hgt : m < t + p) (hrep : m < INF) (hlo : -INF < m - p)
    (hc : 0 < t ∨ ¬ p ∣ t - 1) :
    ∃ s, forwardPeriods t p = .ok s ∧
      (∀ n : Nat, s.item n = .ok (if m + n * p < INF then some (m + n * p) else none)) ∧
      (∀ x, p ∣ x → t ≤ x → x < INF → ∃ n : Nat, s.item n = .ok (some x)) := by
  have hceil : ceilTo t p = .ok m := by
    by_cases c : 0 < t
    · exact C11_ceil_positive_partial t p m ht c hp hm hge hgt (by omega)
    · rw [C11_ceil_nonpositive_partial t p m ht (by omega) hp hm hge hgt, if_neg]
      rcases hc with hc | hc
      · exact absurd hc c
      · exact hc
  obtain ⟨s, h1, h2⟩ := C53_forward_partial m p (by ticks) hp hp' hlo
  refine ⟨s, ?_, h2, ?_⟩
  · rw [forwardPeriods, hceil, ok_bind]; exact h1
  · intro x hx htx hxi
    obtain ⟨a, rfl⟩ := hm
    obtain ⟨b, rfl⟩ := hx
    have hab : a ≤ b := by
      rcases Int.lt_or_le b a with h | h
      · have := Int.mul_le_mul_of_nonneg_left (show b + 1 ≤ a by omega) (Int.le_of_lt hp)
        have : p * (b + 1) = p * b + p := by grind
        omega
      · exact h
    refine ⟨(b - a).toNat, ?_⟩
    have e : p * a + ((b - a).toNat : Int) * p = p * b := by
      rw [Int.toNat_of_nonneg (by omega)]; grind
    rw [h2, e, if_pos hxi]

/-- C57 is violated for every start which is at or before the origin and just after a multiple of the period: the sequence starts with
that multiple, which is before the start (or the construction panics). -/
theorem C57_violated (t p : Int) (ht : Date t) (h0 : t ≤ 0) (hp : 0 < p) (hp' : p < INF) (hd : p ∣ t - 1) (hlo : -INF < t - 1) :
    (-INF < t - 1 - p → ∃ s, forwardPeriods t p = .ok s ∧ s.item 0 = .ok (some (t - 1))) ∧
    (t - 1 - p ≤ -INF → forwardPeriods t p = .error .assertFail) := by
  have hceil : ceilTo t p = .ok (t - 1) := by
    by_cases c : p = 1
    · rw [C11_ceil_nonpositive_partial t p t ht h0 hp (by rw [c]; exact Int.one_dvd t) (by omega) (by omega), if_pos hd]
    · rw [C11_ceil_nonpositive_partial t p (t - 1 + p) ht h0 hp (Int.dvd_add hd (Int.dvd_refl p)) (by omega) (by omega), if_pos hd]
  constructor
  · intro h
    obtain ⟨s, h1, h2⟩ := C53_forward_partial (t - 1) p (by ticks) hp hp' h
    refine ⟨s, by rw [forwardPeriods, hceil, ok_bind]; exact h1, ?_⟩
    have := h2 0
    rw [show t - 1 + ((0 : Nat) : Int) * p = t - 1 by simp, if_pos (by ticks)] at this
    exact this
  · intro h
    rw [forwardPeriods, hceil, ok_bind]
    exact C53_violated (t - 1) p (by ticks) hp hp' h

example : ∃ s, forwardPeriods (-14) 5 = .ok s ∧ s.item 0 = .ok (some (-15)) :=
  ⟨⟨-20, 5⟩, by decide, by decide⟩

/-- C89, partial: let `m` be the least multiple of `p` that is not before `t`. Where `ceil` is right,
`t.backward_periods(p)` yields multiples of `p`, all before `t`, descending by `p`; but it starts at `m - 2p`.
Missing: the multiples between `m - 2p` and `t` (`C89_violated`). -/
theorem C89_backward_periods_partial (t p m : Int) (ht : Date t) (hp : 0 < p) (hp' : p < INF)
    (hm : p ∣ m) (hge : t ≤ m) (hgt : m < t + p) (hrep : m < INF) (hlo : -INF < m - p)
    (hc : 0 < t ∨ ¬ p ∣ t - 1) :
    ∃ s, backwardPeriods t p = .ok s ∧
      (∀ n : Nat, s.item n = .ok (if -INF < m - (n + 2) * p then some (m - (n + 2) * p) else none)) ∧
      (∀ n x, s.item n = .ok (some x) → p ∣ x ∧ x < t) := by
  have hceil : ceilTo t p = .ok m := by
    by_cases c : 0 < t
    · exact C11_ceil_positive_partial t p m ht c hp hm hge hgt (by omega)
    · rw [C11_ceil_nonpositive_partial t p m ht (by omega) hp hm hge hgt, if_neg]
      rcases hc with hc | hc
      · exact absurd hc c
      · exact hc
  obtain ⟨s, h1, h2⟩ := C56_backward_partial m p (by ticks) hp hp' hlo
  refine ⟨s, ?_, h2, ?_⟩
  · rw [backwardPeriods, hceil, ok_bind]; exact h1
  · intro n x hx
    rw [h2] at hx
    injection hx with hx
    split at hx
    · injection hx with hx
      subst hx
      refine ⟨Int.dvd_sub hm (Int.dvd_mul_left _ _), ?_⟩
      have : ((n : Int) + 2) * p = n * p + p + p := by grind
      have := Int.mul_nonneg (show 0 ≤ (n : Int) by omega) (Int.le_of_lt hp)
      omega
    · cases hx

/-- C89 is violated from every start (where `ceil` is right and `m` is far enough from the ends of time): the greatest multiple
before `m` is not after the start, unless the start is itself `m`, and in both cases the greatest multiple asked for is never yielded. -/
theorem C89_greatest_violated (t p m : Int) (ht : Date t) (hp : 0 < p) (hp' : p < INF)
    (hm : p ∣ m) (hge : t ≤ m) (hgt : m < t + p) (hrep : m < INF) (hlo : -INF < m - p)
    (hc : 0 < t ∨ ¬ p ∣ t - 1) :
    ∃ s g, backwardPeriods t p = .ok s ∧ p ∣ g ∧ g ≤ t ∧ t < g + p ∧ Date g ∧ ∀ n, s.item n ≠ .ok (some g) := by
  obtain ⟨s, h1, h2, -⟩ := C89_backward_periods_partial t p m ht hp hp' hm hge hgt hrep hlo hc
  have hno : ∀ g, m - p ≤ g → ∀ n, s.item n ≠ .ok (some g) := by
    intro g hg n hn
    rw [h2 n] at hn
    injection hn with hn
    have e : ((n : Int) + 2) * p = n * p + 2 * p := by grind
    have e0 : 0 ≤ (n : Int) * p := Int.mul_nonneg (by omega) (by omega)
    split at hn
    · injection hn with hn; omega
    · cases hn
  by_cases c : t = m
  · exact ⟨s, m, h1, hm, by omega, by omega, by ticks, hno m (by omega)⟩
  · exact ⟨s, m - p, h1, Int.dvd_sub hm (Int.dvd_refl p), by omega, by omega, by ticks, hno _ (by omega)⟩

/-- C89 is violated whenever the start is itself a positive multiple of the period: it is never yielded. -/
theorem C89_violated (t p : Int) (ht : Date t) (hp : 0 < p) (hd : p ∣ t) (hpos : 0 < t) :
    ∃ s, backwardPeriods t p = .ok s ∧ ∀ n, s.item n ≠ .ok (some t) := by
  have hp' : p < INF := by have := Int.le_of_dvd hpos hd; ticks
  obtain ⟨s, h1, -, h3⟩ := C89_backward_periods_partial t p t ht hp hp' hd (by omega) (by omega) (by ticks)
    (by ticks) (Or.inl hpos)
  exact ⟨s, h1, fun n hn => by have := (h3 n t hn).2; omega⟩

/-- C89 is violated, too, from every start which is at or before the origin and just after a multiple of the period: the sequence is exactly
the multiples from the third one downwards, and the multiple just before the start is never yielded (or the construction panics). -/
theorem C89_after_violated (t p : Int) (ht : Date t) (h0 : t ≤ 0) (hp : 0 < p) (hp' : p < INF) (hd : p ∣ t - 1) (hlo : -INF < t - 1) :
    (-INF < t - 1 - p → ∃ s, backwardPeriods t p = .ok s ∧
      (∀ n : Nat, s.item n = .ok (if -INF < t - 1 - (n + 2) * p then some (t - 1 - (n + 2) * p) else none)) ∧
      (∀ n x, s.item n = .ok (some x) → p ∣ x ∧ x < t) ∧ ∀ n, s.item n ≠ .ok (some (t - 1)) ∧ s.item n ≠ .ok (some (t - 1 - p))) ∧
    (t - 1 - p ≤ -INF → backwardPeriods t p = .error .assertFail) := by
  have hceil : ceilTo t p = .ok (t - 1) := by
    by_cases c : p = 1
    · rw [C11_ceil_nonpositive_partial t p t ht h0 hp (by rw [c]; exact Int.one_dvd t) (by omega) (by omega), if_pos hd]
    · rw [C11_ceil_nonpositive_partial t p (t - 1 + p) ht h0 hp (Int.dvd_add hd (Int.dvd_refl p)) (by omega) (by omega), if_pos hd]
  constructor
  · intro h
    obtain ⟨s, h1, h2⟩ := C56_backward_partial (t - 1) p (by ticks) hp hp' h
    have low : ∀ n x, s.item n = .ok (some x) → p ∣ x ∧ x < t - 1 - p := by
      intro n x hx
      rw [h2] at hx
      injection hx with hx
      split at hx
      · injection hx with hx
        subst hx
        refine ⟨Int.dvd_sub hd (Int.dvd_mul_left _ _), ?_⟩
        have : ((n : Int) + 2) * p = n * p + p + p := by grind
        have := Int.mul_nonneg (show 0 ≤ (n : Int) by omega) (Int.le_of_lt hp)
        omega
      · cases hx
    refine ⟨s, by rw [backwardPeriods, hceil, ok_bind]; exact h1, h2, fun n x hx => ⟨(low n x hx).1, ?_⟩, fun n => ⟨fun e => ?_, fun e => ?_⟩⟩
    · have := (low n x hx).2; omega
    · have := (low n _ e).2; omega
    · have := (low n _ e).2; omega
  · intro h
    rw [backwardPeriods, hceil, ok_bind, BSeq.new_eq (by ticks) hp hp', if_neg (by omega)]

example : Date (-14) ∧ (5 : Int) ∣ -14 - 1 ∧ -INF < (-14 : Int) - 1 - 5 ∧ backwardPeriods (-14) 5 = .ok ⟨-20, 5⟩ ∧
    BSeq.item ⟨-20, 5⟩ 0 = .ok (some (-25)) := by decide
example : Date 11 ∧ (5 : Int) ∣ 15 ∧ (11 : Int) ≤ 15 ∧ (15 : Int) < 11 + 5 ∧ -INF < 15 - 5 ∧
    forwardPeriods 11 5 = .ok ⟨10, 5⟩ ∧ FSeq.item ⟨10, 5⟩ 0 = .ok (some 15) ∧
    backwardPeriods 11 5 = .ok ⟨10, 5⟩ ∧ BSeq.item ⟨10, 5⟩ 0 = .ok (some 5) := by decide
example : Date 10 ∧ (5 : Int) ∣ 10 ∧ (0 : Int) < 10 := by decide

/-! ## C86 increment -/

/-- C86, partial: the increment of a backward sequence is the difference between an element and the previous one;
the period of either is its absolute value. Missing: forward sequences (`C86_violated`). -/
theorem C86_increment_partial (s : BSeq) (h : BState s) (n : Nat) (x y : Int)
    (hx : s.item n = .ok (some x)) (hy : s.item (n + 1) = .ok (some y)) :
    y - x = s.increment ∧ x - y = s.period := by
  rw [BSeq.item_eq _ h] at hx hy
  injection hx with hx
  injection hy with hy
  split at hx
  · split at hy
    · injection hx with hx
      injection hy with hy
      have e : (((n + 1 : Nat) : Int) + 1) * s.step = (n + 1) * s.step + s.step := by grind
      rw [e] at hy
      simp only [BSeq.increment, BSeq.period, tvNeg]
      omega
    · cases hy
  · cases hx

/-- C86 is violated for every forward sequence: its increment is negative, though its elements increase by
`period()`. -/
theorem C86_violated (s : FSeq) (h : FState s) (n : Nat) (x y : Int)
    (hx : s.item n = .ok (some x)) (hy : s.item (n + 1) = .ok (some y)) :
    y - x = s.period ∧ y - x ≠ s.increment := by
  have h3 := h.2.2.1
  rw [FSeq.item_eq _ h] at hx hy
  injection hx with hx
  injection hy with hy
  split at hx
  · split at hy
    · injection hx with hx
      injection hy with hy
      have e : (((n + 1 : Nat) : Int) + 1) * s.step = (n + 1) * s.step + s.step := by grind
      rw [e] at hy
      simp only [FSeq.increment, FSeq.period, tvNeg]
      omega
    · cases hy
  · cases hx

example : FState ⟨93, 7⟩ ∧ FSeq.item ⟨93, 7⟩ 0 = .ok (some 100) ∧ FSeq.item ⟨93, 7⟩ 1 = .ok (some 107) ∧
    BState ⟨93, 7⟩ ∧ BSeq.item ⟨93, 7⟩ 0 = .ok (some 86) ∧ BSeq.item ⟨93, 7⟩ 1 = .ok (some 79) := by decide

/-! ## C87 reverse -/

/-- C87, partial: after `n + 1` calls to `next()` on a forward sequence, the last one returning an element, `reverse()` goes
back over the elements before that one; reversing twice changes nothing. Missing: the end of the sequence has been reached
(`C87_exhausted_violated`). -/
theorem C87_reverse_forward_partial (s : FSeq) (h : FState s) (n : Nat) (x : Int) (hx : s.item n = .ok (some x)) :
    ∃ s', s.after (n + 1) = .ok s' ∧ s'.reverse.period = s.period ∧ s'.reverse.reverse = s' ∧
      ∀ k : Nat, k < n → s'.reverse.item k = s.item (n - 1 - k) := by
  have hst := h
  obtain ⟨h1, h2, h3, h4⟩ := h
  have hx' := hx
  rw [FSeq.item_eq _ hst] at hx
  injection hx with hx
  split at hx
  case isFalse => cases hx
  case isTrue c =>
  have e : ((n + 1 : Nat) : Int) = (n : Int) + 1 := by omega
  refine ⟨_, FSeq.after_eq _ hst, rfl, rfl, fun k hk => ?_⟩
  rw [e, if_pos c]
  have pos : ∀ j : Int, 0 ≤ j → 0 ≤ j * s.step := fun j hj => Int.mul_nonneg hj (by omega)
  have e1 : ((n : Int) + 1) * s.step = ((n : Int) - k) * s.step + (k + 1) * s.step := by grind
  have := pos (n - k) (by omega)
  have := pos (k + 1) (by omega)
  show BSeq.item ⟨s.t + ((n : Int) + 1) * s.step, s.step⟩ k = _
  have hst' : BState ⟨s.t + ((n : Int) + 1) * s.step, s.step⟩ :=
    ⟨by have := pos (n + 1) (by omega); simp only; ticks, c, h3, h4⟩
  rw [FSeq.item_eq _ hst, BSeq.item_eq k hst']
  have e2 : (((n - 1 - k : Nat) : Int) + 1) = n - k := by omega
  simp only
  rw [e2, if_pos (by omega), if_pos (by omega)]
  congr 2
  omega

/-- C87, partial, for a backward sequence. -/
theorem C87_reverse_backward_partial (s : BSeq) (h : BState s) (n : Nat) (x : Int) (hx : s.item n = .ok (some x)) :
    ∃ s', s.after (n + 1) = .ok s' ∧ s'.reverse.period = s.period ∧ s'.reverse.reverse = s' ∧
      ∀ k : Nat, k < n → s'.reverse.item k = s.item (n - 1 - k) := by
  have hst := h
  obtain ⟨h1, h2, h3, h4⟩ := h
  have hx' := hx
  rw [BSeq.item_eq _ hst] at hx
  injection hx with hx
  split at hx
  case isFalse => cases hx
  case isTrue c =>
  have e : ((n + 1 : Nat) : Int) = (n : Int) + 1 := by omega
  refine ⟨_, BSeq.after_eq _ hst, rfl, rfl, fun k hk => ?_⟩
  rw [e, if_pos c]
  have pos : ∀ j : Int, 0 ≤ j → 0 ≤ j * s.step := fun j hj => Int.mul_nonneg hj (by omega)
  have e1 : ((n : Int) + 1) * s.step = ((n : Int) - k) * s.step + (k + 1) * s.step := by grind
  have := pos (n - k) (by omega)
  have := pos (k + 1) (by omega)
  show FSeq.item ⟨s.t - ((n : Int) + 1) * s.step, s.step⟩ k = _
  have hst' : FState ⟨s.t - ((n : Int) + 1) * s.step, s.step⟩ :=
    ⟨c, by have := pos (n + 1) (by omega); simp only; ticks, h3, h4⟩
  rw [BSeq.item_eq _ hst, FSeq.item_eq k hst']
  have e2 : (((n - 1 - k : Nat) : Int) + 1) = n - k := by omega
  simp only
  rw [e2, if_pos (by omega), if_pos (by omega)]
  congr 2
  omega

example : FState ⟨93, 7⟩ ∧ FSeq.item ⟨93, 7⟩ 3 = .ok (some 121) ∧
    FSeq.item ⟨93, 7⟩ 2 = .ok (some 114) ∧ FSeq.after 4 ⟨93, 7⟩ = .ok ⟨121, 7⟩ ∧
    BSeq.item ⟨121, 7⟩ 0 = .ok (some 114) := by decide

/-- C87 is violated by every sequence of which `next()` has returned `None`: once reversed, it yields `+oo` (`-oo` for a backward
one) at every call, for ever, and none of the elements it has been over. -/
theorem C87_exhausted_violated :
    (∀ (s : FSeq) (n : Nat), FState s → s.item n = .ok none → ∃ s', s.after (n + 1) = .ok s' ∧
      (∀ k, s'.reverse.item k = .ok (some INF)) ∧ ¬ ∃ k, BRemaining s'.reverse k) ∧
    (∀ (s : BSeq) (n : Nat), BState s → s.item n = .ok none → ∃ s', s.after (n + 1) = .ok s' ∧
      (∀ k, s'.reverse.item k = .ok (some (-INF))) ∧ ¬ ∃ k, FRemaining s'.reverse k) := by
  have hb : ∀ (p : Int), 0 < p → p < INF → ∀ k, BSeq.item ⟨INF, p⟩ k = .ok (some INF) := by
    intro p h3 h4 k
    have hn : BSeq.next ⟨INF, p⟩ = .ok (some INF, ⟨INF, p⟩) := by
      have e : tsSubDur INF p = .ok INF := by
        simp only [tsSubDur, tsAdd, tvSub, tvAdd, tvNeg, isPastInfinite, isFutureInfinite, isFinite] at *
        grind [INF]
      rw [BSeq.next, e]; rfl
    have ha : ∀ k, BSeq.after k ⟨INF, p⟩ = .ok ⟨INF, p⟩ := by
      intro k
      induction k with
      | zero => rfl
      | succ k ih => rw [BSeq.after, hn]; exact ih
    rw [BSeq.item, ha, ok_bind, hn]; rfl
  have hf : ∀ (p : Int), 0 < p → p < INF → ∀ k, FSeq.item ⟨-INF, p⟩ k = .ok (some (-INF)) := by
    intro p h3 h4 k
    have hn : FSeq.next ⟨-INF, p⟩ = .ok (some (-INF), ⟨-INF, p⟩) := by
      have e : tsAdd (-INF) p = .ok (-INF) := by
        simp only [tsAdd, tvAdd, isPastInfinite, isFutureInfinite, isFinite] at *
        grind [INF]
      rw [FSeq.next, e]; rfl
    have ha : ∀ k, FSeq.after k ⟨-INF, p⟩ = .ok ⟨-INF, p⟩ := by
      intro k
      induction k with
      | zero => rfl
      | succ k ih => rw [FSeq.after, hn]; exact ih
    rw [FSeq.item, ha, ok_bind, hn]; rfl
  constructor
  · intro s n h hx
    have hst := h
    obtain ⟨h1, h2, h3, h4⟩ := h
    rw [FSeq.item_eq _ hst] at hx
    injection hx with hx
    split at hx
    case isTrue => cases hx
    case isFalse c =>
    have e : ((n + 1 : Nat) : Int) = (n : Int) + 1 := by omega
    refine ⟨_, FSeq.after_eq _ hst, ?_⟩
    rw [e, if_neg c]
    refine ⟨hb s.step h3 h4, ?_⟩
    rintro ⟨k, k0, hk⟩
    obtain ⟨r, hr, hr'⟩ := hk k.toNat
    rw [FSeq.reverse, hb s.step h3 h4] at hr
    injection hr with hr
    subst hr
    have := hr'.1 rfl
    omega
  · intro s n h hx
    have hst := h
    obtain ⟨h1, h2, h3, h4⟩ := h
    rw [BSeq.item_eq _ hst] at hx
    injection hx with hx
    split at hx
    case isTrue => cases hx
    case isFalse c =>
    have e : ((n + 1 : Nat) : Int) = (n : Int) + 1 := by omega
    refine ⟨_, BSeq.after_eq _ hst, ?_⟩
    rw [e, if_neg c]
    refine ⟨hf s.step h3 h4, ?_⟩
    rintro ⟨k, k0, hk⟩
    obtain ⟨r, hr, hr'⟩ := hk k.toNat
    rw [BSeq.reverse, hf s.step h3 h4] at hr
    injection hr with hr
    subst hr
    have := hr'.1 rfl
    omega

example : FState ⟨INF - 10, 7⟩ ∧ FSeq.item ⟨INF - 10, 7⟩ 0 = .ok (some (INF - 3)) ∧ FSeq.item ⟨INF - 10, 7⟩ 1 = .ok none ∧
    FSeq.after 2 ⟨INF - 10, 7⟩ = .ok ⟨INF, 7⟩ ∧ BSeq.item ⟨INF, 7⟩ 5 = .ok (some INF) := by decide

/-! ## C88 last -/

/-- C88, partial: where `len()` is right (`C54_forward_partial`), `last()` is the last element to come, or `None`
if there is none. Missing: the other states (`C88_violated`). -/
theorem C88_last_partial (s : FSeq) (h : FState s) (h0 : 0 ≤ s.t) (hd : s.t = INF ∨ ¬ s.step ∣ INF - s.t) :
    ∃ k, FRemaining s k ∧ (k = 0 → s.last = .ok none) ∧
      (0 < k → ∃ x, s.last = .ok (some x) ∧ s.item (k - 1).toNat = .ok (some x)) := by
  obtain ⟨k, hl, -, -, hr⟩ := C54_forward_partial s h h0 hd
  have hst := h
  obtain ⟨h1, h2, h3, h4⟩ := h
  refine ⟨k, hr, ?_, ?_⟩
  · rintro rfl
    have hm : mulUBig s.step (0 : Int).toNat = 0 := by
      rw [mulUBig, if_neg (by decide), fromTicks_sat]; simp; decide
    rw [FSeq.last, hl, ok_bind, hm, tsAdd]
    have : ∃ y, tvAdd s.t 0 = .ok y := by
      rw [tvAdd_eq ⟨by ticks, by ticks⟩ ⟨by decide, by decide⟩]
      by_cases c : s.t = INF
      · rw [if_pos c, if_neg (by decide)]; exact ⟨_, rfl⟩
      · rw [if_neg c, if_neg (by ticks), if_neg (by decide), if_neg (by decide)]; exact ⟨_, rfl⟩
    obtain ⟨y, hy⟩ := this
    rw [hy, ok_bind, if_neg (by omega)]; rfl
  · intro hk
    have e0 : (((k - 1).toNat : Int)) = k - 1 := by omega
    obtain ⟨r, hr1, hr2⟩ := hr.2 (k - 1).toNat
    have hsome := hr2.2 (by omega)
    rw [FSeq.item_eq _ hst, e0, show k - 1 + 1 = k by omega] at hr1
    rw [FSeq.item_eq _ hst, e0, show k - 1 + 1 = k by omega]
    injection hr1 with hr1
    by_cases c : s.t + k * s.step < INF
    · rw [if_pos c]
      refine ⟨_, ?_, rfl⟩
      have e7 : k ≤ k * s.step := by
        have := Int.mul_le_mul_of_nonneg_left (show 1 ≤ s.step by omega) (show 0 ≤ k by omega)
        omega
      have hm : mulUBig s.step k.toNat = k * s.step := by
        have e : (k.toNat : Int) = k := by omega
        rw [mulUBig, e, if_neg (by ticks), fromTicks_sat, Int.mul_comm, round_of_date (by ticks)]
      rw [FSeq.last, hl, ok_bind, hm, tsAdd, tvAdd_exact (by ticks) (by ticks) (by ticks), ok_bind,
        if_pos hk]
      rfl
    · rw [if_neg c] at hr1
      subst hr1
      cases hsome

/-- C88 is violated in all the other states: `last()` is the end of time, which the sequence never yields. -/
theorem C88_violated (s : FSeq) (h : FState s) (hd : s.t < 0 ∨ (s.t ≠ INF ∧ s.step ∣ INF - s.t)) :
    s.last = .ok (some INF) ∧ ∀ n, s.item n ≠ .ok (some INF) := by
  have hst := h
  have hl := FSeq.len_eq hst
  obtain ⟨h1, h2, h3, h4⟩ := h
  constructor
  · have key : ∃ k : Nat, 0 < k ∧ s.len = .ok (k : Int) ∧ INF ≤ s.t + k * s.step := by
      by_cases h0 : 0 ≤ s.t
      · rw [if_pos h0] at hl
        obtain ⟨hne, hd⟩ : s.t ≠ INF ∧ s.step ∣ INF - s.t := by
          rcases hd with hd | hd
          · omega
          · exact hd
        have q : 0 < (INF - s.t) / s.step := Int.ediv_pos_of_pos_of_dvd (by omega) (by omega) hd
        have e : (INF - s.t) / s.step * s.step = INF - s.t := Int.ediv_mul_cancel hd
        refine ⟨((INF - s.t) / s.step).toNat, by omega, by rw [hl, Int.toNat_of_nonneg (by omega)], ?_⟩
        rw [Int.toNat_of_nonneg (by omega)]
        omega
      · rw [if_neg h0] at hl
        have q0 : 0 ≤ (-s.t) / s.step := Int.ediv_nonneg (by omega) (by omega)
        refine ⟨(INF + (-s.t) / s.step).toNat, by ticks, by rw [hl, Int.toNat_of_nonneg (by ticks)], ?_⟩
        rw [Int.toNat_of_nonneg (by ticks)]
        have e1 := Int.mul_ediv_add_emod (-s.t) s.step
        have e3 := Int.emod_lt_of_pos (-s.t) h3
        generalize (-s.t) / s.step = q at *
        generalize (-s.t) % s.step = r at *
        have e4 : (INF + q) * s.step = INF * s.step + s.step * q := by grind
        have e5 : INF * s.step = INF + INF * (s.step - 1) := by grind
        have e6 : s.step - 1 ≤ INF * (s.step - 1) := by
          have := Int.mul_le_mul_of_nonneg_right (show 1 ≤ INF by decide) (show 0 ≤ s.step - 1 by omega)
          omega
        omega
    obtain ⟨k, k0, hk, hb⟩ := key
    rw [FSeq.last, hk, ok_bind, Int.toNat_natCast, fseq_jump hst k, ok_bind, if_pos (by omega), if_neg (by omega)]
    rfl
  · intro n hn
    rw [FSeq.item_eq n hst] at hn
    injection hn with hn
    split at hn
    · injection hn with hn; omega
    · cases hn

example : FState ⟨7, INF - 7⟩ ∧ FSeq.last ⟨7, INF - 7⟩ = .ok (some INF) := by decide

example : FState ⟨INF - 100, 7⟩ ∧ (0 : Int) ≤ INF - 100 ∧ ¬ (7 : Int) ∣ INF - (INF - 100) ∧
    FSeq.last ⟨INF - 100, 7⟩ = .ok (some (INF - 2)) := by decide

/-- C88, partial, for a backward sequence: where `len()` is right (`C54_backward_partial`), `last()` is the last
element to come, or `None` if there is none. Missing: the other states (`C88_backward_violated`). -/
theorem C88_backward_last_partial (s : BSeq) (h : BState s) (h0 : s.t < 0)
    (hd : (¬ s.step ∣ s.t + INF ∧ ¬ s.step ∣ s.t + INF + 1) ∨ (s.t = -INF ∧ 1 < s.step)) :
    ∃ k, BRemaining s k ∧ (k = 0 → s.last = .ok none) ∧
      (0 < k → ∃ x, s.last = .ok (some x) ∧ s.item (k - 1).toNat = .ok (some x)) := by
  obtain ⟨k, hl, -, -, hr⟩ := C54_backward_partial s h h0 hd
  have hst := h
  obtain ⟨h1, h2, h3, h4⟩ := h
  refine ⟨k, hr, ?_, ?_⟩
  · rintro rfl
    have hm : mulUBig s.step (0 : Int).toNat = 0 := by
      rw [mulUBig, if_neg (by decide), fromTicks_sat]; simp; decide
    rw [BSeq.last, hl, ok_bind, hm, tsSubDur, tvSub, tvNeg]
    have : ∃ y, tvAdd s.t (-0) = .ok y := by
      rw [tvAdd_eq ⟨by ticks, by ticks⟩ ⟨by decide, by decide⟩]
      by_cases c : s.t = -INF
      · rw [if_neg (by ticks), if_pos c, if_neg (by decide)]; exact ⟨_, rfl⟩
      · rw [if_neg (by ticks), if_neg c, if_neg (by decide), if_neg (by decide)]; exact ⟨_, rfl⟩
    obtain ⟨y, hy⟩ := this
    rw [hy, ok_bind, if_neg (by omega)]; rfl
  · intro hk
    have e0 : (((k - 1).toNat : Int)) = k - 1 := by omega
    obtain ⟨r, hr1, hr2⟩ := hr.2 (k - 1).toNat
    have hsome := hr2.2 (by omega)
    rw [BSeq.item_eq _ hst, e0, show k - 1 + 1 = k by omega] at hr1
    rw [BSeq.item_eq _ hst, e0, show k - 1 + 1 = k by omega]
    injection hr1 with hr1
    by_cases c : -INF < s.t - k * s.step
    · rw [if_pos c]
      refine ⟨_, ?_, rfl⟩
      have e7 : k ≤ k * s.step := by
        have := Int.mul_le_mul_of_nonneg_left (show 1 ≤ s.step by omega) (show 0 ≤ k by omega)
        omega
      have hm : mulUBig s.step k.toNat = k * s.step := by
        have e : (k.toNat : Int) = k := by omega
        rw [mulUBig, e, if_neg (by ticks), fromTicks_sat, Int.mul_comm, round_of_date (by ticks)]
      rw [BSeq.last, hl, ok_bind, hm, tsSubDur, tvSub, tvNeg, tvAdd_exact (by ticks) (by ticks) (by ticks), ok_bind,
        if_pos hk]
      rfl
    · rw [if_neg c] at hr1
      subst hr1
      cases hsome

/-- C88, backward, is violated in all the other states: `last()` is the beginning of time, which the sequence never yields. -/
theorem C88_backward_violated (s : BSeq) (h : BState s)
    (hd : 0 ≤ s.t ∨ s.step ∣ s.t + INF + 1 ∨ (s.t ≠ -INF ∧ s.step ∣ s.t + INF)) :
    s.last = .ok (some (-INF)) ∧ ∀ n, s.item n ≠ .ok (some (-INF)) := by
  have hst := h
  have hl := BSeq.len_eq hst
  obtain ⟨h1, h2, h3, h4⟩ := h
  constructor
  · have key : ∃ k : Nat, 0 < k ∧ s.len = .ok (k : Int) ∧ s.t - k * s.step ≤ -INF := by
      by_cases h0 : s.t < 0
      · rw [if_pos h0] at hl
        have q : 0 < (s.t + INF + 1) / s.step ∧ s.t + INF ≤ (s.t + INF + 1) / s.step * s.step := by
          rcases hd with hd | hd | ⟨hne, hd⟩
          · omega
          · have q1 := Int.ediv_pos_of_pos_of_dvd (show 0 < s.t + INF + 1 by omega) (by omega) hd
            have q2 := Int.ediv_mul_cancel hd
            omega
          · have q1 := Int.ediv_pos_of_pos_of_dvd (show 0 < s.t + INF by omega) (by omega) hd
            have q2 := Int.ediv_mul_cancel hd
            have q3 : (s.t + INF) / s.step ≤ (s.t + INF + 1) / s.step := Int.ediv_le_ediv h3 (by omega)
            have q4 := Int.mul_le_mul_of_nonneg_right q3 (show 0 ≤ s.step by omega)
            omega
        refine ⟨((s.t + INF + 1) / s.step).toNat, by omega, by rw [hl, Int.toNat_of_nonneg (by omega)], ?_⟩
        rw [Int.toNat_of_nonneg (by omega)]
        omega
      · rw [if_neg h0] at hl
        have q0 : 0 ≤ 1 / s.step := Int.ediv_nonneg (by omega) (by omega)
        refine ⟨(s.t + INF + 1 / s.step).toNat, by ticks, by rw [hl, Int.toNat_of_nonneg (by ticks)], ?_⟩
        rw [Int.toNat_of_nonneg (by ticks)]
        have q1 := Int.mul_le_mul_of_nonneg_left (show 1 ≤ s.step by omega) (show 0 ≤ s.t + INF + 1 / s.step by ticks)
        omega
    obtain ⟨k, k0, hk, hb⟩ := key
    rw [BSeq.last, hk, ok_bind, Int.toNat_natCast, bseq_jump hst k, ok_bind, if_pos (by omega), if_neg (by omega)]
    rfl
  · intro n hh
    rw [BSeq.item_eq n hst] at hh
    injection hh with hh
    split at hh
    · injection hh with hh; omega
    · cases hh

example : BState ⟨-7, INF - 7⟩ ∧ BSeq.last ⟨-7, INF - 7⟩ = .ok (some (-INF)) := by decide

example : BState ⟨-INF + 100, 7⟩ ∧ -INF + 100 < (0 : Int) ∧ ¬ (7 : Int) ∣ 100 ∧ ¬ (7 : Int) ∣ 101 ∧
    BSeq.last ⟨-INF + 100, 7⟩ = .ok (some (-INF + 2)) ∧ BState ⟨93, 7⟩ := by decide

end Chrono
