import Verif.Lemmas.TimeValue
import Verif.Lemmas.Set
import Verif.Spec.Seq

set_option linter.unusedSimpArgs false

/-! # Lemmas about sequences -/

namespace Chrono
open Spec

theorem FSeq.next_eq {s : FSeq} (h : FState s) :
    s.next = .ok (if s.t + s.step < INF then some (s.t + s.step) else none,
      ⟨if s.t + s.step < INF then s.t + s.step else INF, s.step⟩) := by
  obtain ⟨h1, h2, h3, h4⟩ := h
  unfold FSeq.next tsAdd
  rw [tvAdd_eq ⟨by ticks, h2⟩ ⟨by ticks, by ticks⟩]
  by_cases c : s.t = INF
  · rw [if_pos c, if_neg (by ticks), ok_bind]
    simp only [if_neg (show ¬ s.t + s.step < INF by ticks)]
    rfl
  · rw [if_neg (by ticks), if_neg (by ticks), if_neg (by ticks), if_neg (by ticks), ok_bind]
    by_cases d : s.t + s.step < INF
    · rw [if_pos d, if_pos d, round_of_date (by ticks)]
      have : isFutureInfinite (s.t + s.step) = false := by simp [isFutureInfinite]; ticks
      simp only [this]; rfl
    · rw [if_neg d, if_neg d]
      have : round (s.t + s.step) = INF := by unfold round; rw [if_pos (by ticks)]
      rw [this]; rfl

theorem BSeq.next_eq {s : BSeq} (h : BState s) :
    s.next = .ok (if -INF < s.t - s.step then some (s.t - s.step) else none,
      ⟨if -INF < s.t - s.step then s.t - s.step else -INF, s.step⟩) := by
  obtain ⟨h1, h2, h3, h4⟩ := h
  unfold BSeq.next tsSubDur tvSub tvNeg
  rw [tvAdd_eq ⟨h1, by ticks⟩ ⟨by ticks, by ticks⟩]
  by_cases c : s.t = -INF
  · rw [if_neg (by ticks), if_pos c, if_neg (by ticks), ok_bind]
    simp only [if_neg (show ¬ -INF < s.t - s.step by ticks)]
    rfl
  · rw [if_neg (by ticks), if_neg (by ticks), if_neg (by ticks), if_neg (by ticks), ok_bind]
    rw [← Int.sub_eq_add_neg]
    by_cases d : -INF < s.t - s.step
    · rw [if_pos d, if_pos d, round_of_date (by ticks)]
      have : isPastInfinite (s.t - s.step) = false := by simp [isPastInfinite]; ticks
      simp only [this]; rfl
    · rw [if_neg d, if_neg d]
      have : round (s.t - s.step) = -INF := by unfold round; rw [if_neg (by ticks), if_pos (by ticks)]
      rw [this]; rfl

theorem FSeq.after_eq (n : Nat) : ∀ {s : FSeq}, FState s →
    s.after n = .ok ⟨if s.t + n * s.step < INF then s.t + n * s.step else INF, s.step⟩ := by
  induction n with
  | zero =>
    intro s h
    obtain ⟨h1, h2, h3, h4⟩ := h
    unfold FSeq.after
    cases s with | mk t step => ?_
    congr 2
    simp only at *
    split <;> ticks
  | succ n ih =>
    intro s h
    have hst := h
    obtain ⟨h1, h2, h3, h4⟩ := h
    unfold FSeq.after
    have hst' : FState ⟨if s.t + s.step < INF then s.t + s.step else INF, s.step⟩ :=
      ⟨by show _ < ite _ _ _; split <;> ticks, by show ite _ _ _ ≤ _; split <;> ticks, h3, h4⟩
    rw [FSeq.next_eq hst, ok_bind]
    refine (ih hst').trans ?_
    congr 2
    simp only
    have e : ((n + 1 : Nat) : Int) * s.step = n * s.step + s.step := by grind
    have e2 : 0 ≤ (n : Int) * s.step := Int.mul_nonneg (by omega) (by omega)
    rw [e]
    repeat' split
    all_goals ticks

theorem BSeq.after_eq (n : Nat) : ∀ {s : BSeq}, BState s →
    s.after n = .ok ⟨if -INF < s.t - n * s.step then s.t - n * s.step else -INF, s.step⟩ := by
  induction n with
  | zero =>
    intro s h
    obtain ⟨h1, h2, h3, h4⟩ := h
    unfold BSeq.after
    cases s with | mk t step => ?_
    congr 2
    simp only at *
    split <;> ticks
  | succ n ih =>
    intro s h
    have hst := h
    obtain ⟨h1, h2, h3, h4⟩ := h
    unfold BSeq.after
    have hst' : BState ⟨if -INF < s.t - s.step then s.t - s.step else -INF, s.step⟩ :=
      ⟨by show _ ≤ ite _ _ _; split <;> ticks, by show ite _ _ _ < _; split <;> ticks, h3, h4⟩
    rw [BSeq.next_eq hst, ok_bind]
    refine (ih hst').trans ?_
    congr 2
    simp only
    have e : ((n + 1 : Nat) : Int) * s.step = n * s.step + s.step := by grind
    have e2 : 0 ≤ (n : Int) * s.step := Int.mul_nonneg (by omega) (by omega)
    rw [e]
    repeat' split
    all_goals ticks

theorem FSeq.item_eq (n : Nat) {s : FSeq} (h : FState s) :
    s.item n = .ok (if s.t + (n + 1) * s.step < INF then some (s.t + (n + 1) * s.step) else none) := by
  have hst := h
  obtain ⟨h1, h2, h3, h4⟩ := h
  have e2 : 0 ≤ (n : Int) * s.step := Int.mul_nonneg (by omega) (by omega)
  have e : ((n : Int) + 1) * s.step = n * s.step + s.step := by grind
  unfold FSeq.item
  have hst' : FState ⟨if s.t + n * s.step < INF then s.t + n * s.step else INF, s.step⟩ :=
    ⟨by show _ < ite _ _ _; split <;> ticks, by show ite _ _ _ ≤ _; split <;> ticks, h3, h4⟩
  rw [FSeq.after_eq n hst, ok_bind, FSeq.next_eq hst', ok_bind]
  show Except.ok _ = _
  congr 1
  simp only [e]
  by_cases c : s.t + n * s.step < INF
  · rw [if_pos c, Int.add_assoc]
  · rw [if_neg c, if_neg (by ticks), if_neg (by ticks)]

theorem BSeq.item_eq (n : Nat) {s : BSeq} (h : BState s) :
    s.item n = .ok (if -INF < s.t - (n + 1) * s.step then some (s.t - (n + 1) * s.step) else none) := by
  have hst := h
  obtain ⟨h1, h2, h3, h4⟩ := h
  have e2 : 0 ≤ (n : Int) * s.step := Int.mul_nonneg (by omega) (by omega)
  have e : ((n : Int) + 1) * s.step = n * s.step + s.step := by grind
  unfold BSeq.item
  have hst' : BState ⟨if -INF < s.t - n * s.step then s.t - n * s.step else -INF, s.step⟩ :=
    ⟨by show _ ≤ ite _ _ _; split <;> ticks, by show ite _ _ _ < _; split <;> ticks, h3, h4⟩
  rw [BSeq.after_eq n hst, ok_bind, BSeq.next_eq hst', ok_bind]
  show Except.ok _ = _
  congr 1
  simp only [e]
  by_cases c : -INF < s.t - n * s.step
  · rw [if_pos c, Int.sub_sub]
  · rw [if_neg c, if_neg (by ticks), if_neg (by ticks)]

theorem FSeq.new_eq {t p : Int} (ht : Date t) (hp : 0 < p) (hp' : p < INF) :
    FSeq.new t p = if -INF < t - p then .ok ⟨t - p, p⟩ else .error .assertFail := by
  unfold FSeq.new tsSubDur tvSub tvNeg
  have : isStrictlyPositive p = true := by simp [isStrictlyPositive]; omega
  rw [if_pos this, tvAdd_fin ht (by ticks), ok_bind, ← Int.sub_eq_add_neg]
  by_cases c : -INF < t - p
  · rw [if_pos c, round_of_date (by ticks), if_pos (isFinite_iff.2 (by ticks))]; rfl
  · have : round (t - p) = -INF := by unfold round; rw [if_neg (by ticks), if_pos (by ticks)]
    rw [if_neg c, this]; rfl

theorem BSeq.new_eq {t p : Int} (ht : Date t) (hp : 0 < p) (hp' : p < INF) :
    BSeq.new t p = if -INF < t - p then .ok ⟨t - p, p⟩ else .error .assertFail := by
  unfold BSeq.new tsSubDur tvSub tvNeg
  have : isStrictlyPositive p = true := by simp [isStrictlyPositive]; omega
  rw [if_pos this, tvAdd_fin ht (by ticks), ok_bind, ← Int.sub_eq_add_neg]
  by_cases c : -INF < t - p
  · rw [if_pos c, round_of_date (by ticks), if_pos (isFinite_iff.2 (by ticks))]; rfl
  · have : round (t - p) = -INF := by unfold round; rw [if_neg (by ticks), if_pos (by ticks)]
    rw [if_neg c, this]; rfl

theorem chk64_in {x : Int} (h : I64_MIN ≤ x) (h' : x ≤ I64_MAX) : chk64 x = .ok x := by
  unfold chk64; rw [if_pos ⟨h, h'⟩]

theorem asU64_nonneg {x : Int} (h : 0 ≤ x) (h' : x ≤ INF) : asU64 x = x := by
  unfold asU64; ticks

theorem FSeq.len_eq {s : FSeq} (h : FState s) :
    s.len = .ok (if 0 ≤ s.t then (INF - s.t) / s.step else INF + (-s.t) / s.step) := by
  obtain ⟨h1, h2, h3, h4⟩ := h
  unfold FSeq.len
  by_cases c : 0 ≤ s.t
  · have : isPositive s.t = true := by simp [isPositive]; exact c
    rw [if_pos this, chk64_in (by ticks) (by ticks), ok_bind,
      asU64_nonneg (by ticks) (by ticks), asU64_nonneg (by ticks) (by ticks), divU64,
      if_neg (by ticks), if_pos c]
    rfl
  · have : ¬ isPositive s.t = true := by simp [isPositive]; omega
    have q0 : 0 ≤ (-s.t) / s.step := Int.ediv_nonneg (by omega) (by omega)
    have q1 : (-s.t) / s.step ≤ -s.t := Int.ediv_le_self _ (by omega)
    rw [if_neg this, chk64_in (by ticks) (by ticks), ok_bind,
      asU64_nonneg (by ticks) (by ticks), asU64_nonneg (by ticks) (by ticks), divU64,
      if_neg (by ticks), ok_bind, if_neg c, asU64_nonneg (by ticks) (by ticks)]
    unfold chkU64
    rw [if_pos (by ticks)]
    rfl

theorem BSeq.len_eq {s : BSeq} (h : BState s) :
    s.len = .ok (if s.t < 0 then (s.t + INF + 1) / s.step else s.t + INF + 1 / s.step) := by
  obtain ⟨h1, h2, h3, h4⟩ := h
  unfold BSeq.len
  by_cases c : s.t < 0
  · have : isStrictlyNegative s.t = true := by simp [isStrictlyNegative]; exact c
    rw [if_pos this, chk64_in (by ticks) (by ticks), ok_bind,
      asU64_nonneg (by ticks) (by ticks), asU64_nonneg (by ticks) (by ticks), divU64,
      if_neg (by ticks), if_pos c]
    congr 2; ticks
  · have : ¬ isStrictlyNegative s.t = true := by simp [isStrictlyNegative]; omega
    have q0 : 0 ≤ 1 / s.step := Int.ediv_nonneg (by omega) (by omega)
    have q1 : 1 / s.step ≤ 1 := Int.ediv_le_self _ (by omega)
    rw [if_neg this, asU64_nonneg (by ticks) (by ticks), asU64_nonneg (by ticks) (by ticks)]
    unfold chkU64
    rw [if_pos (by ticks), ok_bind, asU64_nonneg (by ticks) (by ticks), divU64, if_neg (by ticks), ok_bind,
      if_neg c, if_pos (by ticks)]
    rfl

end Chrono
