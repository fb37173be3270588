import Verif.Props.Seq

set_option linter.unusedSimpArgs false

/-!
# Standard adaptors on sequences (C116)
-/

namespace Chrono
open Spec

/-! ## Helpers -/

/-- `nth(n)`, as long as it does not reach the end of time -/
theorem fseq_nth {s : FSeq} (h : FState s) {n : Nat} (h1 : n * s.step < INF) (h2 : s.t + n * s.step < INF) :
    s.nth n = .ok (some (s.t + n * s.step), ⟨s.t + n * s.step, s.step⟩) := by
  have hj := fseq_jump h n
  rw [if_pos ⟨h1, h2⟩] at hj
  obtain ⟨l, hl, hiff, -⟩ := C55_exact_partial s h n
  have e6 : 0 ≤ (n : Int) * s.step := Int.mul_nonneg (by omega) (by have := h.2.2.1; omega)
  rw [FSeq.nth, hl, ok_bind, if_neg, hj]
  · rfl
  · have := FSeq.len_eq h
    rw [hl] at this
    injection this with this
    rw [this]
    obtain ⟨k1, k2, k3, k4⟩ := h
    split
    · have := Int.le_ediv_of_mul_le k3 (show (n : Int) * s.step ≤ INF - s.t by omega)
      omega
    · have q0 : 0 ≤ (-s.t) / s.step := Int.ediv_nonneg (by omega) (by omega)
      have := Int.mul_le_mul_of_nonneg_left (show 1 ≤ s.step by omega) (show 0 ≤ (n : Int) by omega)
      omega

theorem bseq_nth {s : BSeq} (h : BState s) {n : Nat} (h1 : n * s.step < INF) (h2 : -INF < s.t - n * s.step) :
    s.nth n = .ok (some (s.t - n * s.step), ⟨s.t - n * s.step, s.step⟩) := by
  have hj := bseq_jump h n
  rw [if_pos ⟨h1, h2⟩] at hj
  have e6 : 0 ≤ (n : Int) * s.step := Int.mul_nonneg (by omega) (by have := h.2.2.1; omega)
  rw [BSeq.nth, BSeq.len_eq h, ok_bind, if_neg, hj]
  · rfl
  · obtain ⟨k1, k2, k3, k4⟩ := h
    split
    · have := Int.le_ediv_of_mul_le k3 (show (n : Int) * s.step ≤ s.t + INF + 1 by omega)
      omega
    · have q0 : 0 ≤ 1 / s.step := Int.ediv_nonneg (by omega) (by omega)
      have := Int.mul_le_mul_of_nonneg_left (show 1 ≤ s.step by omega) (show 0 ≤ (n : Int) by omega)
      omega

theorem fseq_item_succ {s s' : FSeq} {o : Option Int} (e : s.next = .ok (o, s')) (i : Nat) : s.item (i + 1) = s'.item i := by
  unfold FSeq.item
  rw [FSeq.after, e, ok_bind]

theorem bseq_item_succ {s s' : BSeq} {o : Option Int} (e : s.next = .ok (o, s')) (i : Nat) : s.item (i + 1) = s'.item i := by
  unfold BSeq.item
  rw [BSeq.after, e, ok_bind]

theorem fseq_next_state {s : FSeq} (h : FState s) : ∃ s' o, s.next = .ok (o, s') ∧ FState s' := by
  refine ⟨_, _, FSeq.next_eq h, ?_⟩
  obtain ⟨h1, h2, h3, h4⟩ := h
  exact ⟨by show _ < ite _ _ _; split <;> ticks, by show ite _ _ _ ≤ _; split <;> ticks, h3, h4⟩

theorem bseq_next_state {s : BSeq} (h : BState s) : ∃ s' o, s.next = .ok (o, s') ∧ BState s' := by
  refine ⟨_, _, BSeq.next_eq h, ?_⟩
  obtain ⟨h1, h2, h3, h4⟩ := h
  exact ⟨by show _ ≤ ite _ _ _; split <;> ticks, by show ite _ _ _ < _; split <;> ticks, h3, h4⟩

theorem fskip_zero (i : Nat) : ∀ {s : FSeq}, FState s → s.skipItem 0 i = s.item i := by
  induction i with
  | zero =>
    intro s h
    show (do let r ← FSkip.next ⟨s, 0⟩; return r.1) = _
    unfold FSkip.next FSeq.item
    rw [FSeq.after, ok_bind, FSeq.next_eq h]
    rfl
  | succ i ih =>
    intro s h
    obtain ⟨s', o, e, h'⟩ := fseq_next_state h
    rw [fseq_item_succ e, ← ih h']
    show (do let r ← FSkip.next ⟨s, 0⟩; itemOf FSkip.next i r.2) = _
    unfold FSkip.next
    rw [if_neg (by simp), e]
    rfl

theorem bskip_zero (i : Nat) : ∀ {s : BSeq}, BState s → s.skipItem 0 i = s.item i := by
  induction i with
  | zero =>
    intro s h
    show (do let r ← BSkip.next ⟨s, 0⟩; return r.1) = _
    unfold BSkip.next BSeq.item
    rw [BSeq.after, ok_bind, BSeq.next_eq h]
    rfl
  | succ i ih =>
    intro s h
    obtain ⟨s', o, e, h'⟩ := bseq_next_state h
    rw [bseq_item_succ e, ← ih h']
    show (do let r ← BSkip.next ⟨s, 0⟩; itemOf BSkip.next i r.2) = _
    unfold BSkip.next
    rw [if_neg (by simp), e]
    rfl

/-- `skip(n)`, from what its first call does -/
theorem fskip_of {s s' : FSeq} {o : Option Int} {n : Nat} (hn : 0 < n) (h' : FState s') (e : s.nth n = .ok (o, s')) :
    s.skipItem n 0 = .ok o ∧ ∀ i, s.skipItem n (i + 1) = s'.item i := by
  constructor
  · show (do let r ← FSkip.next ⟨s, n⟩; return r.1) = _
    unfold FSkip.next
    rw [if_pos hn, e]
    rfl
  · intro i
    rw [← fskip_zero i h']
    show (do let r ← FSkip.next ⟨s, n⟩; itemOf FSkip.next i r.2) = _
    unfold FSkip.next
    rw [if_pos hn, e]
    rfl

theorem bskip_of {s s' : BSeq} {o : Option Int} {n : Nat} (hn : 0 < n) (h' : BState s') (e : s.nth n = .ok (o, s')) :
    s.skipItem n 0 = .ok o ∧ ∀ i, s.skipItem n (i + 1) = s'.item i := by
  constructor
  · show (do let r ← BSkip.next ⟨s, n⟩; return r.1) = _
    unfold BSkip.next
    rw [if_pos hn, e]
    rfl
  · intro i
    rw [← bskip_zero i h']
    show (do let r ← BSkip.next ⟨s, n⟩; itemOf BSkip.next i r.2) = _
    unfold BSkip.next
    rw [if_pos hn, e]
    rfl

/-- `step_by(k + 1)` after its first call -/
theorem fstep_rest (old : Bool) (k i : Nat) : ∀ {s : FSeq}, FState s → k * s.step < INF → s.t + ((i + 1) * k : Nat) * s.step < INF →
    itemOf (FStepBy.next old) i ⟨s, k, false⟩ = .ok (some (s.t + ((i + 1) * k : Nat) * s.step)) := by
  induction i with
  | zero =>
    intro s h h1 h2
    rw [Nat.zero_add, Nat.one_mul] at h2 ⊢
    show (do let r ← FStepBy.next old ⟨s, k, false⟩; return r.1) = _
    unfold FStepBy.next
    simp only [Bool.false_eq_true, if_false]
    rw [fseq_nth h h1 h2]
    rfl
  | succ i ih =>
    intro s h h1 h2
    have e : (((i + 1 + 1) * k : Nat) : Int) * s.step = k * s.step + ((i + 1) * k : Nat) * s.step := by
      rw [Nat.add_mul (i + 1) 1 k, Nat.one_mul]; grind
    have e1 : 0 ≤ (k : Int) * s.step := Int.mul_nonneg (by omega) (by have := h.2.2.1; omega)
    have e2 : 0 ≤ (((i + 1) * k : Nat) : Int) * s.step := Int.mul_nonneg (by omega) (by have := h.2.2.1; omega)
    rw [e] at h2 ⊢
    show (do let r ← FStepBy.next old ⟨s, k, false⟩; itemOf (FStepBy.next old) i r.2) = _
    unfold FStepBy.next
    simp only [Bool.false_eq_true, if_false]
    rw [fseq_nth h h1 (by omega)]
    have := ih (s := ⟨s.t + k * s.step, s.step⟩) ⟨by have := h.1; simp only; omega, by simp only; omega, h.2.2.1, h.2.2.2⟩ h1
      (by simp only; omega)
    simp only at this
    rw [show s.t + (k * s.step + ((i + 1) * k : Nat) * s.step) = s.t + k * s.step + ((i + 1) * k : Nat) * s.step by omega]
    exact this

theorem bstep_rest (old : Bool) (k i : Nat) : ∀ {s : BSeq}, BState s → k * s.step < INF → -INF < s.t - ((i + 1) * k : Nat) * s.step →
    itemOf (BStepBy.next old) i ⟨s, k, false⟩ = .ok (some (s.t - ((i + 1) * k : Nat) * s.step)) := by
  induction i with
  | zero =>
    intro s h h1 h2
    rw [Nat.zero_add, Nat.one_mul] at h2 ⊢
    show (do let r ← BStepBy.next old ⟨s, k, false⟩; return r.1) = _
    unfold BStepBy.next
    simp only [Bool.false_eq_true, if_false]
    rw [bseq_nth h h1 h2]
    rfl
  | succ i ih =>
    intro s h h1 h2
    have e : (((i + 1 + 1) * k : Nat) : Int) * s.step = k * s.step + ((i + 1) * k : Nat) * s.step := by
      rw [Nat.add_mul (i + 1) 1 k, Nat.one_mul]; grind
    have e1 : 0 ≤ (k : Int) * s.step := Int.mul_nonneg (by omega) (by have := h.2.2.1; omega)
    have e2 : 0 ≤ (((i + 1) * k : Nat) : Int) * s.step := Int.mul_nonneg (by omega) (by have := h.2.2.1; omega)
    rw [e] at h2 ⊢
    show (do let r ← BStepBy.next old ⟨s, k, false⟩; itemOf (BStepBy.next old) i r.2) = _
    unfold BStepBy.next
    simp only [Bool.false_eq_true, if_false]
    rw [bseq_nth h h1 (by omega)]
    have := ih (s := ⟨s.t - k * s.step, s.step⟩) ⟨by simp only; omega, by have := h.2.1; simp only; omega, h.2.2.1, h.2.2.2⟩ h1
      (by simp only; omega)
    simp only at this
    rw [show s.t - (k * s.step + ((i + 1) * k : Nat) * s.step) = s.t - k * s.step - ((i + 1) * k : Nat) * s.step by omega]
    exact this

/-! ## C116 -/

/-- C116, partial: `skip(0)` changes nothing, and when `n` is greater than `len()` both `skip(n)` and the elements from the `n`-th on are nothing,
forever. Missing: the other `n`, see `C116_skip_violated`. -/
theorem C116_skip_partial (s : FSeq) (h : FState s) (n : Nat) (l : Int) (hl : s.len = .ok l) :
    (∀ i, s.skipItem 0 i = s.item i) ∧ (l < n → ∀ i, s.skipItem n i = .ok none ∧ s.item (n + i) = .ok none) := by
  refine ⟨fun i => fskip_zero i h, fun hn i => ?_⟩
  have e : ∀ m : Nat, l < m → s.nth m = .ok (none, { s with t := INF }) := fun m hm => by
    rw [FSeq.nth, hl, ok_bind, if_pos hm]; rfl
  have hit : ∀ m : Nat, l < m → s.item m = .ok none := fun m hm => by
    obtain ⟨l', hl', hiff, -⟩ := C55_exact_partial s h m
    rw [hl] at hl'
    cases hl'
    obtain ⟨o, s', k1, k2, -⟩ := hiff.2 hm
    rw [e m hm] at k1
    cases k1
    exact k2
  have hl0 : 0 ≤ l := by
    obtain ⟨k1, k2, k3, k4⟩ := h
    have := FSeq.len_eq (s := s) ⟨k1, k2, k3, k4⟩
    rw [hl] at this
    injection this with this
    rw [this]
    split
    · exact Int.ediv_nonneg (by omega) (by omega)
    · have : 0 ≤ (-s.t) / s.step := Int.ediv_nonneg (by omega) (by omega)
      ticks
  have h' : FState { s with t := INF } := ⟨by show -INF < INF; decide, Int.le_refl _, h.2.2.1, h.2.2.2⟩
  obtain ⟨a, b⟩ := fskip_of (by omega) h' (e n hn)
  refine ⟨?_, hit _ (by omega)⟩
  cases i with
  | zero => exact a
  | succ i =>
    have := Int.mul_nonneg (show 0 ≤ (i : Int) + 1 by omega) (show 0 ≤ s.step by have := h.2.2.1; omega)
    rw [b, FSeq.item_eq _ h', if_neg (by simp only; omega)]

/-- C116 is violated by every `skip(n)` which leaves an element: it skips `n - 1` elements instead of `n`. So the first element it yields is
one it should have skipped. -/
theorem C116_skip_violated (s : FSeq) (h : FState s) (n : Nat) (hn : 0 < n) (h1 : n * s.step < INF) (h2 : s.t + n * s.step < INF) :
    (∀ i, s.skipItem n i = s.item (n - 1 + i)) ∧ s.skipItem n 0 ≠ s.item n := by
  have h3 := h.2.2.1
  have e0 : 0 ≤ (n : Int) * s.step := Int.mul_nonneg (by omega) (by omega)
  have h' : FState ⟨s.t + n * s.step, s.step⟩ := ⟨by have := h.1; simp only; omega, by simp only; omega, h3, h.2.2.2⟩
  obtain ⟨a, b⟩ := fskip_of hn h' (fseq_nth h h1 h2)
  have e1 : ((n - 1 : Nat) : Int) + 1 = n := by omega
  refine ⟨fun i => ?_, ?_⟩
  · cases i with
    | zero => rw [a, Nat.add_zero, FSeq.item_eq _ h, e1, if_pos h2]
    | succ i =>
      rw [b, FSeq.item_eq _ h', FSeq.item_eq _ h]
      simp only
      have : (((n - 1 + (i + 1) : Nat) : Int) + 1) * s.step = n * s.step + ((i : Int) + 1) * s.step := by
        rw [show ((n - 1 + (i + 1) : Nat) : Int) + 1 = n + (i + 1) by omega, Int.add_mul]
      rw [this, ← Int.add_assoc]
  · rw [a, FSeq.item_eq _ h]
    have : ((n : Int) + 1) * s.step = n * s.step + s.step := by grind
    intro c
    injection c with c
    rw [this] at c
    split at c
    · injection c with c; omega
    · cases c

/-- C116 is violated by every `step_by(k + 1)`: it advances by `k` periods at each call, and starts one element too early (with the older versions of the
library it starts where it should). So its `i`-th element is not the element of index `i (k + 1)`, as it should be (but for the first one with the older versions). -/
theorem C116_step_by_violated (old : Bool) (s : FSeq) (h : FState s) (k i : Nat) (h1 : k * s.step < INF)
    (h2 : s.t + ((i * k + (if old then 1 else 0) : Nat) : Int) * s.step < INF) :
    s.stepItem old k i = .ok (some (s.t + ((i * k + (if old then 1 else 0) : Nat) : Int) * s.step)) ∧
    (0 < i ∨ old = false → s.stepItem old k i ≠ s.item (i * (k + 1))) := by
  have h3 := h.2.2.1
  have main : s.stepItem old k i = .ok (some (s.t + ((i * k + (if old then 1 else 0) : Nat) : Int) * s.step)) := by
    cases i with
    | zero =>
      show (do let r ← FStepBy.next old ⟨s, k, true⟩; return r.1) = _
      unfold FStepBy.next
      cases old with
      | true =>
        simp only [if_true, Nat.zero_mul, Nat.zero_add, Int.natCast_one, Int.one_mul] at h2 ⊢
        rw [FSeq.next_eq h, if_pos h2]
        rfl
      | false =>
        have := fseq_nth h (n := 0) (by simp; ticks) (by simpa using h2)
        simp only [if_true, Bool.false_eq_true, if_false, Nat.zero_mul, Nat.zero_add] at h2 ⊢
        rw [this]
        rfl
    | succ i =>
      show (do let r ← FStepBy.next old ⟨s, k, true⟩; itemOf (FStepBy.next old) i r.2) = _
      have e2 : 0 ≤ (((i + 1) * k : Nat) : Int) * s.step := Int.mul_nonneg (by omega) (by omega)
      unfold FStepBy.next
      cases old with
      | true =>
        have e : (((i + 1) * k + 1 : Nat) : Int) * s.step = s.step + ((i + 1) * k : Nat) * s.step := by grind
        simp only [if_true] at h2 ⊢
        rw [e] at h2 ⊢
        rw [FSeq.next_eq h, if_pos (by omega), if_pos (by omega)]
        have := fstep_rest true k i (s := ⟨s.t + s.step, s.step⟩) ⟨by have := h.1; simp only; omega, by simp only; omega, h3, h.2.2.2⟩ h1
          (by simp only; omega)
        simp only at this
        rw [← Int.add_assoc]
        exact this
      | false =>
        simp only [if_true, Bool.false_eq_true, if_false, Nat.add_zero] at h2 ⊢
        rw [fseq_nth h (n := 0) (by simp; ticks) (by simp; omega)]
        have := fstep_rest false k i (s := ⟨s.t + (0 : Nat) * s.step, s.step⟩) (by simpa using h) h1 (by simp only; omega)
        simp only [Int.natCast_zero, Int.zero_mul, Int.add_zero] at this
        simp only [Int.natCast_zero, Int.zero_mul, Int.add_zero]
        exact this
  refine ⟨main, fun hi => ?_⟩
  rw [main, FSeq.item_eq _ h]
  intro c
  by_cases d : s.t + (((i * (k + 1) : Nat) : Int) + 1) * s.step < INF
  · rw [if_pos d] at c
    injection c with c
    injection c with c
    have : ((i * k + (if old then 1 else 0) : Nat) : Int) = ((i * (k + 1) : Nat) : Int) + 1 :=
      Int.eq_of_mul_eq_mul_right (show s.step ≠ 0 by omega) (by omega)
    rw [Nat.mul_add, Nat.mul_one] at this
    split at this
    · rcases hi with hi | hi
      · omega
      · simp_all
    · omega
  · rw [if_neg d] at c
    injection c with c
    cases c

/-- C116: in particular `step_by(1)` yields the same date forever. -/
theorem C116_step_by_one_violated (old : Bool) (s : FSeq) (h : FState s) (h2 : s.t + s.step < INF) (i : Nat) :
    s.stepItem old 0 i = s.stepItem old 0 0 := by
  have h3 := h.2.2.1
  have e0 : 0 ≤ s.step := by omega
  rw [(C116_step_by_violated old s h 0 i (by simp; ticks) (by cases old <;> simp <;> omega)).1,
    (C116_step_by_violated old s h 0 0 (by simp; ticks) (by cases old <;> simp <;> omega)).1, Nat.mul_zero, Nat.mul_zero]

example : FState ⟨93, 7⟩ ∧ FSeq.len ⟨93, 7⟩ = .ok 1317624576693539387 ∧
    (List.range 3).map (FSeq.item ⟨93, 7⟩) = [.ok (some 100), .ok (some 107), .ok (some 114)] ∧
    (List.range 3).map (FSeq.skipItem ⟨93, 7⟩ 2) = [.ok (some 107), .ok (some 114), .ok (some 121)] ∧
    (List.range 3).map (FSeq.stepItem false ⟨93, 7⟩ 2) = [.ok (some 93), .ok (some 107), .ok (some 121)] ∧
    (List.range 3).map (FSeq.stepItem true ⟨93, 7⟩ 2) = [.ok (some 100), .ok (some 114), .ok (some 128)] := by decide +kernel

/-! ## Backward sequences -/

/-- C116, partial: `skip(0)` changes nothing, and when `n` is greater than `len()` both `skip(n)` and the elements from the `n`-th on are nothing,
forever. Missing: the other `n`, see `C116_backward_skip_violated`. -/
theorem C116_backward_skip_partial (s : BSeq) (h : BState s) (n : Nat) (l : Int) (hl : s.len = .ok l) :
    (∀ i, s.skipItem 0 i = s.item i) ∧ (l < n → ∀ i, s.skipItem n i = .ok none ∧ s.item (n + i) = .ok none) := by
  refine ⟨fun i => bskip_zero i h, fun hn i => ?_⟩
  have e : ∀ m : Nat, l < m → s.nth m = .ok (none, { s with t := -INF }) := fun m hm => by
    rw [BSeq.nth, hl, ok_bind, if_pos hm]; rfl
  have hit : ∀ m : Nat, l < m → s.item m = .ok none := fun m hm => by
    obtain ⟨l', hl', hiff, -⟩ := C55_backward_exact_partial s h m
    rw [hl] at hl'
    cases hl'
    obtain ⟨o, s', k1, k2, -⟩ := hiff.2 hm
    rw [e m hm] at k1
    cases k1
    exact k2
  have hl0 : 0 ≤ l := by
    obtain ⟨k1, k2, k3, k4⟩ := h
    have := BSeq.len_eq (s := s) ⟨k1, k2, k3, k4⟩
    rw [hl] at this
    injection this with this
    rw [this]
    split
    · exact Int.ediv_nonneg (by omega) (by omega)
    · have : 0 ≤ 1 / s.step := Int.ediv_nonneg (by omega) (by omega)
      ticks
  have h' : BState { s with t := -INF } := ⟨Int.le_refl _, by show -INF < INF; decide, h.2.2.1, h.2.2.2⟩
  obtain ⟨a, b⟩ := bskip_of (by omega) h' (e n hn)
  refine ⟨?_, hit _ (by omega)⟩
  cases i with
  | zero => exact a
  | succ i =>
    have := Int.mul_nonneg (show 0 ≤ (i : Int) + 1 by omega) (show 0 ≤ s.step by have := h.2.2.1; omega)
    rw [b, BSeq.item_eq _ h', if_neg (by simp only; omega)]

/-- C116 is violated by every `skip(n)` which leaves an element: it skips `n - 1` elements instead of `n`. So the first element it yields is
one it should have skipped. -/
theorem C116_backward_skip_violated (s : BSeq) (h : BState s) (n : Nat) (hn : 0 < n) (h1 : n * s.step < INF) (h2 : -INF < s.t - n * s.step) :
    (∀ i, s.skipItem n i = s.item (n - 1 + i)) ∧ s.skipItem n 0 ≠ s.item n := by
  have h3 := h.2.2.1
  have e0 : 0 ≤ (n : Int) * s.step := Int.mul_nonneg (by omega) (by omega)
  have h' : BState ⟨s.t - n * s.step, s.step⟩ := ⟨by simp only; omega, by have := h.2.1; simp only; omega, h3, h.2.2.2⟩
  obtain ⟨a, b⟩ := bskip_of hn h' (bseq_nth h h1 h2)
  have e1 : ((n - 1 : Nat) : Int) + 1 = n := by omega
  refine ⟨fun i => ?_, ?_⟩
  · cases i with
    | zero => rw [a, Nat.add_zero, BSeq.item_eq _ h, e1, if_pos h2]
    | succ i =>
      rw [b, BSeq.item_eq _ h', BSeq.item_eq _ h]
      simp only
      have : (((n - 1 + (i + 1) : Nat) : Int) + 1) * s.step = n * s.step + ((i : Int) + 1) * s.step := by
        rw [show ((n - 1 + (i + 1) : Nat) : Int) + 1 = n + (i + 1) by omega, Int.add_mul]
      rw [this, Int.sub_sub]
  · rw [a, BSeq.item_eq _ h]
    have : ((n : Int) + 1) * s.step = n * s.step + s.step := by grind
    intro c
    injection c with c
    rw [this] at c
    split at c
    · injection c with c; omega
    · cases c

/-- C116 is violated by every `step_by(k + 1)`: it advances by `k` periods at each call, and starts one element too early (with the older versions of the
library it starts where it should). So its `i`-th element is not the element of index `i (k + 1)`, as it should be (but for the first one with the older versions). -/
theorem C116_backward_step_by_violated (old : Bool) (s : BSeq) (h : BState s) (k i : Nat) (h1 : k * s.step < INF)
    (h2 : -INF < s.t - ((i * k + (if old then 1 else 0) : Nat) : Int) * s.step) :
    s.stepItem old k i = .ok (some (s.t - ((i * k + (if old then 1 else 0) : Nat) : Int) * s.step)) ∧
    (0 < i ∨ old = false → s.stepItem old k i ≠ s.item (i * (k + 1))) := by
  have h3 := h.2.2.1
  have main : s.stepItem old k i = .ok (some (s.t - ((i * k + (if old then 1 else 0) : Nat) : Int) * s.step)) := by
    cases i with
    | zero =>
      show (do let r ← BStepBy.next old ⟨s, k, true⟩; return r.1) = _
      unfold BStepBy.next
      cases old with
      | true =>
        simp only [if_true, Nat.zero_mul, Nat.zero_add, Int.natCast_one, Int.one_mul] at h2 ⊢
        rw [BSeq.next_eq h, if_pos h2]
        rfl
      | false =>
        have := bseq_nth h (n := 0) (by simp; ticks) (by simpa using h2)
        simp only [if_true, Bool.false_eq_true, if_false, Nat.zero_mul, Nat.zero_add] at h2 ⊢
        rw [this]
        rfl
    | succ i =>
      show (do let r ← BStepBy.next old ⟨s, k, true⟩; itemOf (BStepBy.next old) i r.2) = _
      have e2 : 0 ≤ (((i + 1) * k : Nat) : Int) * s.step := Int.mul_nonneg (by omega) (by omega)
      unfold BStepBy.next
      cases old with
      | true =>
        have e : (((i + 1) * k + 1 : Nat) : Int) * s.step = s.step + ((i + 1) * k : Nat) * s.step := by grind
        simp only [if_true] at h2 ⊢
        rw [e] at h2 ⊢
        rw [BSeq.next_eq h, if_pos (by omega), if_pos (by omega)]
        have := bstep_rest true k i (s := ⟨s.t - s.step, s.step⟩) ⟨by simp only; omega, by have := h.2.1; simp only; omega, h3, h.2.2.2⟩ h1
          (by simp only; omega)
        simp only at this
        rw [← Int.sub_sub]
        exact this
      | false =>
        simp only [if_true, Bool.false_eq_true, if_false, Nat.add_zero] at h2 ⊢
        rw [bseq_nth h (n := 0) (by simp; ticks) (by simp; omega)]
        have := bstep_rest false k i (s := ⟨s.t - (0 : Nat) * s.step, s.step⟩) (by simpa using h) h1 (by simp only; omega)
        simp only [Int.natCast_zero, Int.zero_mul, Int.sub_zero] at this
        simp only [Int.natCast_zero, Int.zero_mul, Int.sub_zero]
        exact this
  refine ⟨main, fun hi => ?_⟩
  rw [main, BSeq.item_eq _ h]
  intro c
  by_cases d : -INF < s.t - (((i * (k + 1) : Nat) : Int) + 1) * s.step
  · rw [if_pos d] at c
    injection c with c
    injection c with c
    have : ((i * k + (if old then 1 else 0) : Nat) : Int) = ((i * (k + 1) : Nat) : Int) + 1 :=
      Int.eq_of_mul_eq_mul_right (show s.step ≠ 0 by omega) (by omega)
    rw [Nat.mul_add, Nat.mul_one] at this
    split at this
    · rcases hi with hi | hi
      · omega
      · simp_all
    · omega
  · rw [if_neg d] at c
    injection c with c
    cases c

/-- C116: in particular `step_by(1)` yields the same date forever. -/
theorem C116_backward_step_by_one_violated (old : Bool) (s : BSeq) (h : BState s) (h2 : -INF < s.t - s.step) (i : Nat) :
    s.stepItem old 0 i = s.stepItem old 0 0 := by
  have h3 := h.2.2.1
  have e0 : 0 ≤ s.step := by omega
  rw [(C116_backward_step_by_violated old s h 0 i (by simp; ticks) (by cases old <;> simp <;> omega)).1,
    (C116_backward_step_by_violated old s h 0 0 (by simp; ticks) (by cases old <;> simp <;> omega)).1, Nat.mul_zero, Nat.mul_zero]

example : BState ⟨107, 7⟩ ∧
    (List.range 3).map (BSeq.item ⟨107, 7⟩) = [.ok (some 100), .ok (some 93), .ok (some 86)] ∧
    (List.range 3).map (BSeq.skipItem ⟨107, 7⟩ 2) = [.ok (some 93), .ok (some 86), .ok (some 79)] ∧
    (List.range 3).map (BSeq.stepItem false ⟨107, 7⟩ 2) = [.ok (some 107), .ok (some 93), .ok (some 79)] := by decide +kernel

end Chrono
