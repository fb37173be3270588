import Verif.Props.Collect
import Verif.Props.Seq
import Verif.Lemmas.Loose
import Verif.Spec.Recur

/-!
# Recurring slots (C145)

`t.forward_sequence(p).take(n).map(|x| x + span).collect::<TimeSlots>()`: the same slot, repeated with a period.
-/

namespace Chrono
open Spec

/-- the slots around `b`, `b + d`, `b + 2d`, … -/
def around (b d : Int) (s : Iv) (n : Nat) : List Iv := (List.range n).map fun (k : Nat) => ⟨b + k * d + s.lower, b + k * d + s.upper⟩

theorem around_take (b d : Int) (s : Iv) (n j : Nat) (h : j ≤ n) : (around b d s n).take j = around b d s j := by
  unfold around
  rw [← List.map_take, List.take_range, Nat.min_eq_left h]

theorem around_succ (b d : Int) (s : Iv) (n : Nat) :
    around b d s (n + 1) = ⟨b + s.lower, b + s.upper⟩ :: around (b + d) d s n := by
  unfold around
  rw [List.range_succ_eq_map, List.map_cons, List.map_map]
  congr 1
  · simp
  · apply List.map_congr_left
    intro k _
    have e : ((k + 1 : Nat) : Int) * d = d + k * d := by grind
    simp only [Function.comp, Nat.succ_eq_add_one, e, Int.add_assoc]

theorem mem_around {b d : Int} {s : Iv} {n : Nat} {i : Iv} :
    i ∈ around b d s n ↔ ∃ k : Nat, k < n ∧ i = ⟨b + k * d + s.lower, b + k * d + s.upper⟩ := by
  unfold around
  simp only [List.mem_map, List.mem_range]
  exact ⟨fun ⟨k, h, e⟩ => ⟨k, h, e.symm⟩, fun ⟨k, h, e⟩ => ⟨k, h, e.symm⟩⟩

theorem inSet_around {b d : Int} {s : Iv} {n : Nat} {x : Int} :
    InSet x (around b d s n) ↔ ∃ k : Nat, k < n ∧ b + k * d + s.lower ≤ x ∧ x ≤ b + k * d + s.upper := by
  constructor
  · rintro ⟨i, hi, h⟩
    obtain ⟨k, hk, rfl⟩ := mem_around.1 hi
    exact ⟨k, hk, h⟩
  · rintro ⟨k, hk, h⟩
    exact ⟨_, mem_around.2 ⟨k, hk, rfl⟩, h⟩

theorem tsAddSpan_fin {dbg : Bool} {t : Int} {s : Iv} (ht : Date t) (hl : Date s.lower) (hu : Date s.upper) (hs : s.lower ≤ s.upper)
    (h1 : -INF < t + s.lower) (h2 : t + s.upper < INF) : Iv.tsAddSpan dbg t s = .ok ⟨t + s.lower, t + s.upper⟩ := by
  unfold Iv.tsAddSpan
  rw [tvAdd_fin ht hl, ok_bind, tvAdd_fin ht hu, ok_bind]
  rw [round_of_date ⟨h1, by omega⟩, round_of_date ⟨by omega, h2⟩, new_eq (by omega) (by omega), if_pos (by omega)]
  unfold Iv.debugNonEmpty
  have e : (⟨t + s.lower, t + s.upper⟩ : Iv).isEmpty = false := by
    rw [← Bool.not_eq_true, Iv.isEmpty_iff]; simp only; omega
  rw [e, Bool.and_false]
  rfl

theorem fslots_eq {dbg : Bool} {s : Iv} (hl : Date s.lower) (hu : Date s.upper) (hs : s.lower ≤ s.upper) (n : Nat) :
    ∀ {q : FSeq}, FState q → (∀ k : Nat, k < n → q.t + q.step + k * q.step < INF ∧ -INF < q.t + q.step + k * q.step + s.lower ∧
      q.t + q.step + k * q.step + s.upper < INF) → q.slots dbg s n = .ok (around (q.t + q.step) q.step s n) := by
  induction n with
  | zero => intro q _ _; rfl
  | succ n ih =>
    intro q hq h
    have h0 := h 0 (by omega)
    simp only [Int.natCast_zero, Int.zero_mul, Int.add_zero] at h0
    obtain ⟨a1, a2, a3, a4⟩ := hq
    unfold FSeq.slots
    rw [FSeq.next_eq ⟨a1, a2, a3, a4⟩, ok_bind, if_pos h0.1, if_pos h0.1]
    simp only
    rw [tsAddSpan_fin ⟨by omega, h0.1⟩ hl hu hs h0.2.1 h0.2.2, ok_bind, ih (q := ⟨q.t + q.step, q.step⟩) ⟨by simp only; omega, by simp only; omega, a3, a4⟩
      (fun k hk => ?_), ok_bind, around_succ]
    · rfl
    · have := h (k + 1) (by omega)
      have e : ((k + 1 : Nat) : Int) * q.step = q.step + k * q.step := by grind
      rw [e, ← Int.add_assoc] at this
      exact this

theorem bslots_eq {dbg : Bool} {s : Iv} (hl : Date s.lower) (hu : Date s.upper) (hs : s.lower ≤ s.upper) (n : Nat) :
    ∀ {q : BSeq}, BState q → (∀ k : Nat, k < n → -INF < q.t - q.step + k * -q.step ∧ -INF < q.t - q.step + k * -q.step + s.lower ∧
      q.t - q.step + k * -q.step + s.upper < INF) → q.slots dbg s n = .ok (around (q.t - q.step) (-q.step) s n) := by
  induction n with
  | zero => intro q _ _; rfl
  | succ n ih =>
    intro q hq h
    have h0 := h 0 (by omega)
    simp only [Int.natCast_zero, Int.zero_mul, Int.add_zero] at h0
    obtain ⟨a1, a2, a3, a4⟩ := hq
    unfold BSeq.slots
    rw [BSeq.next_eq ⟨a1, a2, a3, a4⟩, ok_bind, if_pos h0.1, if_pos h0.1]
    simp only
    rw [tsAddSpan_fin ⟨h0.1, by omega⟩ hl hu hs h0.2.1 h0.2.2, ok_bind, ih (q := ⟨q.t - q.step, q.step⟩) ⟨by simp only; omega, by simp only; omega, a3, a4⟩
      (fun k hk => ?_), ok_bind, around_succ]
    · rfl
    · have := h (k + 1) (by omega)
      have e : ((k + 1 : Nat) : Int) * -q.step = -q.step + k * -q.step := by grind
      rw [e, ← Int.add_assoc, ← Int.sub_eq_add_neg] at this
      exact this

/-- slots which leave no gap cover everything from the first to the last -/
theorem covered {b p lo hi x : Int} (hw : p ≤ hi - lo + 1) (hp : 0 < p) (n : Nat) :
    (∃ k : Nat, k < n + 1 ∧ b + k * p + lo ≤ x ∧ x ≤ b + k * p + hi) ↔ b + lo ≤ x ∧ x ≤ b + n * p + hi := by
  constructor
  · rintro ⟨k, hk, h1, h2⟩
    have e1 : 0 ≤ (k : Int) * p := Int.mul_nonneg (by omega) (by omega)
    have e2 : (k : Int) * p ≤ n * p := Int.mul_le_mul_of_nonneg_right (by omega) (by omega)
    omega
  · rintro ⟨h1, h2⟩
    induction n with
    | zero => exact ⟨0, by omega, by simp only [Int.natCast_zero, Int.zero_mul, Int.add_zero] at *; omega⟩
    | succ n ih =>
      have e : ((n + 1 : Nat) : Int) * p = n * p + p := by grind
      rw [e] at h2
      by_cases c : b + (n * p + p) + lo ≤ x
      · exact ⟨n + 1, by omega, by rw [e]; omega⟩
      · obtain ⟨k, hk, h⟩ := ih (by omega)
        exact ⟨k, by omega, h⟩

theorem covered_back {b p lo hi x : Int} (hw : p ≤ hi - lo + 1) (hp : 0 < p) (n : Nat) :
    (∃ k : Nat, k < n + 1 ∧ b + k * -p + lo ≤ x ∧ x ≤ b + k * -p + hi) ↔ b + n * -p + lo ≤ x ∧ x ≤ b + hi := by
  have e : ∀ k : Nat, k < n + 1 → b + n * -p + (n - k : Nat) * p = b + k * -p := by
    intro k hk
    rw [Int.ofNat_sub (by omega)]; grind
  have c := covered (b := b + n * -p) (x := x) hw hp n
  have e0 : b + n * -p + n * p = b := by grind
  rw [e0] at c
  rw [← c]
  constructor
  · rintro ⟨k, hk, h⟩
    exact ⟨n - k, by omega, by rw [e k hk]; exact h⟩
  · rintro ⟨k, hk, h⟩
    have := e (n - k) (by omega)
    rw [Nat.sub_sub_self (by omega)] at this
    rw [this] at h
    exact ⟨n - k, by omega, h⟩

/-- C145. `t.forward_sequence(p).take(n).map(|x| x + span).collect()` is the canonical set of the dates which `span` allows after one of
`t`, `t + p`, …, `t + (n-1)p`. It has `n` intervals if the period leaves a gap between two slots, and a single one otherwise. -/
theorem C145_forward (dbg : Bool) (t p : Int) (s : Iv) (n : Nat) (ht : Date t) (hp : 0 < p) (hp' : p < INF) (h : -INF < t - p)
    (hl : Date s.lower) (hu : Date s.upper) (hs : s.lower ≤ s.upper) (h1 : -INF < t + s.lower)
    (h2 : ∀ k : Nat, k < n → t + k * p < INF ∧ t + k * p + s.upper < INF) :
    ∃ q l r, forwardSequence t p = .ok q ∧ q.slots dbg s n = .ok l ∧ TSet.fromIter l = .ok r ∧ Canon r ∧
      (∀ x, InSet x r ↔ ∃ k : Nat, k < n ∧ t + k * p + s.lower ≤ x ∧ x ≤ t + k * p + s.upper) ∧
      r.length = if n = 0 then 0 else if s.upper - s.lower + 1 < p then n else 1 := by
  have nn : ∀ k : Nat, 0 ≤ (k : Int) * p := fun k => Int.mul_nonneg (by omega) (by omega)
  have hwf : ∀ i ∈ around t p s n, WF i := by
    intro i hi
    obtain ⟨k, hk, rfl⟩ := mem_around.1 hi
    have := h2 k hk
    have := nn k
    constructor <;> simp only <;> omega
  have lt : ∀ a b : Nat, a < b → (a : Int) * p + p ≤ b * p := by
    intro a b hab
    have := Int.mul_le_mul_of_nonneg_right (a := (a : Int) + 1) (b := b) (c := p) (by omega) (by omega)
    rw [Int.add_mul, Int.one_mul] at this
    exact this
  have pw : ∀ R : Iv → Iv → Prop, (∀ a b : Nat, a < b → b < n → R ⟨t + a * p + s.lower, t + a * p + s.upper⟩
      ⟨t + b * p + s.lower, t + b * p + s.upper⟩) → (around t p s n).Pairwise R := by
    intro R hR
    unfold around
    rw [List.pairwise_map, List.pairwise_iff_getElem]
    intro i j hi hj hij
    simp only [List.getElem_range]
    exact hR i j hij (by rwa [List.length_range] at hj)
  obtain ⟨r, e, hc, hr⟩ := C38_collect_partial (around t p s n) hwf (pw _ (fun a b hab _ => by
    have := lt a b hab; simp only; omega))
  have hr' : ∀ x, InSet x r ↔ ∃ k : Nat, k < n ∧ t + k * p + s.lower ≤ x ∧ x ≤ t + k * p + s.upper :=
    fun x => (hr x).trans inSet_around
  refine ⟨⟨t - p, p⟩, around t p s n, r, ?_, ?_, e, hc, hr', ?_⟩
  · unfold forwardSequence; rw [FSeq.new_eq ht hp hp', if_pos h]
  · have := fslots_eq (dbg := dbg) hl hu hs n (q := ⟨t - p, p⟩) ⟨by simp only; ticks, by simp only; ticks, hp, hp'⟩ (by
      intro k hk
      have := h2 k hk
      have := nn k
      have e : t - p + p = t := by omega
      simp only [e]; omega)
    have e : t - p + p = t := by omega
    simp only [e] at this
    exact this
  · split
    · rename_i c
      subst c
      have : r = [] := canon_ext hc ⟨by simp, by simp⟩ (fun x => by rw [hr' x]; simp [InSet])
      rw [this]; rfl
    · split
      · rename_i c c'
        have : r = around t p s n := canon_ext hc ⟨hwf, pw _ (fun a b hab _ => by have := lt a b hab; simp only; omega)⟩ hr
        rw [this, around, List.length_map, List.length_range]
      · rename_i c c'
        obtain ⟨m, rfl⟩ : ∃ m, n = m + 1 := ⟨n - 1, by omega⟩
        have hm := h2 m (by omega)
        have := nn m
        have : r = [⟨t + s.lower, t + m * p + s.upper⟩] := by
          refine canon_ext hc ⟨?_, List.pairwise_singleton _ _⟩ (fun x => ?_)
          · intro i hi
            rw [List.mem_singleton.1 hi]
            constructor <;> simp only <;> omega
          · rw [hr' x, covered (by omega) hp]
            simp [InSet, InIv]
        rw [this]; rfl

/-- the intervals of a backward sequence -/
theorem backward_slots (dbg : Bool) (t p : Int) (s : Iv) (n : Nat) (ht : Date t) (hp : 0 < p) (hp' : p < INF) (h : -INF < t - p)
    (hl : Date s.lower) (hu : Date s.upper) (hs : s.lower ≤ s.upper) (h1 : t - 2 * p + s.upper < INF)
    (h2 : ∀ k : Nat, k < n → -INF < t - (k + 2) * p ∧ -INF < t - (k + 2) * p + s.lower) :
    ∃ q, backwardSequence t p = .ok q ∧ q.slots dbg s n = .ok (around (t - 2 * p) (-p) s n) ∧ ∀ i ∈ around (t - 2 * p) (-p) s n, WF i := by
  have nn : ∀ k : Nat, 0 ≤ (k : Int) * p := fun k => Int.mul_nonneg (by omega) (by omega)
  have ek : ∀ k : Nat, t - ((k : Int) + 2) * p = t - 2 * p + k * -p := by intro k; grind
  have ek' : ∀ k : Nat, (k : Int) * -p = -(k * p) := by intro k; grind
  refine ⟨⟨t - p, p⟩, ?_, ?_, ?_⟩
  · unfold backwardSequence; rw [BSeq.new_eq ht hp hp', if_pos h]
  · have := bslots_eq (dbg := dbg) hl hu hs n (q := ⟨t - p, p⟩) ⟨by simp only; ticks, by simp only; ticks, hp, hp'⟩ (by
      intro k hk
      have := nn k
      have e : t - p - p = t - 2 * p := by omega
      have q := h2 k hk
      rw [ek] at q
      have := ek' k
      simp only [e]; omega)
    have e : t - p - p = t - 2 * p := by omega
    simp only [e] at this
    exact this
  · intro i hi
    obtain ⟨k, hk, rfl⟩ := mem_around.1 hi
    have := h2 k hk
    have := nn k
    have := ek' k
    have := ek k
    constructor <;> simp only <;> omega

/-- C145 is violated by the backward sequences whose period leaves a gap between two slots: whatever the number of dates, only the slots of
the last two are collected. -/
theorem C145_backward_violated (dbg : Bool) (t p : Int) (s : Iv) (n : Nat) (ht : Date t) (hp : 0 < p) (hp' : p < INF) (h : -INF < t - p)
    (hl : Date s.lower) (hu : Date s.upper) (hs : s.lower ≤ s.upper) (h1 : t - 2 * p + s.upper < INF)
    (h2 : ∀ k : Nat, k < n + 2 → -INF < t - (k + 2) * p ∧ -INF < t - (k + 2) * p + s.lower) (hg : s.upper - s.lower + 1 < p) :
    ∃ q l, backwardSequence t p = .ok q ∧ q.slots dbg s (n + 2) = .ok l ∧ l.length = n + 2 ∧
      TSet.fromIter l = .ok [⟨t - (n + 3) * p + s.lower, t - (n + 3) * p + s.upper⟩, ⟨t - (n + 2) * p + s.lower, t - (n + 2) * p + s.upper⟩] := by
  obtain ⟨q, e1, e2, hwf⟩ := backward_slots dbg t p s (n + 2) ht hp hp' h hl hu hs h1 h2
  refine ⟨q, _, e1, e2, by simp [around], ?_⟩
  have split : around (t - 2 * p) (-p) s (n + 2) = around (t - 2 * p) (-p) s n ++
      [⟨t - (n + 2) * p + s.lower, t - (n + 2) * p + s.upper⟩, ⟨t - (n + 3) * p + s.lower, t - (n + 3) * p + s.upper⟩] := by
    have x1 : t - ((n : Int) + 2) * p = t - 2 * p + n * -p := by grind
    have x2 : t - ((n : Int) + 3) * p = t - 2 * p + (n + 1 : Nat) * -p := by grind
    rw [x1, x2]
    simp only [around, List.range_succ, List.map_append, List.map_cons, List.map_nil, List.append_assoc, List.cons_append, List.nil_append]
  have pw : (around (t - 2 * p) (-p) s (n + 2)).Pairwise (fun a b => b.upper + 1 < a.lower) := by
    unfold around
    rw [List.pairwise_map, List.pairwise_iff_getElem]
    intro i j hi hj hij
    simp only [List.getElem_range]
    have := Int.mul_le_mul_of_nonneg_right (a := (i : Int) + 1) (b := j) (c := p) (by omega) (by omega)
    rw [Int.add_mul, Int.one_mul] at this
    have y1 : (i : Int) * -p = -(i * p) := by grind
    have y2 : (j : Int) * -p = -(j * p) := by grind
    omega
  rw [split] at hwf pw ⊢
  exact C38_collect_decreasing_violated _ _ _ hwf pw

/-- C145, partial: a backward sequence whose period leaves no gap between two slots is collected in a single interval, with all the dates
(counted from its first date, `t - 2p`, see C56). Missing: the periods which leave a gap, see `C145_backward_violated`. -/
theorem C145_backward_partial (dbg : Bool) (t p : Int) (s : Iv) (n : Nat) (ht : Date t) (hp : 0 < p) (hp' : p < INF) (h : -INF < t - p)
    (hl : Date s.lower) (hu : Date s.upper) (hs : s.lower ≤ s.upper) (h1 : t - 2 * p + s.upper < INF)
    (h2 : ∀ k : Nat, k < n + 1 → -INF < t - (k + 2) * p ∧ -INF < t - (k + 2) * p + s.lower) (hg : p ≤ s.upper - s.lower + 1) :
    ∃ q l, backwardSequence t p = .ok q ∧ q.slots dbg s (n + 1) = .ok l ∧ l.length = n + 1 ∧
      TSet.fromIter l = .ok [⟨t - (n + 2) * p + s.lower, t - 2 * p + s.upper⟩] := by
  obtain ⟨q, e1, e2, hwf⟩ := backward_slots dbg t p s (n + 1) ht hp hp' h hl hu hs h1 h2
  refine ⟨q, _, e1, e2, by simp [around], ?_⟩
  have iv : ∀ m x, InSet x (around (t - 2 * p) (-p) s (m + 1)) ↔ t - 2 * p + m * -p + s.lower ≤ x ∧ x ≤ t - 2 * p + s.upper :=
    fun m x => inSet_around.trans (covered_back hg hp m)
  obtain ⟨r, e, hr⟩ := (C38_lossless_exact _ hwf).2 (by
    intro P w Q hl x g u _ hx hu' ix iu
    have hP : P = around (t - 2 * p) (-p) s P.length := by
      have := congrArg (List.take P.length) hl
      rw [List.take_left, around_take _ _ _ _ _ (by
        have := congrArg List.length hl
        simp only [around, List.length_map, List.length_range, List.length_append, List.length_cons] at this
        omega)] at this
      exact this.symm
    cases hm : P.length with
    | zero => rw [List.length_eq_zero_iff.1 hm] at ix; obtain ⟨_, h, _⟩ := ix; cases h
    | succ m =>
      rw [hm] at hP
      rw [hP, iv] at ix iu ⊢
      omega) _ [] (List.append_nil _).symm
  obtain ⟨r', e', hc, _⟩ := C38_collect_left _ hwf
  rw [e] at e'
  cases e'
  rw [e]
  have q := h2 n (by omega)
  have x1 : t - ((n : Int) + 2) * p = t - 2 * p + n * -p := by grind
  have x2 : (n : Int) * -p = -(n * p) := by grind
  have x3 : 0 ≤ (n : Int) * p := Int.mul_nonneg (by omega) (by omega)
  congr 1
  refine canon_ext hc ⟨?_, List.pairwise_singleton _ _⟩ (fun x => ?_)
  · intro i hi
    rw [List.mem_singleton.1 hi]
    constructor <;> simp only <;> omega
  · rw [hr x, iv, x1]
    simp [InSet, InIv]

/-! ## Examples -/

/-- an hour each day, for a week -/
example : ∃ q l r, forwardSequence 0 86400000 = .ok q ∧ q.slots true ⟨0, 3600000⟩ 7 = .ok l ∧ TSet.fromIter l = .ok r ∧ r.length = 7 := by
  obtain ⟨q, l, r, h1, h2, h3, _, _, h4⟩ := C145_forward true 0 86400000 ⟨0, 3600000⟩ 7 (by decide) (by decide) (by decide) (by decide)
    (by decide) (by decide) (by decide) (by decide) (fun k hk => by simp only; ticks)
  exact ⟨q, l, r, h1, h2, h3, h4⟩

/-- the same one going back in time: two days are left -/
example : ∃ q l r, backwardSequence 0 86400000 = .ok q ∧ q.slots true ⟨0, 3600000⟩ 7 = .ok l ∧ TSet.fromIter l = .ok r ∧ r.length = 2 := by
  obtain ⟨q, l, h1, h2, _, h3⟩ := C145_backward_violated true 0 86400000 ⟨0, 3600000⟩ 5 (by decide) (by decide) (by decide) (by decide)
    (by decide) (by decide) (by decide) (by decide) (fun k hk => by simp only; ticks) (by decide)
  exact ⟨q, l, _, h1, h2, h3, rfl⟩

/-- two days, each day: no gap -/
example : ∃ q l r, backwardSequence 0 86400000 = .ok q ∧ q.slots true ⟨0, 172800000⟩ 7 = .ok l ∧ TSet.fromIter l = .ok r ∧ r.length = 1 := by
  obtain ⟨q, l, h1, h2, _, h3⟩ := C145_backward_partial true 0 86400000 ⟨0, 172800000⟩ 6 (by decide) (by decide) (by decide) (by decide)
    (by decide) (by decide) (by decide) (by decide) (fun k hk => by simp only; ticks) (by decide)
  exact ⟨q, l, _, h1, h2, h3, rfl⟩

end Chrono
