import Verif.Spec.Shift
import Verif.Lemmas.Set

/-!
# Moving the origin of time: every step of the set operations commutes with it
-/

namespace Chrono
open Spec

/-- dates at most `W` ticks from 0 and their neighbours do not overflow when they are moved by `d` -/
structure Room (d W : Int) : Prop where
  pos : 0 ≤ W
  up : W + 2 + d < INF
  down : W + 2 - d < INF
  wide : W + 2 < INF

theorem near_mono {W W' x : Int} (h : Near W x) (hw : W ≤ W') : Near W' x := by
  unfold Near at *; omega

theorem later_lt {d W x y : Int} (r : Room d W) (hx : Near (W + 1) x) (hy : Near (W + 1) y) :
    later d x < later d y ↔ x < y := by
  have := r.up; have := r.down; have := r.wide; have := r.pos
  unfold later Near at *
  split <;> split <;> ticks

theorem later_le {d W x y : Int} (r : Room d W) (hx : Near (W + 1) x) (hy : Near (W + 1) y) :
    later d x ≤ later d y ↔ x ≤ y := by
  have := later_lt r hy hx
  omega

theorem later_eq {d W x y : Int} (r : Room d W) (hx : Near (W + 1) x) (hy : Near (W + 1) y) :
    later d x = later d y ↔ x = y := by
  have := later_lt r hy hx
  have := later_lt r hx hy
  omega

theorem later_jb {d W x : Int} (r : Room d W) (hx : Near W x) : justBefore (later d x) = later d (justBefore x) := by
  have := r.up; have := r.down; have := r.wide; have := r.pos
  unfold later Near justBefore isFinite at *
  simp only [bne_iff_ne, ne_eq]
  repeat' split
  all_goals ticks

theorem later_ja {d W x : Int} (r : Room d W) (hx : Near W x) : justAfter (later d x) = later d (justAfter x) := by
  have := r.up; have := r.down; have := r.wide; have := r.pos
  unfold later Near justAfter isFinite at *
  simp only [bne_iff_ne, ne_eq]
  repeat' split
  all_goals ticks

theorem near_jb {W x : Int} (hx : Near W x) : Near (W + 1) (justBefore x) := by
  unfold Near justBefore isFinite at *
  simp only [bne_iff_ne, ne_eq]
  split <;> ticks

theorem near_ja {W x : Int} (hx : Near W x) : Near (W + 1) (justAfter x) := by
  unfold Near justAfter isFinite at *
  simp only [bne_iff_ne, ne_eq]
  split <;> ticks

theorem near_inf {W : Int} : Near W INF := Or.inl rfl
theorem near_ninf {W : Int} : Near W (-INF) := Or.inr (Or.inl rfl)
theorem later_inf {d : Int} : later d INF = INF := if_pos (Or.inl rfl)
theorem later_ninf {d : Int} : later d (-INF) = -INF := if_pos (Or.inr rfl)

theorem later_fut {d W x : Int} (r : Room d W) (hx : Near (W + 1) x) : isFutureInfinite (later d x) = isFutureInfinite x := by
  have h := later_eq r hx (near_inf (W := W + 1))
  rw [later_inf] at h
  unfold isFutureInfinite
  by_cases e : x = INF
  · rw [h.2 e, e]
  · simp only [beq_eq_false_iff_ne.2 e, beq_eq_false_iff_ne.2 (fun e' => e (h.1 e'))]

theorem later_past {d W x : Int} (r : Room d W) (hx : Near (W + 1) x) : isPastInfinite (later d x) = isPastInfinite x := by
  have h := later_eq r hx (near_ninf (W := W + 1))
  rw [later_ninf] at h
  unfold isPastInfinite
  by_cases e : x = -INF
  · rw [h.2 e, e]
  · simp only [beq_eq_false_iff_ne.2 e, beq_eq_false_iff_ne.2 (fun e' => e (h.1 e'))]

theorem later_min {d W x y : Int} (r : Room d W) (hx : Near (W + 1) x) (hy : Near (W + 1) y) :
    min (later d x) (later d y) = later d (min x y) := by
  have := later_le r hx hy
  rw [Int.min_def, Int.min_def]
  by_cases h : x ≤ y
  · rw [if_pos h, if_pos (this.2 h)]
  · rw [if_neg h, if_neg (fun e => h (this.1 e))]

/-- the bounds of an interval are near -/
def NearIv (W : Int) (i : Iv) : Prop := Near W i.lower ∧ Near W i.upper

theorem NearIv.mono {W W' : Int} {i : Iv} (h : NearIv W i) (hw : W ≤ W') : NearIv W' i := ⟨near_mono h.1 hw, near_mono h.2 hw⟩
theorem nearSet_mono {W W' : Int} {s : List Iv} (h : NearSet W s) (hw : W ≤ W') : NearSet W' s := fun i hi =>
  NearIv.mono (h i hi) hw

theorem nearSet_cons {W : Int} {i : Iv} {s : List Iv} : NearSet W (i :: s) ↔ NearIv W i ∧ NearSet W s :=
  List.forall_mem_cons
theorem nearSet_nil {W : Int} : NearSet W [] := fun _ h => absurd h List.not_mem_nil
theorem nearSet_append {W : Int} {a b : List Iv} : NearSet W (a ++ b) ↔ NearSet W a ∧ NearSet W b := List.forall_mem_append

def Turn.later (d : Int) : Turn → Turn
  | .ret o => .ret (o.map (laterIv d))
  | .loop => .loop

def Turn.Near (W : Int) : Turn → Prop
  | .ret (some x) => NearIv W x
  | _ => True

namespace UnionIter

def later (d : Int) (s : UnionIter) : UnionIter := ⟨laterSet d s.i, laterSet d s.j, s.state, laterIv d s.tmp⟩

structure Near (W : Int) (s : UnionIter) : Prop where
  i : NearSet W s.i
  j : NearSet W s.j
  tmp : NearIv W s.tmp

theorem step_later {d W : Int} (r : Room d W) {s : UnionIter} (h : s.Near W) :
    (s.later d).step = (s.step.1.later d, s.step.2.later d) := by
  rcases s with ⟨i, j, st, tmp⟩
  obtain ⟨hi, hj, ht⟩ := h
  have up : ∀ {x}, Spec.Near W x → Spec.Near (W + 1) x := fun h => near_mono h (by omega)
  cases st
  case init =>
    cases i with
    | nil => cases j <;> rfl
    | cons x xs =>
      cases j with
      | nil => rfl
      | cons y ys =>
        have hx := (nearSet_cons.1 hi).1
        have hy := (nearSet_cons.1 hj).1
        simp only [later, laterSet, List.map_cons, step, laterIv, later_jb r hx.1, later_jb r hy.1,
          later_lt r (up hx.2) (near_jb hy.1), later_lt r (up hy.2) (near_jb hx.1), later_le r (up hx.2) (up hy.2),
          later_min r (up hx.1) (up hy.1)]
        split
        · rfl
        · split
          · rfl
          · split <;> rfl
  case waitI =>
    cases i with
    | nil => rfl
    | cons x xs =>
      have hx := (nearSet_cons.1 hi).1
      simp only [later, laterSet, List.map_cons, step, laterIv, later_jb r hx.1, later_jb r ht.1, gt_iff_lt,
        later_lt r (up hx.2) (near_jb ht.1), later_lt r (up ht.2) (near_jb hx.1), later_le r (up hx.2) (up ht.2),
        later_lt r (up hx.1) (up ht.1)]
      split
      · rfl
      · split
        · rfl
        · split
          · split <;> rfl
          · split <;> rfl
  case waitJ =>
    cases j with
    | nil => rfl
    | cons x xs =>
      have hx := (nearSet_cons.1 hj).1
      simp only [later, laterSet, List.map_cons, step, laterIv, later_jb r hx.1, later_jb r ht.1, gt_iff_lt,
        later_lt r (up hx.2) (near_jb ht.1), later_lt r (up ht.2) (near_jb hx.1), later_le r (up hx.2) (up ht.2),
        later_lt r (up hx.1) (up ht.1)]
      split
      · rfl
      · split
        · rfl
        · split
          · split <;> rfl
          · split <;> rfl
  case onlyI => cases i <;> rfl
  case onlyJ => cases j <;> rfl
  case done => rfl

theorem step_near {W : Int} {s : UnionIter} (h : s.Near W) : s.step.1.Near W ∧ s.step.2.Near W := by
  rcases s with ⟨i, j, st, tmp⟩
  obtain ⟨hi, hj, ht⟩ := h
  simp only at hi hj ht
  cases st
  case init =>
    cases i with
    | nil =>
      cases j with
      | nil => exact ⟨trivial, hi, hj, ht⟩
      | cons y ys => exact ⟨(nearSet_cons.1 hj).1, hi, (nearSet_cons.1 hj).2, ht⟩
    | cons x xs =>
      obtain ⟨hx, hxs⟩ := nearSet_cons.1 hi
      cases j with
      | nil => exact ⟨hx, hxs, hj, ht⟩
      | cons y ys =>
        obtain ⟨hy, hys⟩ := nearSet_cons.1 hj
        have hm : Spec.Near W (min x.lower y.lower) := by
          rw [Int.min_def]; split
          · exact hx.1
          · exact hy.1
        simp only [step]
        split
        · exact ⟨hx, hxs, hys, hy⟩
        · split
          · exact ⟨hy, hxs, hys, hx⟩
          · split
            · exact ⟨trivial, hxs, hys, hm, hy.2⟩
            · exact ⟨trivial, hxs, hys, hm, hx.2⟩
  case waitI =>
    cases i with
    | nil => exact ⟨ht, hi, hj, ht⟩
    | cons x xs =>
      obtain ⟨hx, hxs⟩ := nearSet_cons.1 hi
      have hm : Spec.Near W (if tmp.lower > x.lower then x.lower else tmp.lower) := by
        split
        · exact hx.1
        · exact ht.1
      simp only [step]
      split
      · exact ⟨hx, hxs, hj, ht⟩
      · split
        · exact ⟨ht, hxs, hj, hx⟩
        · split
          · exact ⟨trivial, hxs, hj, hm, ht.2⟩
          · exact ⟨trivial, hxs, hj, hm, hx.2⟩
  case waitJ =>
    cases j with
    | nil => exact ⟨ht, hi, hj, ht⟩
    | cons x xs =>
      obtain ⟨hx, hxs⟩ := nearSet_cons.1 hj
      have hm : Spec.Near W (if tmp.lower > x.lower then x.lower else tmp.lower) := by
        split
        · exact hx.1
        · exact ht.1
      simp only [step]
      split
      · exact ⟨hx, hi, hxs, ht⟩
      · split
        · exact ⟨ht, hi, hxs, hx⟩
        · split
          · exact ⟨trivial, hi, hxs, hm, ht.2⟩
          · exact ⟨trivial, hi, hxs, hm, hx.2⟩
  case onlyI =>
    cases i with
    | nil => exact ⟨trivial, hi, hj, ht⟩
    | cons x xs => exact ⟨(nearSet_cons.1 hi).1, (nearSet_cons.1 hi).2, hj, ht⟩
  case onlyJ =>
    cases j with
    | nil => exact ⟨trivial, hi, hj, ht⟩
    | cons x xs => exact ⟨(nearSet_cons.1 hj).1, hi, (nearSet_cons.1 hj).2, ht⟩
  case done => exact ⟨trivial, hi, hj, ht⟩

theorem next_later {d W : Int} (r : Room d W) {s : UnionIter} (h : s.Near W) :
    (s.later d).next = (s.next.1.map (laterIv d), s.next.2.later d) ∧ s.next.2.Near W ∧ ∀ x, s.next.1 = some x → NearIv W x := by
  fun_induction next s with
  | case1 s o s' hs =>
    have e := step_later r h
    have n := step_near h
    rw [hs] at e n
    rw [next]
    split
    · rename_i o2 s2 h2; rw [e] at h2; cases h2
      exact ⟨rfl, n.2, fun x hx => by simp only at hx; subst hx; exact n.1⟩
    · rename_i s2 h2; rw [e] at h2; cases h2
  | case2 s s' hs ih =>
    have e := step_later r h
    have n := step_near h
    rw [hs] at e n
    rw [next]
    split
    · rename_i o2 s2 h2; rw [e] at h2; cases h2
    · rename_i s2 h2; rw [e] at h2; cases h2
      exact ih n.2

theorem drain_later {d W : Int} (r : Room d W) {s : UnionIter} (h : s.Near W) :
    (s.later d).drain = laterSet d s.drain ∧ NearSet W s.drain := by
  fun_induction drain s with
  | case1 s s' hs =>
    have e := (next_later r h).1
    rw [hs] at e
    rw [drain]
    split
    · exact ⟨rfl, nearSet_nil⟩
    · rename_i x s2 h2; rw [e] at h2; cases h2
  | case2 s x s' hs ih =>
    obtain ⟨e, n, nx⟩ := next_later r h
    rw [hs] at e n nx
    rw [drain]
    split
    · rename_i s2 h2; rw [e] at h2; cases h2
    · rename_i x2 s2 h2; rw [e] at h2; cases h2
      exact ⟨congrArg (_ :: ·) (ih n).1, nearSet_cons.2 ⟨nx x rfl, (ih n).2⟩⟩

end UnionIter

namespace InterIter

def later (d : Int) (s : InterIter) : InterIter := ⟨laterSet d s.i, laterSet d s.j, s.state, laterIv d s.tmp⟩

structure Near (W : Int) (s : InterIter) : Prop where
  i : NearSet W s.i
  j : NearSet W s.j
  tmp : NearIv W s.tmp

theorem step_later {d W : Int} (r : Room d W) {s : InterIter} (h : s.Near W) :
    (s.later d).step = (s.step.1.later d, s.step.2.later d) := by
  rcases s with ⟨i, j, st, tmp⟩
  obtain ⟨hi, hj, ht⟩ := h
  have up : ∀ {x}, Spec.Near W x → Spec.Near (W + 1) x := fun h => near_mono h (by omega)
  cases st
  case init =>
    cases i with
    | nil => cases j <;> rfl
    | cons x xs =>
      cases j with
      | nil => rfl
      | cons y ys =>
        have hx := (nearSet_cons.1 hi).1
        have hy := (nearSet_cons.1 hj).1
        simp only [later, laterSet, List.map_cons, step, laterIv, later_jb r hx.1, later_jb r hy.1, gt_iff_lt,
          later_lt r (up hx.2) (near_jb hy.1), later_lt r (up hy.2) (near_jb hx.1), later_le r (up hx.2) (up hy.2),
          later_lt r (up hx.1) (up hy.1), later_lt r (up hy.1) (up hx.1)]
        split
        · rfl
        · split
          · rfl
          · split
            · split <;> rfl
            · split <;> rfl
  case waitI =>
    cases i with
    | nil => rfl
    | cons x xs =>
      have hx := (nearSet_cons.1 hi).1
      simp only [later, laterSet, List.map_cons, step, laterIv, later_jb r hx.1, later_jb r ht.1, gt_iff_lt,
        later_lt r (up hx.2) (near_jb ht.1), later_lt r (up ht.2) (near_jb hx.1), later_le r (up hx.2) (up ht.2),
        later_lt r (up hx.1) (up ht.1), later_lt r (up ht.1) (up hx.1)]
      split
      · rfl
      · split
        · rfl
        · split
          · split <;> rfl
          · split <;> rfl
  case waitJ =>
    cases j with
    | nil => rfl
    | cons x xs =>
      have hx := (nearSet_cons.1 hj).1
      simp only [later, laterSet, List.map_cons, step, laterIv, later_jb r hx.1, later_jb r ht.1, gt_iff_lt,
        later_lt r (up hx.2) (near_jb ht.1), later_lt r (up ht.2) (near_jb hx.1), later_le r (up hx.2) (up ht.2),
        later_lt r (up hx.1) (up ht.1), later_lt r (up ht.1) (up hx.1)]
      split
      · rfl
      · split
        · rfl
        · split
          · split <;> rfl
          · split <;> rfl
  case done => rfl

theorem step_near {W : Int} {s : InterIter} (h : s.Near W) : s.step.1.Near W ∧ s.step.2.Near W := by
  rcases s with ⟨i, j, st, tmp⟩
  obtain ⟨hi, hj, ht⟩ := h
  simp only at hi hj ht
  have ite : ∀ {c : Prop} [Decidable c] {a b : Int}, Spec.Near W a → Spec.Near W b → Spec.Near W (if c then a else b) := by
    intro c _ a b ha hb
    split
    · exact ha
    · exact hb
  cases st
  case init =>
    cases i with
    | nil =>
      cases j with
      | nil => exact ⟨trivial, hi, hj, ht⟩
      | cons y ys => exact ⟨trivial, hi, (nearSet_cons.1 hj).2, ht⟩
    | cons x xs =>
      obtain ⟨hx, hxs⟩ := nearSet_cons.1 hi
      cases j with
      | nil => exact ⟨trivial, hxs, hj, ht⟩
      | cons y ys =>
        obtain ⟨hy, hys⟩ := nearSet_cons.1 hj
        simp only [step]
        split
        · exact ⟨trivial, hxs, hys, hy⟩
        · split
          · exact ⟨trivial, hxs, hys, hx⟩
          · split
            · exact ⟨⟨ite hy.1 hx.1, hx.2⟩, hxs, hys, hy⟩
            · exact ⟨⟨ite hx.1 hy.1, hy.2⟩, hxs, hys, hx⟩
  case waitI =>
    cases i with
    | nil => exact ⟨trivial, hi, hj, ht⟩
    | cons x xs =>
      obtain ⟨hx, hxs⟩ := nearSet_cons.1 hi
      simp only [step]
      split
      · exact ⟨trivial, hxs, hj, ht⟩
      · split
        · exact ⟨trivial, hxs, hj, hx⟩
        · split
          · exact ⟨⟨ite ht.1 hx.1, hx.2⟩, hxs, hj, ht⟩
          · exact ⟨⟨ite hx.1 ht.1, ht.2⟩, hxs, hj, hx⟩
  case waitJ =>
    cases j with
    | nil => exact ⟨trivial, hi, hj, ht⟩
    | cons x xs =>
      obtain ⟨hx, hxs⟩ := nearSet_cons.1 hj
      simp only [step]
      split
      · exact ⟨trivial, hi, hxs, ht⟩
      · split
        · exact ⟨trivial, hi, hxs, hx⟩
        · split
          · exact ⟨⟨ite ht.1 hx.1, hx.2⟩, hi, hxs, ht⟩
          · exact ⟨⟨ite hx.1 ht.1, ht.2⟩, hi, hxs, hx⟩
  case done => exact ⟨trivial, hi, hj, ht⟩

theorem next_later {d W : Int} (r : Room d W) {s : InterIter} (h : s.Near W) :
    (s.later d).next = (s.next.1.map (laterIv d), s.next.2.later d) ∧ s.next.2.Near W ∧ ∀ x, s.next.1 = some x → NearIv W x := by
  fun_induction next s with
  | case1 s o s' hs =>
    have e := step_later r h
    have n := step_near h
    rw [hs] at e n
    rw [next]
    split
    · rename_i o2 s2 h2; rw [e] at h2; cases h2
      exact ⟨rfl, n.2, fun x hx => by simp only at hx; subst hx; exact n.1⟩
    · rename_i s2 h2; rw [e] at h2; cases h2
  | case2 s s' hs ih =>
    have e := step_later r h
    have n := step_near h
    rw [hs] at e n
    rw [next]
    split
    · rename_i o2 s2 h2; rw [e] at h2; cases h2
    · rename_i s2 h2; rw [e] at h2; cases h2
      exact ih n.2

theorem drain_later {d W : Int} (r : Room d W) {s : InterIter} (h : s.Near W) :
    (s.later d).drain = laterSet d s.drain ∧ NearSet W s.drain := by
  fun_induction drain s with
  | case1 s s' hs =>
    have e := (next_later r h).1
    rw [hs] at e
    rw [drain]
    split
    · exact ⟨rfl, nearSet_nil⟩
    · rename_i x s2 h2; rw [e] at h2; cases h2
  | case2 s x s' hs ih =>
    obtain ⟨e, n, nx⟩ := next_later r h
    rw [hs] at e n nx
    rw [drain]
    split
    · rename_i s2 h2; rw [e] at h2; cases h2
    · rename_i x2 s2 h2; rw [e] at h2; cases h2
      exact ⟨congrArg (_ :: ·) (ih n).1, nearSet_cons.2 ⟨nx x rfl, (ih n).2⟩⟩

end InterIter

theorem laterIv_all {d : Int} : laterIv d Iv.all = Iv.all := by
  unfold laterIv Iv.all; simp only [later_inf, later_ninf]
theorem nearIv_all {W : Int} : NearIv W Iv.all := ⟨near_ninf, near_inf⟩
theorem laterIv_empty {d : Int} : laterIv d Iv.empty = Iv.empty := by
  unfold laterIv Iv.empty; simp only [later_inf, later_ninf]
theorem nearIv_empty {W : Int} : NearIv W Iv.empty := ⟨near_inf, near_ninf⟩

theorem union_drain_later {d W : Int} (r : Room d W) {a b : List Iv} (ha : NearSet W a) (hb : NearSet W b) :
    (UnionIter.new (laterSet d a) (laterSet d b)).drain = laterSet d (UnionIter.new a b).drain ∧
    NearSet W (UnionIter.new a b).drain := by
  have := UnionIter.drain_later r (s := UnionIter.new a b) ⟨ha, hb, nearIv_all⟩
  rwa [UnionIter.later, UnionIter.new, laterIv_all] at this

theorem inter_drain_later {d W : Int} (r : Room d W) {a b : List Iv} (ha : NearSet W a) (hb : NearSet W b) :
    (InterIter.new (laterSet d a) (laterSet d b)).drain = laterSet d (InterIter.new a b).drain ∧
    NearSet W (InterIter.new a b).drain := by
  have := InterIter.drain_later r (s := InterIter.new a b) ⟨ha, hb, nearIv_all⟩
  rwa [InterIter.later, InterIter.new, laterIv_all] at this

/-! ## Collecting -/

theorem isEmpty_later {d W : Int} (r : Room d W) {i : Iv} (h : NearIv W i) : (laterIv d i).isEmpty = i.isEmpty :=
  later_fut r (near_mono h.1 (by omega))

theorem iter_later {d W : Int} (r : Room d W) {i : Iv} (h : NearIv W i) :
    (Convex.iv (laterIv d i)).iter = laterSet d (Convex.iv i).iter ∧ NearSet W (Convex.iv i).iter := by
  unfold Convex.iter
  have e : (Convex.iv (laterIv d i)).isEmpty = (Convex.iv i).isEmpty := isEmpty_later r h
  rw [e]
  split
  · exact ⟨rfl, nearSet_nil⟩
  · exact ⟨rfl, nearSet_cons.2 ⟨h, nearSet_nil⟩⟩

theorem upperBound_later {d W : Int} {s : List Iv} (h : NearSet W s) :
    TSet.upperBound (laterSet d s) = later d (TSet.upperBound s) ∧ Near W (TSet.upperBound s) := by
  unfold TSet.upperBound laterSet
  rw [List.getLast?_map]
  cases e : s.getLast? with
  | none => exact ⟨later_ninf.symm, near_ninf⟩
  | some x => exact ⟨rfl, (h x (List.mem_of_getLast? e)).2⟩

theorem lowerBound_later {d W : Int} {s : List Iv} (h : NearSet W s) :
    TSet.lowerBound (laterSet d s) = later d (TSet.lowerBound s) ∧ Near W (TSet.lowerBound s) := by
  unfold TSet.lowerBound laterSet
  cases s with
  | nil => exact ⟨later_inf.symm, near_inf⟩
  | cons x s => exact ⟨rfl, (h x List.mem_cons_self).1⟩

/-- two results, the second `d` later -/
def LaterRes (d W : Int) (a b : Res TSet) : Prop := b = Except.map (laterSet d) a ∧ ∀ s, a = .ok s → NearSet W s

theorem laterRes_ok {d W : Int} {s : List Iv} (h : NearSet W s) : LaterRes d W (.ok s) (.ok (laterSet d s)) :=
  ⟨rfl, fun _ e => by cases e; exact h⟩

theorem fold_later {α : Type} {d W : Int} {f g : TSet → α → Res TSet} {m : α → α} {P : α → Prop}
    (h : ∀ s a, NearSet W s → P a → LaterRes d W (f s a) (g (laterSet d s) (m a))) :
    ∀ (l : List α) (s : TSet), NearSet W s → (∀ a ∈ l, P a) →
      LaterRes d W (l.foldlM f s) ((l.map m).foldlM g (laterSet d s))
  | [], s, hs, _ => laterRes_ok hs
  | a :: l, s, hs, hl => by
    obtain ⟨e, n⟩ := h s a hs (hl a List.mem_cons_self)
    rw [List.map_cons, List.foldlM_cons, List.foldlM_cons, e]
    cases e2 : f s a with
    | error x => exact ⟨rfl, fun _ e => by cases e⟩
    | ok s' => exact fold_later h l s' (n s' e2) fun a ha => hl a (List.mem_cons_of_mem _ ha)

theorem fromIterFuel_later {d W : Int} (r : Room d W) :
    ∀ (k : Nat) (l : List Iv), NearSet W l → LaterRes d W (TSet.fromIterFuel k l) (TSet.fromIterFuel k (laterSet d l))
  | 0, _, _ => ⟨rfl, fun _ e => by cases e⟩
  | _ + 1, [], _ => laterRes_ok nearSet_nil
  | k + 1, x :: xs, h => by
    obtain ⟨hx, hxs⟩ := nearSet_cons.1 h
    have first : TSet.ofConvex (.iv (laterIv d x)) = laterSet d (TSet.ofConvex (.iv x)) ∧ NearSet W (TSet.ofConvex (.iv x)) :=
      iter_later r hx
    change LaterRes d W _ (TSet.fromIterFuel (k + 1) (laterIv d x :: laterSet d xs))
    unfold TSet.fromIterFuel
    rw [first.1]
    refine fold_later (P := NearIv W) (fun s i hs hi => ?_) xs _ first.2 hxs
    obtain ⟨e, n⟩ := upperBound_later (d := d) hs
    have c : (laterIv d i).lower > justAfter (TSet.upperBound (laterSet d s)) ↔ i.lower > justAfter (TSet.upperBound s) := by
      rw [e, later_ja r n]
      exact later_lt r (near_ja n) (near_mono hi.1 (by omega))
    simp only [c]
    split
    · have : laterSet d s ++ [laterIv d i] = laterSet d (s ++ [i]) := by unfold laterSet; rw [List.map_append]; rfl
      rw [this]
      exact laterRes_ok (nearSet_append.2 ⟨hs, nearSet_cons.2 ⟨hi, nearSet_nil⟩⟩)
    · obtain ⟨e1, n1⟩ := iter_later r hi
      obtain ⟨e2, n2⟩ := union_drain_later r hs n1
      rw [e1, e2]
      exact fromIterFuel_later r k _ n2

theorem fromIter_later {d W : Int} (r : Room d W) {l : List Iv} (h : NearSet W l) :
    LaterRes d W (TSet.fromIter l) (TSet.fromIter (laterSet d l)) := by
  unfold TSet.fromIter
  have : (laterSet d l).length = l.length := by unfold laterSet; exact List.length_map ..
  rw [this]
  exact fromIterFuel_later r _ l h

theorem union_later {d W : Int} (r : Room d W) {a b : TSet} (ha : NearSet W a) (hb : NearSet W b) :
    LaterRes d W (TSet.union a b) (TSet.union (laterSet d a) (laterSet d b)) := by
  unfold TSet.union
  rw [(union_drain_later r ha hb).1]
  exact fromIter_later r (union_drain_later r ha hb).2

theorem inter_later {d W : Int} (r : Room d W) {a b : TSet} (ha : NearSet W a) (hb : NearSet W b) :
    LaterRes d W (TSet.inter a b) (TSet.inter (laterSet d a) (laterSet d b)) := by
  unfold TSet.inter
  rw [(inter_drain_later r ha hb).1]
  exact fromIter_later r (inter_drain_later r ha hb).2

end Chrono
