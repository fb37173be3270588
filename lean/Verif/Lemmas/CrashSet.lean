import Verif.Spec.CrashSet
import Verif.Lemmas.Crash
import Verif.Lemmas.Hoare
import Verif.Lemmas.Overflow

/-!
# Interrupted compound assignments: lemmas
-/

set_option linter.unusedSimpArgs false

namespace Chrono
open Spec

/-! ## What is left -/

theorem getLastD_append {S : Type} (l m : List S) (s : S) : (l ++ m).getLastD s = m.getLastD (l.getLastD s) := by
  induction l generalizing s with
  | nil => rfl
  | cons x l ih =>
    show (x :: (l ++ m)).getLastD s = m.getLastD ((x :: l).getLastD s)
    rw [List.getLastD_cons, List.getLastD_cons, ih]

theorem getLastD_map {S T : Type} (c : S → T) : ∀ (l : List S) (s : S), (l.map c).getLastD (c s) = c (l.getLastD s)
  | [], _ => rfl
  | x :: l, _ => by rw [List.map_cons, List.getLastD_cons, List.getLastD_cons, getLastD_map]

theorem left_bind_ok {S α β : Type} {s : S} {x : Run S α} {f : α → Run S β} {a : α} (h : x.res = .ok a) :
    left s (x >>= f) = left (left s x) (f a) := by
  rw [Run.bind_def]
  unfold Run.bind
  rw [h]
  exact getLastD_append _ _ _

theorem left_bind_error {S α β : Type} {s : S} {x : Run S α} {f : α → Run S β} {e : Panic} (h : x.res = .error e) :
    left s (x >>= f) = left s x := by
  rw [Run.bind_def]
  unfold Run.bind
  rw [h]
  rfl

theorem left_under {S T α : Type} (c : S → T) (s : S) (t : Run S α) : left (c s) (t.under c) = c (left s t) := getLastD_map _ _ _

theorem left_put_ok {S : Type} (s s' : S) : left s (Run.put (.ok s')) = s' := rfl

theorem left_put_error {S : Type} (s : S) (e : Panic) : left s (Run.put (.error e)) = s := rfl

/-! ## Loops over the intervals -/

theorem forEachT_res {f : Iv → Run Iv Iv} {g : Iv → Res Iv} (hg : ∀ i, (f i).res = g i) : ∀ (l b : List Iv),
    (TSet.forEachT f b l).res = (do return b ++ (← l.mapM g))
  | [], b => by
    show Except.ok b = Except.ok (b ++ [])
    rw [List.append_nil]
  | x :: l, b => by
    unfold TSet.forEachT
    rw [Run.res_bind, List.mapM_cons]
    show ((f x).res >>= fun y => (TSet.forEachT f (b ++ [y]) l).res) = _
    rw [hg]
    cases g x with
    | error e => rfl
    | ok y =>
      show (TSet.forEachT f (b ++ [y]) l).res = _
      rw [forEachT_res hg l]
      show _ = (do return b ++ (← (do let ys ← l.mapM g; return y :: ys)))
      cases l.mapM g with
      | error e => rfl
      | ok ys =>
        show Except.ok _ = Except.ok _
        rw [List.append_assoc]
        rfl

/-- If the loop panics, the intervals before some interval have been changed, those after it have not. -/
theorem forEachT_error {f : Iv → Run Iv Iv} {g : Iv → Res Iv} (hg : ∀ i, (f i).res = g i) (hl : ∀ i y, g i = .ok y → left i (f i) = y) :
    ∀ (l b : List Iv) {e : Panic}, (TSet.forEachT f b l).res = .error e → ∃ a x c ys, l = a ++ x :: c ∧ a.mapM g = .ok ys ∧
      g x = .error e ∧ left (b ++ l) (TSet.forEachT f b l) = b ++ ys ++ left x (f x) :: c
  | [], _, _, h => nomatch h
  | x :: l, b, e, h => by
    unfold TSet.forEachT at h ⊢
    have hr : ((f x).under (fun x => b ++ x :: l)).res = g x := hg x
    have hu : left (b ++ x :: l) ((f x).under (fun x => b ++ x :: l)) = b ++ left x (f x) :: l := left_under (fun x => b ++ x :: l) x (f x)
    rw [Run.res_bind, hr] at h
    cases hx : g x with
    | error e' =>
      rw [hx] at h hr
      obtain rfl : e' = e := Except.error.inj h
      refine ⟨[], x, l, [], rfl, rfl, hx, ?_⟩
      rw [left_bind_error hr, hu, List.append_nil]
    | ok y =>
      rw [hx] at h hr
      obtain ⟨a, z, c, ys, h1, h2, h3, h4⟩ := forEachT_error hg hl l (b ++ [y]) h
      refine ⟨x :: a, z, c, y :: ys, by rw [h1]; rfl, ?_, h3, ?_⟩
      · rw [List.mapM_cons, hx, h2]; rfl
      · rw [left_bind_ok hr, hu, hl x y hx, show b ++ y :: l = b ++ [y] ++ l by simp, h4]
        simp

/-- The same, for a given interval. -/
theorem forEachT_at {f : Iv → Run Iv Iv} {g : Iv → Res Iv} (hg : ∀ i, (f i).res = g i) (hl : ∀ i y, g i = .ok y → left i (f i) = y)
    {x : Iv} {e : Panic} (hx : g x = .error e) (c : List Iv) : ∀ (a b : List Iv) {ys : List Iv}, a.mapM g = .ok ys →
      (TSet.forEachT f b (a ++ x :: c)).res = .error e ∧
      left (b ++ (a ++ x :: c)) (TSet.forEachT f b (a ++ x :: c)) = b ++ ys ++ left x (f x) :: c
  | [], b, ys, h => by
    cases h
    have hr : ((f x).under (fun x => b ++ x :: c)).res = .error e := (hg x).trans hx
    unfold TSet.forEachT
    refine ⟨?_, ?_⟩
    · show (_ >>= _ : Run TSet TSet).res = _
      rw [Run.res_bind, hr]; rfl
    · show left (b ++ x :: c) (_ >>= _) = b ++ [] ++ left x (f x) :: c
      rw [left_bind_error hr, List.append_nil]
      exact left_under (fun x => b ++ x :: c) x (f x)
  | i :: a, b, ys, h => by
    rw [List.mapM_cons] at h
    obtain ⟨y, e1, h⟩ := bind_ok h
    obtain ⟨zs, e2, h⟩ := bind_ok h
    cases h
    obtain ⟨k1, k2⟩ := forEachT_at hg hl hx c a (b ++ [y]) e2
    have hr : ((f i).under (fun z => b ++ z :: (a ++ x :: c))).res = .ok y := (hg i).trans e1
    have hu : left (b ++ i :: (a ++ x :: c)) ((f i).under (fun z => b ++ z :: (a ++ x :: c))) = b ++ left i (f i) :: (a ++ x :: c) :=
      left_under (fun z => b ++ z :: (a ++ x :: c)) i (f i)
    rw [List.cons_append]
    unfold TSet.forEachT
    refine ⟨?_, ?_⟩
    · rw [Run.res_bind, hr]
      exact k1
    · rw [left_bind_ok hr, hu, hl i y e1, show b ++ y :: (a ++ x :: c) = b ++ [y] ++ (a ++ x :: c) by simp, k2]
      simp

/-! ## Translations -/

theorem notPoint_eq (l u : Int) :
    (⟨l, u⟩ : Iv).notPoint = if l != u || !isFinite l then .ok ⟨l, u⟩ else .error .assertFail := rfl

theorem addAssignSpanT_res (i s : Iv) : (i.addAssignSpanT s).res = i.addAssignSpan s := by
  unfold Iv.addAssignSpanT Iv.addAssignSpan
  simp only [Run.res_bind, Run.res_put, Run.res_lift]
  cases tvAdd i.lower s.lower with
  | error e => rfl
  | ok l =>
    show ((do return (⟨l, ← tvAdd i.upper s.upper⟩ : Iv)) >>= fun i => i.notPoint) = (do
      let u ← tvAdd i.upper s.upper
      if l != u || !isFinite l then .ok ⟨l, u⟩ else .error .assertFail)
    cases tvAdd i.upper s.upper with
    | error e => rfl
    | ok u => rfl

theorem addAssignTvT_eq (i : Iv) (d : Int) : i.addAssignTvT d = i.addAssignSpanT ⟨d, d⟩ := rfl
theorem subAssignTvT_eq (i : Iv) (d : Int) : i.subAssignTvT d = i.addAssignSpanT ⟨-d, -d⟩ := rfl
theorem subAssignSpanT_eq (i s : Iv) : i.subAssignSpanT s = i.addAssignSpanT ⟨-s.upper, -s.lower⟩ := rfl
theorem addAssignTv_eq (i : Iv) (d : Int) : i.addAssignTv d = i.addAssignSpan ⟨d, d⟩ := rfl
theorem subAssignTv_eq (i : Iv) (d : Int) : i.subAssignTv d = i.addAssignSpan ⟨-d, -d⟩ := rfl
theorem subAssignSpan_eq (i s : Iv) : i.subAssignSpan s = i.addAssignSpan ⟨-s.upper, -s.lower⟩ := rfl

/-- what is left by `+=`, when the sums of the bounds do not panic -/
theorem left_addAssignSpanT {i s : Iv} {l u : Int} (h1 : tvAdd i.lower s.lower = .ok l) (h2 : tvAdd i.upper s.upper = .ok u) (x : Iv) :
    left x (i.addAssignSpanT s) = ⟨l, u⟩ := by
  unfold Iv.addAssignSpanT
  rw [h1]
  rw [left_bind_ok (a := ⟨l, i.upper⟩) rfl]
  dsimp only
  rw [h2]
  rw [left_bind_ok (a := ⟨l, u⟩) rfl]
  rfl

/-- when `+=` returns, what is left is what it returns -/
theorem addAssignSpanT_left {i s y : Iv} (h : i.addAssignSpan s = .ok y) (x : Iv) : left x (i.addAssignSpanT s) = y := by
  unfold Iv.addAssignSpan at h
  cases h1 : tvAdd i.lower s.lower with
  | error e => rw [h1] at h; cases h
  | ok l =>
    rw [h1] at h
    cases h2 : tvAdd i.upper s.upper with
    | error e => rw [h2] at h; cases h
    | ok u =>
      rw [h2] at h
      change (if l != u || !isFinite l then Except.ok ⟨l, u⟩ else Except.error Panic.assertFail) = Except.ok y at h
      split at h
      · cases h; exact left_addAssignSpanT h1 h2 x
      · cases h

theorem addAssignTvSet_res (s : TSet) (d : Int) : (s.addAssignTvT d).res = s.addAssignTv d := by
  unfold TSet.addAssignTvT TSet.addAssignTv
  have h : ∀ i : Iv, (i.addAssignTvT d).res = i.addAssignTv d := fun i => by
    rw [addAssignTvT_eq, addAssignTv_eq, addAssignSpanT_res]
  rw [forEachT_res (g := fun tw => tw.addAssignTv d) h]
  cases s.mapM (fun tw => tw.addAssignTv d) <;> rfl

theorem subAssignTvSet_eq (s : TSet) (d : Int) : s.subAssignTvT d = s.addAssignTvT (-d) := rfl

theorem subAssignTvSet_res (s : TSet) (d : Int) : (s.subAssignTvT d).res = s.subAssignTv d := addAssignTvSet_res s (-d)

theorem shiftIv_sat {i : Iv} {d : Int} (hd : Date d) : shiftIv d i = satIv i ⟨d, d⟩ := by
  have h1 : ¬ d = -INF := by ticks
  have h2 : ¬ d = INF := by ticks
  simp only [shiftIv, satIv, h1, h2, or_false]

/-! ## Scaling -/

theorem mulSet_res (ty : Iv.ScaleTy) (s : TSet) (n : Int) : (s.mulAssignT ty n).res = s.mulAssign ty n := by
  unfold TSet.mulAssignT TSet.mulAssign
  split
  · split <;> rfl
  · rw [Run.res_bind, forEachT_res (g := fun tw => tw.mul ty n) (fun i => Run.res_put _)]
    cases s.mapM (fun tw => tw.mul ty n) with
    | error e => rfl
    | ok l =>
      show (if n < 0 then Run.put (.ok ([] ++ l).reverse) else pure ([] ++ l)).res = Except.ok (if n < 0 then l.reverse else l)
      split <;> rfl

theorem divSet_res (ty : Iv.ScaleTy) (s : TSet) (n : Int) : (s.divAssignT ty n).res = s.div ty n := by
  unfold TSet.divAssignT TSet.div
  split
  · rfl
  · rw [Run.res_bind, forEachT_res (g := fun tw => tw.div ty n) (fun i => Run.res_put _)]
    cases s.mapM (fun tw => tw.div ty n) with
    | error e => rfl
    | ok l => by_cases c : n < 0 <;> simp only [c, if_true, if_false] <;> rfl

theorem mulSetF_res (F : FTy) (s : TSet) (f : Fl) : (s.mulAssignFT F f).res = s.mulAssignF F f := by
  unfold TSet.mulAssignFT TSet.mulAssignF
  rw [Run.res_bind, forEachT_res (g := fun tw => tw.mulF F f) (fun i => Run.res_put _)]
  cases s.mapM (fun tw => tw.mulF F f) with
  | error e => rfl
  | ok l =>
    cases c : Fl.lt f Fl.zero <;> cases c' : Fl.lt f.abs (Fl.one F) <;> simp only [c, c', if_true, if_false, Bool.false_eq_true] <;> rfl

theorem put_left {f : Iv → Res Iv} : ∀ (i y : Iv), f i = .ok y → left i (Run.put (f i)) = y := by
  intro i y h
  rw [h]
  rfl

end Chrono
