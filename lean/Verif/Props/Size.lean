import Verif.Lemmas.Set
import Verif.Lemmas.Hoare
import Verif.Lemmas.SetRel
import Verif.Spec.Size

/-!
# How many pieces the results have, and how many turns they take (C139)
-/

namespace Chrono
open Spec

/-! ## Helper lemmas -/

theorem union_pieces (i j : List Iv) : (UnionIter.new i j).drain.length ≤ i.length + j.length :=
  UnionIter.drain_length _ (UnionIter.new i j) (Nat.le_refl _)

theorem inter_pieces (i j : List Iv) : (InterIter.new i j).drain.length ≤ i.length + j.length - 1 ∧
    (i = [] ∨ j = [] → (InterIter.new i j).drain = []) := by
  have stop : i = [] ∨ j = [] → (InterIter.new i j).drain = [] := by
    intro h
    rw [InterIter.drain_eq]
    rcases h with h | h
    · subst h; rfl
    · subst h; cases i <;> rfl
  refine ⟨?_, stop⟩
  cases i with
  | nil => rw [stop (.inl rfl)]; exact Nat.zero_le _
  | cons x i =>
    cases j with
    | nil => rw [stop (.inr rfl)]; exact Nat.zero_le _
    | cons y j =>
      rw [InterIter.drain_eq]
      have key : ∀ s : InterIter, s.drain.length ≤ s.i.length + s.j.length := fun s => InterIter.drain_length _ s (Nat.le_refl _)
      rcases h : (InterIter.new (x :: i) (y :: j)).step with ⟨t, s'⟩
      have hs : s'.i = i ∧ s'.j = j ∧ t ≠ .ret none := by
        simp only [InterIter.step, InterIter.new] at h
        (repeat' split at h) <;> cases h <;> exact ⟨rfl, rfl, by simp⟩
      have := key s'
      rw [hs.1, hs.2.1] at this
      cases t with
      | ret o =>
        cases o with
        | none => exact absurd rfl hs.2.2
        | some z => simp only [List.length_cons]; omega
      | loop => simp only [List.length_cons]; omega

theorem collect_fuel : ∀ (k : Nat) (l : List Iv) (r : TSet), TSet.fromIterFuel k l = .ok r → r.length ≤ l.length
  | 0, _, _, h => by cases h
  | _ + 1, [], _, h => by cases h; exact Nat.le_refl _
  | k + 1, x :: xs, r, h => by
    unfold TSet.fromIterFuel at h
    have key : ∀ (xs : List Iv) (a r : TSet), xs.foldlM (fun r i =>
        if i.lower > justAfter (TSet.upperBound r) then .ok (r ++ [i])
        else TSet.fromIterFuel k (UnionIter.new r (Convex.iv i).iter).drain) a = .ok r → r.length ≤ a.length + xs.length := by
      intro xs
      induction xs with
      | nil => intro a r h; cases h; exact Nat.le_refl _
      | cons y ys ih =>
        intro a r h
        rw [List.foldlM_cons] at h
        obtain ⟨b, h1, h2⟩ := bind_ok h
        have h3 := ih b r h2
        have h4 : b.length ≤ a.length + 1 := by
          split at h1
          · cases h1; simp
          · have h5 := collect_fuel k _ b h1
            have h6 := union_pieces a (Convex.iv y).iter
            have h7 : (Convex.iv y).iter.length ≤ 1 := by
              unfold Convex.iter
              split <;> simp
            omega
        simp only [List.length_cons]; omega
    have h1 := key xs _ r h
    have h2 : (TSet.ofConvex (.iv x)).length ≤ 1 := by
      unfold TSet.ofConvex
      split <;> simp
    simp only [List.length_cons]; omega

theorem mapM_pieces {α β : Type} {f : α → Res β} : ∀ {l : List α} {r : List β}, l.mapM f = .ok r → r.length = l.length
  | [], r, h => by cases h; rfl
  | x :: l, r, h => by
    rw [List.mapM_cons] at h
    obtain ⟨a, -, h⟩ := bind_ok h
    obtain ⟨b, h1, h⟩ := bind_ok h
    cases h
    simp [mapM_pieces h1]

theorem compl_tail_pieces : ∀ (l : List Iv) (p : Int), l.length ≤ (TSet.complTail p l).length ∧ (TSet.complTail p l).length ≤ l.length + 1
  | [], p => by
    unfold TSet.complTail
    split <;> simp
  | x :: l, p => by
    have := compl_tail_pieces l (justAfter x.upper)
    simp only [TSet.complTail, List.length_cons]
    omega

theorem joined_pieces (l : List Iv) : (TSet.checkJoined l).length ≤ l.length := by
  have key : ∀ (l : List Iv) (p : Iv), (TSet.checkJoined.go p l).length ≤ l.length + 1 := by
    intro l
    induction l with
    | nil => intro p; exact Nat.le_refl _
    | cons x l ih =>
      intro p
      unfold TSet.checkJoined.go
      split
      · have := ih ⟨p.lower, x.upper⟩; simp only [List.length_cons]; omega
      · have := ih x; simp only [List.length_cons]; omega
  cases l with
  | nil => exact Nat.le_refl _
  | cons x l => exact key l x

theorem mapLast_length (f : Iv → Iv) : ∀ l : List Iv, (TSet.mapLast f l).length = l.length
  | [] => rfl
  | [_] => rfl
  | x :: y :: xs => by
    have := mapLast_length f (y :: xs)
    simp only [TSet.mapLast, List.length_cons] at this ⊢
    omega

theorem pairs_length (a b : TSet) : (TSet.pairs a b).length = a.length * b.length := by
  unfold TSet.pairs
  induction a with
  | nil => simp
  | cons x a ih =>
    rw [List.flatMap_cons, List.length_append, ih, List.length_map, List.length_cons, Nat.succ_mul]
    omega

/-! ## C139 -/

/-- C139. Union, intersection, complement and exclusion, for any lists of intervals. -/
theorem C139_sets (a b r : TSet) :
    (TSet.union a b = .ok r → r.length ≤ a.length + b.length) ∧
    (TSet.inter a b = .ok r → r.length ≤ a.length + b.length - 1 ∧ (a = [] ∨ b = [] → r = [])) ∧
    (a.length - 1 ≤ (TSet.compl a).length ∧ (TSet.compl a).length ≤ a.length + 1) ∧
    (TSet.neg a).length = a.length := by
  refine ⟨fun h => ?_, fun h => ?_, ?_, ?_⟩
  · have := collect_fuel _ _ r h
    have := union_pieces a b
    omega
  · have h1 := collect_fuel _ _ r h
    obtain ⟨h2, h3⟩ := inter_pieces a b
    refine ⟨by omega, fun hn => ?_⟩
    rw [h3 hn] at h1
    exact List.eq_nil_of_length_eq_zero (by simpa using h1)
  · cases a with
    | nil => decide
    | cons x a =>
      have := compl_tail_pieces a (justAfter x.upper)
      simp only [TSet.compl]
      split <;> simp only [List.length_cons] <;> omega
  · unfold TSet.neg; simp

/-- C139. Translations and scalings. -/
theorem C139_arith (dbg : Bool) (a b r : TSet) (d n : Int) (sp : Iv) (ty : Iv.ScaleTy) :
    (TSet.addTv dbg a d = .ok r → r.length = a.length) ∧
    (TSet.addSpan dbg a sp = .ok r ∨ TSet.subSpan dbg a sp = .ok r → r.length ≤ a.length) ∧
    (TSet.addSpans dbg a b = .ok r ∨ TSet.subSpans dbg a b = .ok r → r.length ≤ a.length * b.length) ∧
    (TSet.mul ty a n = .ok r → r.length ≤ a.length) ∧
    (TSet.div ty a n = .ok r → r.length ≤ a.length) := by
  have fold : ∀ (f : Iv → Res Iv) (a acc r : TSet), a.foldlM (fun r i => do TSet.unionConvex r (.iv (← f i))) acc = .ok r →
      r.length ≤ acc.length + a.length := by
    intro f a
    induction a with
    | nil => intro acc r h; cases h; exact Nat.le_refl _
    | cons x a ih =>
      intro acc r h
      rw [List.foldlM_cons] at h
      obtain ⟨c, h1, h2⟩ := bind_ok h
      obtain ⟨y, -, h1⟩ := bind_ok h1
      have h3 := ih c r h2
      have h4 := collect_fuel _ _ c h1
      have h5 := union_pieces acc (Convex.iv (Convex.iv y).into).iter
      have h7 : (Convex.iv (Convex.iv y).into).iter.length ≤ 1 := by
        unfold Convex.iter
        split <;> simp
      simp only [List.length_cons]; omega
  have spans : ∀ f : Iv × Iv → Res Iv, (do TSet.fromIter (← (TSet.pairs a b).mapM f)) = .ok r → r.length ≤ a.length * b.length := by
    intro f h
    obtain ⟨l, h1, h2⟩ := bind_ok h
    have := mapM_pieces h1
    rw [pairs_length] at this
    have := collect_fuel _ _ r h2
    omega
  refine ⟨mapM_pieces, ?_, ?_, fun h => ?_, fun h => ?_⟩
  · rintro (h | h)
    · have := fold _ _ _ _ h; simpa using this
    · have := fold _ _ _ _ h; simpa using this
  · rintro (h | h)
    · exact spans _ h
    · exact spans _ h
  · unfold TSet.mul at h
    split at h
    · cases h
      cases a with
      | nil => exact Nat.le_refl _
      | cons x a => exact Nat.succ_le_succ (Nat.zero_le _)
    · obtain ⟨l, h1, h2⟩ := bind_ok h
      have h3 := mapM_pieces h1
      have h4 := List.length_filter_le (fun tw : Iv => !tw.isEmpty) l
      split at h2
      · cases h2; rw [List.length_reverse]; omega
      · cases h2; omega
  · unfold TSet.div at h
    split at h
    · cases h
    · obtain ⟨l, h1, h2⟩ := bind_ok h
      have h3 := mapM_pieces h1
      cases h2
      have h4 := joined_pieces (if n < 0 then l.reverse else l)
      split at h4
      · rename_i c; rw [if_pos c]; rw [List.length_reverse] at h4; omega
      · rename_i c; rw [if_neg c]; omega

/-- C139. Truncations and collections. -/
theorem C139_others (a r : TSet) (t : Int) (w : Convex) (l : List Iv) (ss : List TSet) :
    (TSet.truncateBefore a t).1.length ≤ a.length ∧ (TSet.truncateAfter a t).1.length ≤ a.length ∧
    (TSet.interAssignConvex a w).length ≤ a.length ∧
    (TSet.fromIter l = .ok r → r.length ≤ l.length) ∧
    (TSet.fromSets ss = .ok r → r.length ≤ (ss.map List.length).sum) := by
  have hb : ∀ (a : TSet) (t : Int), (TSet.truncateBefore a t).1.length ≤ a.length := by
    intro a t
    unfold TSet.truncateBefore
    split
    · cases a with
      | nil => exact Nat.le_refl _
      | cons x a => exact Nat.le_refl _
    · split
      · exact Nat.le_refl _
      · rename_i x xs e
        have := congrArg List.length e
        rw [List.length_drop] at this
        simp only [List.length_cons] at this ⊢
        omega
    · split
      · exact Nat.le_refl _
      · exact Nat.zero_le _
  have ha : ∀ (a : TSet) (t : Int), (TSet.truncateAfter a t).1.length ≤ a.length := by
    intro a t
    unfold TSet.truncateAfter
    split
    · split
      · split
        · exact Nat.le_refl _
        · rw [mapLast_length]; exact Nat.le_refl _
      · rw [mapLast_length, List.length_take]; exact Nat.min_le_right _ _
    · split
      · exact Nat.le_refl _
      · exact Nat.zero_le _
  refine ⟨hb a t, ha a t, Nat.le_trans (hb _ _) (ha _ _), collect_fuel _ _ r, fun h => ?_⟩
  cases ss with
  | nil => cases h; exact Nat.le_refl _
  | cons s ss =>
    have key : ∀ (ss : List TSet) (s r : TSet), ss.foldlM TSet.union s = .ok r → r.length ≤ s.length + (ss.map List.length).sum := by
      intro ss
      induction ss with
      | nil => intro s r h; cases h; simp
      | cons x ss ih =>
        intro s r h
        rw [List.foldlM_cons] at h
        obtain ⟨c, h1, h2⟩ := bind_ok h
        have h3 := ih c r h2
        have h4 := (C139_sets s x c).1 h1
        simp only [List.map_cons, List.sum_cons]
        omega
    have := key ss s r h
    simpa using this

/-- C139. Whatever the calculation, its result has at most the pieces it may have. -/
theorem C139_calculation (dbg : Bool) (c : Calc) : ∀ r, c.run dbg = .ok r → r.length ≤ c.pieces := by
  induction c with
  | set s => intro r h; cases h; exact Nat.le_refl _
  | or a b iha ihb =>
    intro r h
    obtain ⟨x, h1, h⟩ := bind_ok h
    obtain ⟨y, h2, h⟩ := bind_ok h
    have := iha x h1
    have := ihb y h2
    have := (C139_sets x y r).1 h
    simp only [Calc.pieces]; omega
  | and a b iha ihb =>
    intro r h
    obtain ⟨x, h1, h⟩ := bind_ok h
    obtain ⟨y, h2, h⟩ := bind_ok h
    have := iha x h1
    have := ihb y h2
    have := ((C139_sets x y r).2.1 h).1
    simp only [Calc.pieces]; omega
  | not a ih =>
    intro r h
    obtain ⟨x, h1, h⟩ := bind_ok h
    cases h
    have := ih x h1
    have := (C139_sets x [] []).2.2.1
    simp only [Calc.pieces]; omega
  | neg a ih =>
    intro r h
    obtain ⟨x, h1, h⟩ := bind_ok h
    cases h
    have := ih x h1
    have := (C139_sets x [] []).2.2.2
    simp only [Calc.pieces]; omega
  | shift a d ih =>
    intro r h
    obtain ⟨x, h1, h⟩ := bind_ok h
    have := ih x h1
    have := (C139_arith dbg x [] r d 0 Iv.all .small).1 h
    simp only [Calc.pieces]; omega
  | sum a b iha ihb =>
    intro r h
    obtain ⟨x, h1, h⟩ := bind_ok h
    obtain ⟨y, h2, h⟩ := bind_ok h
    have := Nat.mul_le_mul (iha x h1) (ihb y h2)
    have := (C139_arith dbg x y r 0 0 Iv.all .small).2.2.1 (.inl h)
    simp only [Calc.pieces]; omega
  | diff a b iha ihb =>
    intro r h
    obtain ⟨x, h1, h⟩ := bind_ok h
    obtain ⟨y, h2, h⟩ := bind_ok h
    have := Nat.mul_le_mul (iha x h1) (ihb y h2)
    have := (C139_arith dbg x y r 0 0 Iv.all .small).2.2.1 (.inr h)
    simp only [Calc.pieces]; omega
  | times a ty n ih =>
    intro r h
    obtain ⟨x, h1, h⟩ := bind_ok h
    have := ih x h1
    have := (C139_arith dbg x [] r 0 n Iv.all ty).2.2.2.1 h
    simp only [Calc.pieces]; omega
  | over a ty n ih =>
    intro r h
    obtain ⟨x, h1, h⟩ := bind_ok h
    have := ih x h1
    have := (C139_arith dbg x [] r 0 n Iv.all ty).2.2.2.2 h
    simp only [Calc.pieces]; omega
  | before a t ih =>
    intro r h
    obtain ⟨x, h1, h⟩ := bind_ok h
    cases h
    have := ih x h1
    have := (C139_others x [] t (.point 0) [] []).2.1
    simp only [Calc.pieces]; omega
  | after a t ih =>
    intro r h
    obtain ⟨x, h1, h⟩ := bind_ok h
    cases h
    have := ih x h1
    have := (C139_others x [] t (.point 0) [] []).1
    simp only [Calc.pieces]; omega

/-- C139. The lazy union and the lazy intersection of two lists of intervals take at most one turn of their loop for each interval, and a
last one. -/
theorem C139_turns (a b : List Iv) :
    (∃ n, Takes UnionIter.step (UnionIter.new a b) n ∧ n ≤ a.length + b.length + 1) ∧
    (∃ n, Takes InterIter.step (InterIter.new a b) n ∧ n ≤ a.length + b.length + 1) := by
  have hu : ∀ (m : Nat) (s : UnionIter), s.size ≤ m → ∃ n, Takes UnionIter.step s n ∧ n ≤ s.size + 1 := by
    intro m
    induction m with
    | zero =>
      intro s hs
      rcases h : s.step with ⟨t, s'⟩
      rcases t with (_ | x) | _
      · exact ⟨1, .last h, by omega⟩
      · have := UnionIter.step_some_size h; omega
      · have := UnionIter.step_loop_size h; omega
    | succ m ih =>
      intro s hs
      rcases h : s.step with ⟨t, s'⟩
      rcases t with (_ | x) | _
      · exact ⟨1, .last h, by omega⟩
      · have := UnionIter.step_some_size h
        obtain ⟨n, h1, h2⟩ := ih s' (by omega)
        exact ⟨n + 1, .item h h1, by omega⟩
      · have := UnionIter.step_loop_size h
        obtain ⟨n, h1, h2⟩ := ih s' (by omega)
        exact ⟨n + 1, .loop h h1, by omega⟩
  have hi : ∀ (m : Nat) (s : InterIter), s.size ≤ m → ∃ n, Takes InterIter.step s n ∧ n ≤ s.size + 1 := by
    intro m
    induction m with
    | zero =>
      intro s hs
      rcases h : s.step with ⟨t, s'⟩
      rcases t with (_ | x) | _
      · exact ⟨1, .last h, by omega⟩
      · have := InterIter.step_some_size h; omega
      · have := InterIter.step_loop_size h; omega
    | succ m ih =>
      intro s hs
      rcases h : s.step with ⟨t, s'⟩
      rcases t with (_ | x) | _
      · exact ⟨1, .last h, by omega⟩
      · have := InterIter.step_some_size h
        obtain ⟨n, h1, h2⟩ := ih s' (by omega)
        exact ⟨n + 1, .item h h1, by omega⟩
      · have := InterIter.step_loop_size h
        obtain ⟨n, h1, h2⟩ := ih s' (by omega)
        exact ⟨n + 1, .loop h h1, by omega⟩
  exact ⟨hu _ _ (Nat.le_refl _), hi _ _ (Nat.le_refl _)⟩

/-- C139. A set in order is as short as can be: no list of intervals with the same dates has fewer intervals. -/
theorem C139_shortest (s : TSet) (hs : Canon s) : ∀ (l : List Iv), (∀ t, Date t → (InSet t s ↔ InSet t l)) → s.length ≤ l.length := by
  induction s with
  | nil => intro l _; exact Nat.zero_le _
  | cons x s ih =>
    intro l h
    obtain ⟨wf, gap, cs⟩ := Canon_cons.1 hs
    obtain ⟨w1, w2, w3, w4, w5⟩ := wf
    obtain ⟨t, dt, tx⟩ : ∃ t, Date t ∧ InIv t x := by
      by_cases c : x.lower = -INF
      · by_cases c' : x.upper = INF
        · exact ⟨0, by ticks, by unfold InIv; ticks⟩
        · exact ⟨x.upper, by ticks, by unfold InIv; ticks⟩
      · exact ⟨x.lower, by ticks, by unfold InIv; ticks⟩
    obtain ⟨i, hi, ti⟩ := (h t dt).1 (InSet_cons.2 (.inl tx))
    cases s with
    | nil =>
      exact List.length_pos_of_mem hi
    | cons y s =>
      have gy := gap y (by simp)
      have wy := (cs.wf y (by simp))
      obtain ⟨v1, v2, v3, v4, v5⟩ := wy
      have dg : Date (x.upper + 1) := by ticks
      have out : ¬ InSet (x.upper + 1) (x :: y :: s) := by
        rw [InSet_cons]
        rintro (hx | ⟨z, hz, h1, h2⟩)
        · unfold InIv at hx; omega
        · have := gap z hz; omega
      -- an interval of `l` which goes beyond `x` does not meet it
      have far : ∀ j ∈ l, x.upper < j.upper → ∀ u, Date u → InIv u j → ¬ InIv u x := by
        intro j hj hu u _ huj hux
        refine out ((h _ dg).2 ⟨j, hj, ?_⟩)
        unfold InIv at huj hux ⊢
        omega
      have short : (l.filter (fun j => decide (x.upper < j.upper))).length < l.length := by
        rcases Nat.lt_or_eq_of_le (List.length_filter_le (fun j : Iv => decide (x.upper < j.upper)) l) with h1 | h1
        · exact h1
        · have h2 := List.length_filter_eq_length_iff.1 h1 i hi
          exact absurd tx (far i hi (of_decide_eq_true h2) t dt ti)
      have := ih cs (l.filter (fun j => decide (x.upper < j.upper))) (fun u du => by
        constructor
        · intro hu
          obtain ⟨j, hj, huj⟩ := (h u du).1 (InSet_cons.2 (.inr hu))
          obtain ⟨z, hz, huz⟩ := hu
          have := gap z hz
          refine ⟨j, List.mem_filter.2 ⟨hj, decide_eq_true ?_⟩, huj⟩
          unfold InIv at huj huz
          omega
        · rintro ⟨j, hj, huj⟩
          obtain ⟨hj, hd⟩ := List.mem_filter.1 hj
          rcases InSet_cons.1 ((h u du).2 ⟨j, hj, huj⟩) with h1 | h1
          · exact absurd h1 (far j hj (of_decide_eq_true hd) u du huj)
          · exact h1)
      simp only [List.length_cons] at this ⊢
      omega

example : Canon [⟨0, 4⟩, ⟨7, 9⟩] ∧ ∀ t, Date t → (InSet t [⟨0, 4⟩, ⟨7, 9⟩] ↔ InSet t [⟨8, 9⟩, ⟨0, 4⟩, ⟨7, 8⟩]) := by
  refine ⟨by decide, fun t _ => ?_⟩
  simp [InSet, InIv]
  omega

/-- a calculation whose result has all the pieces it may have -/
example : (Calc.or (.and (.set [⟨0, 4⟩, ⟨7, 9⟩]) (.not (.set [⟨2, 2⟩]))) (.shift (.set [⟨0, 1⟩]) 20)).run true =
    .ok [⟨0, 1⟩, ⟨3, 4⟩, ⟨7, 9⟩, ⟨20, 21⟩] := by decide +kernel

end Chrono
