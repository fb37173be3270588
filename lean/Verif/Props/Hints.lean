import Verif.Props.Lazy

/-!
# What a pipeline announces in the middle of the iteration (C52)
-/

namespace Chrono
open Spec

/-- `m` items to come: the lower bound announced is right, the upper bound is short by at most `n` -/
def Hint (n : Nat) (p : Pipe) (m : Nat) : Prop := p.sizeHint.1 ≤ m ∧ ∀ u, p.sizeHint.2 = some u → m ≤ u + n

/-- the calls of `next` yield `l`, and what is announced before each of them is right up to `n` -/
inductive Told (dbg : Bool) (n : Nat) : Pipe → List Iv → Prop where
  | done {p p' : Pipe} (k : Hint n p 0) (h : p.Next dbg (.ok (none, p'))) : Told dbg n p []
  | item {p p' : Pipe} {x : Iv} {l : List Iv} (k : Hint n p (l.length + 1)) (h : p.Next dbg (.ok (some x, p')))
      (ht : Told dbg n p' l) : Told dbg n p (x :: l)

theorem Told.hint {dbg : Bool} {n : Nat} {p : Pipe} {l : List Iv} (h : Told dbg n p l) : Hint n p l.length := by
  cases h with
  | done k => exact k
  | item k => exact k

theorem Told.yields {dbg : Bool} {n : Nat} {p : Pipe} {l : List Iv} (h : Told dbg n p l) : Yields dbg p l := by
  induction h with
  | done _ h => exact .done h
  | item _ h _ ih => exact .item h ih

theorem told_follows (dbg : Bool) (n : Nat) : Follows dbg (Told dbg n) := by
  intro i l h
  cases h with
  | done _ k => exact ⟨_, k, fun c => absurd rfl c⟩
  | item _ k kt => exact ⟨_, k, fun _ => kt⟩

theorem Told.gives {dbg : Bool} {n : Nat} {p q : Pipe} {l l1 : List Iv} (h : Told dbg n p l) (g : Gives dbg p l1 q) :
    ∃ l2, l = l1 ++ l2 ∧ Told dbg n q l2 := by
  induction g generalizing l with
  | nil => exact ⟨l, rfl, h⟩
  | item k _ ih =>
    cases h with
    | done _ k' => have := next_det k k'; cases this
    | item _ k' t =>
      have := next_det k k'
      cases this
      obtain ⟨l2, rfl, h2⟩ := ih t
      exact ⟨l2, rfl, h2⟩

theorem Told.fused {dbg : Bool} {n : Nat} {a : Pipe} {l : List Iv} (h : Told dbg n a l) : Fused (Told dbg n) a false l :=
  Or.inr ⟨rfl, h⟩

/-- what `Fuse` announces -/
theorem fused_hint {dbg : Bool} {n : Nat} {a : Pipe} {e : Bool} {l : List Iv} (h : Fused (Told dbg n) a e l) :
    (Pipe.fuseHint e a.sizeHint).1 ≤ l.length ∧ ∀ u, (Pipe.fuseHint e a.sizeHint).2 = some u → l.length ≤ u + n := by
  rcases h with ⟨rfl, rfl⟩ | ⟨rfl, h⟩
  · exact ⟨Nat.zero_le _, fun u _ => Nat.zero_le _⟩
  · exact h.hint

theorem told_mono {dbg : Bool} {n m : Nat} (h : n ≤ m) {p : Pipe} {l : List Iv} (t : Told dbg n p l) : Told dbg m p l := by
  have w : ∀ {p k}, Hint n p k → Hint m p k := fun ⟨a, b⟩ => ⟨a, fun u hu => Nat.le_trans (b u hu) (Nat.add_le_add_left h u)⟩
  induction t with
  | done k h => exact .done (w k) h
  | item k h _ ih => exact .item (w k) h ih

theorem sum_hint' {a b : Option Nat} {x y na nb k : Nat} (h : Pipe.sumHint a b = some k) (ha : ∀ u, a = some u → x ≤ u + na)
    (hb : ∀ u, b = some u → y ≤ u + nb) : x + y ≤ k + (na + nb) := by
  cases a with
  | none => cases h
  | some a =>
    cases b with
    | none => cases h
    | some b =>
      cases h
      have := ha a rfl
      have := hb b rfl
      omega

theorem union_hint {dbg : Bool} {na nb : Nat} (s : UnionIter) {i j : Pipe} {ei ej : Bool} (hi : Fused (Told dbg na) i ei s.i)
    (hj : Fused (Told dbg nb) j ej s.j) : Hint (na + nb + 1) (.union i ei none j ej none s.state s.tmp) s.drain.length := by
  obtain ⟨i1, i2⟩ := fused_hint hi
  obtain ⟨j1, j2⟩ := fused_hint hj
  have h := UnionIter.drain_length _ s (Nat.le_refl _)
  rcases s with ⟨li, lj, st, tmp⟩
  simp only at i1 i2 j1 j2
  cases st with
  | done =>
    have : (UnionIter.mk li lj .done tmp).drain = [] := by rw [UnionIter.drain_eq]; rfl
    rw [this]
    exact ⟨Nat.zero_le _, fun u _ => Nat.zero_le _⟩
  | onlyI =>
    rw [UnionIter.drain_onlyI]
    refine ⟨i1, fun u hu => ?_⟩
    have := i2 u hu
    omega
  | onlyJ =>
    rw [UnionIter.drain_onlyJ]
    refine ⟨j1, fun u hu => ?_⟩
    have := j2 u hu
    omega
  | init =>
    refine ⟨Nat.zero_le _, fun u hu => ?_⟩
    have := sum_hint' hu i2 j2
    simp only [UnionIter.size] at h
    omega
  | waitI =>
    refine ⟨Nat.zero_le _, fun u hu => ?_⟩
    have := sum_hint' hu i2 j2
    simp only [UnionIter.size] at h
    omega
  | waitJ =>
    refine ⟨Nat.zero_le _, fun u hu => ?_⟩
    have := sum_hint' hu i2 j2
    simp only [UnionIter.size] at h
    omega

theorem union_told {dbg : Bool} {na nb : Nat} (s : UnionIter) {i j : Pipe} {ei ej : Bool} (hi : Fused (Told dbg na) i ei s.i)
    (hj : Fused (Told dbg nb) j ej s.j) : Told dbg (na + nb + 1) (.union i ei none j ej none s.state s.tmp) s.drain := by
  have hh := union_hint s hi hj
  fun_induction UnionIter.drain s generalizing i j ei ej with
  | case1 s s1 hs =>
    obtain ⟨i', ei', j', ej', n1, n2, n3⟩ := union_next (told_follows dbg na) (told_follows dbg nb) s hi hj
    rw [hs] at n1
    exact .done hh n1
  | case2 s x s1 hs ih =>
    obtain ⟨i', ei', j', ej', n1, n2, n3⟩ := union_next (told_follows dbg na) (told_follows dbg nb) s hi hj
    rw [hs] at n1 n2 n3
    exact .item hh n1 (ih n2 n3 (union_hint s1 n2 n3))

theorem inter_hint {dbg : Bool} {na nb : Nat} (s : InterIter) {i j : Pipe} {ei ej : Bool} (hi : Fused (Told dbg na) i ei s.i)
    (hj : Fused (Told dbg nb) j ej s.j) : Hint (na + nb) (.inter i ei none j ej none s.state s.tmp) s.drain.length := by
  obtain ⟨i1, i2⟩ := fused_hint hi
  obtain ⟨j1, j2⟩ := fused_hint hj
  have h := InterIter.drain_length _ s (Nat.le_refl _)
  rcases s with ⟨li, lj, st, tmp⟩
  simp only at i1 i2 j1 j2
  have other : ∀ u, Pipe.sumHint (Pipe.fuseHint ei i.sizeHint).2 (Pipe.fuseHint ej j.sizeHint).2 = some u →
      (InterIter.mk li lj st tmp).drain.length ≤ u + (na + nb) := fun u hu => by
    have := sum_hint' hu i2 j2
    simp only [InterIter.size] at h
    omega
  cases st with
  | done =>
    have : (InterIter.mk li lj .done tmp).drain = [] := by rw [InterIter.drain_eq]; rfl
    rw [this]
    exact ⟨Nat.zero_le _, fun u _ => Nat.zero_le _⟩
  | init => exact ⟨Nat.zero_le _, other⟩
  | waitI => exact ⟨Nat.zero_le _, other⟩
  | waitJ => exact ⟨Nat.zero_le _, other⟩

theorem inter_told {dbg : Bool} {na nb : Nat} (s : InterIter) {i j : Pipe} {ei ej : Bool} (hi : Fused (Told dbg na) i ei s.i)
    (hj : Fused (Told dbg nb) j ej s.j) : Told dbg (na + nb) (.inter i ei none j ej none s.state s.tmp) s.drain := by
  have hh := inter_hint s hi hj
  fun_induction InterIter.drain s generalizing i j ei ej with
  | case1 s s1 hs =>
    obtain ⟨i', ei', j', ej', n1, n2, n3⟩ := inter_next (told_follows dbg na) (told_follows dbg nb) s hi hj
    rw [hs] at n1
    exact .done hh n1
  | case2 s x s1 hs ih =>
    obtain ⟨i', ei', j', ej', n1, n2, n3⟩ := inter_next (told_follows dbg na) (told_follows dbg nb) s hi hj
    rw [hs] at n1 n2 n3
    exact .item hh n1 (ih n2 n3 (inter_hint s1 n2 n3))

theorem ComplIter.after_succ (k : Nat) : ∀ s : ComplIter, s.after (k + 1) = (s.after k).next.2 := by
  induction k with
  | zero => intro s; rfl
  | succ k ih => intro s; rw [ComplIter.after, ih s.next.2]; rfl

theorem compl_hint {dbg : Bool} {n : Nat} (t : TSet) (ht : Canon t) (k : Nat) {a : Pipe} {ea : Bool}
    (h : Fused (Told dbg n) a ea ((ComplIter.new t).after k).iter) :
    Hint (n + 1) (.compl a ea ((ComplIter.new t).after k).lower false) ((ComplIter.new t).after k).drain.length := by
  obtain ⟨c1, m, c2, c3⟩ := (C52_compl_hint_partial t ht).1 k
  obtain ⟨h1, h2⟩ := fused_hint h
  generalize (ComplIter.new t).after k = s at *
  unfold Hint
  simp only [Pipe.sizeHint]
  simp only [ComplIter.sizeHint] at c1 c2
  split
  · next c =>
    rw [if_pos c] at c1 c2
    cases c2
    refine ⟨by simp only at c1 ⊢; omega, fun u hu => ?_⟩
    have := h2 u hu
    omega
  · next c =>
    rw [if_neg c] at c1 c2
    cases c2
    refine ⟨by simp only at c1 ⊢; omega, fun u hu => ?_⟩
    obtain ⟨v, hv, rfl⟩ := Option.map_eq_some_iff.1 hu
    have := h2 v hv
    omega

theorem compl_told {dbg : Bool} {n : Nat} (t : TSet) (ht : Canon t) (s : ComplIter) (k : Nat) (e : s = (ComplIter.new t).after k)
    {a : Pipe} {ea : Bool} (h : Fused (Told dbg n) a ea s.iter) : Told dbg (n + 1) (.compl a ea s.lower false) s.drain := by
  have hh : Hint (n + 1) (.compl a ea s.lower false) s.drain.length := by subst e; exact compl_hint t ht k h
  fun_induction ComplIter.drain s generalizing a ea k with
  | case1 s s1 hs =>
    obtain ⟨a', ea', n1, n2⟩ := compl_next (told_follows dbg n) s.lower false h
    rw [if_neg (by decide), show (⟨s.iter, s.lower⟩ : ComplIter) = s from rfl, hs] at n1
    exact .done hh n1
  | case2 s x s1 hs ih =>
    obtain ⟨a', ea', n1, n2⟩ := compl_next (told_follows dbg n) s.lower false h
    rw [if_neg (by decide), show (⟨s.iter, s.lower⟩ : ComplIter) = s from rfl, hs] at n1 n2
    have e1 : s1 = (ComplIter.new t).after (k + 1) := by rw [ComplIter.after_succ, ← e, hs]
    exact .item hh n1 (ih (k + 1) e1 n2 (by subst e1; exact compl_hint t ht (k + 1) n2))

theorem items_told {dbg : Bool} : ∀ l : List Iv, Told dbg 0 (.items l) l
  | [] => .done (p' := .items []) ⟨Nat.zero_le _, fun _ _ => Nat.zero_le _⟩ (.ret (by simp only [Pipe.step]))
  | _ :: l => .item (p' := .items l) ⟨Nat.le_refl _, fun u e => by cases e; exact Nat.le_refl _⟩ (.ret (by simp only [Pipe.step]))
    (items_told l)

/-- a pipeline of which all the states announce nothing, or what is right whatever comes -/
theorem told_silent {dbg : Bool} {F : Pipe → Pipe} (hF : ∀ a, (F a).sizeHint = (0, none))
    (hs : ∀ a r p', (F a).Next dbg (.ok (r, p')) → ∃ a', p' = F a') {p : Pipe} {l : List Iv} (h : Yields dbg p l) :
    ∀ a, p = F a → Told dbg 0 p l := by
  have hint : ∀ a m, Hint 0 (F a) m := fun a m => by
    unfold Hint
    rw [hF]
    exact ⟨Nat.zero_le _, nofun⟩
  induction h with
  | done k => rintro a rfl; exact .done (hint a 0) k
  | item k _ ih =>
    rintro a rfl
    obtain ⟨a', e⟩ := hs a _ _ k
    exact .item (hint a _) k (ih a' e)

theorem transl_shape {dbg : Bool} {d : Int} {a p' : Pipe} {r : Option Iv} (h : (Pipe.transl d a).Next dbg (.ok (r, p'))) :
    ∃ a', p' = .transl d a' := by
  have st : ∀ a t q, (Pipe.transl d a).step dbg = .ok (t, q) → ∃ a', q = .transl d a' := by
    intro a t q h
    simp only [Pipe.step] at h
    obtain ⟨⟨t1, a1⟩, -, h⟩ := bind_ok h
    cases t1 with
    | loop => cases h; exact ⟨_, rfl⟩
    | ret o =>
      cases o with
      | none => cases h; exact ⟨_, rfl⟩
      | some x => obtain ⟨y, -, h⟩ := bind_ok h; cases h; exact ⟨_, rfl⟩
  generalize hp : Pipe.transl d a = p at h
  generalize hr : (Except.ok (r, p') : Res (Option Iv × Pipe)) = res at h
  induction h generalizing a with
  | ret k => cases hr; subst hp; exact st _ _ _ k
  | loop k _ ih =>
    subst hp
    obtain ⟨a', rfl⟩ := st _ _ _ k
    exact ih rfl hr
  | panic => cases hr

theorem scale_shape {dbg : Bool} {ty : Iv.ScaleTy} {n : Int} {a p' : Pipe} {r : Option Iv}
    (h : (Pipe.scale ty n a).Next dbg (.ok (r, p'))) : ∃ a', p' = .scale ty n a' := by
  have st : ∀ a t q, (Pipe.scale ty n a).step dbg = .ok (t, q) → ∃ a', q = .scale ty n a' := by
    intro a t q h
    simp only [Pipe.step] at h
    obtain ⟨⟨t1, a1⟩, -, h⟩ := bind_ok h
    cases t1 with
    | loop => cases h; exact ⟨_, rfl⟩
    | ret o =>
      cases o with
      | none => cases h; exact ⟨_, rfl⟩
      | some x => obtain ⟨y, -, h⟩ := bind_ok h; cases h; exact ⟨_, rfl⟩
  generalize hp : Pipe.scale ty n a = p at h
  generalize hr : (Except.ok (r, p') : Res (Option Iv × Pipe)) = res at h
  induction h generalizing a with
  | ret k => cases hr; subst hp; exact st _ _ _ k
  | loop k _ ih =>
    subst hp
    obtain ⟨a', rfl⟩ := st _ _ _ k
    exact ih rfl hr
  | panic => cases hr

theorem told_loop {dbg : Bool} {n : Nat} {p q : Pipe} {l : List Iv} (h : ∀ r, q.Next dbg r → p.Next dbg r) (hh : Hint n p l.length)
    (y : Told dbg n q l) : Told dbg n p l := by
  cases y with
  | done _ k => exact .done hh (h _ k)
  | item _ k kt => exact .item hh (h _ k) kt

/-- the hint of an adaptor which may drop items -/
theorem drop_hint {n : Nat} {p a : Pipe} {m k : Nat} (h : Hint n a m) (e : p.sizeHint = (0, a.sizeHint.2)) (hk : k ≤ m) : Hint n p k := by
  unfold Hint
  rw [e]
  refine ⟨Nat.zero_le _, fun u hu => ?_⟩
  have := h.2 u hu
  omega

theorem filter_told {dbg : Bool} {n : Nat} {f : Iv → Bool} {a : Pipe} {l : List Iv} (h : Told dbg n a l) :
    Told dbg n (.filter f a) (l.filter f) := by
  have h1 : ∀ a a', a.step dbg = .ok (.loop, a') → (Pipe.filter f a).step dbg = .ok (.loop, .filter f a') :=
    fun x x' hx => by simp only [Pipe.step, hx]; rfl
  have hh := drop_hint (p := .filter f a) h.hint rfl (List.length_filter_le f l)
  induction h with
  | done _ k => exact .done hh (inner_ret (F' := .filter f) h1 k (fun x hx => by simp only [Pipe.step, hx]; rfl))
  | item _ k kt ih =>
    rename_i x l _
    have ih := ih (drop_hint kt.hint rfl (List.length_filter_le f l))
    by_cases c : f x = true
    · rw [List.filter_cons_of_pos c] at hh ⊢
      exact .item hh (inner_ret (F' := .filter f) h1 k (fun b hb => by simp only [Pipe.step, hb, ok_bind, c]; rfl)) ih
    · rw [List.filter_cons_of_neg c] at hh ⊢
      exact told_loop (fun r hr => inner_loop (F' := .filter f) h1 k
        (fun b hb => by simp only [Pipe.step, hb, ok_bind, c]; rfl) hr) hh ih

theorem started_told {dbg : Bool} {n : Nat} {f : Iv → Bool} {a : Pipe} {l : List Iv} (h : Told dbg n a l) :
    Told dbg n (.skipWhile f true a) l := by
  have h1 : ∀ a a', a.step dbg = .ok (.loop, a') → (Pipe.skipWhile f true a).step dbg = .ok (.loop, .skipWhile f true a') :=
    fun x x' hx => by simp only [Pipe.step, hx]; rfl
  induction h with
  | done g k =>
    exact .done (drop_hint g rfl (Nat.le_refl _)) (inner_ret (F' := .skipWhile f true) h1 k (fun x hx => by simp only [Pipe.step, hx]; rfl))
  | item g k _ ih =>
    exact .item (drop_hint g rfl (Nat.le_refl _))
      (inner_ret (F' := .skipWhile f true) h1 k (fun x hx => by simp only [Pipe.step, hx]; rfl)) ih

theorem skipWhile_told {dbg : Bool} {n : Nat} {f : Iv → Bool} {a : Pipe} {l : List Iv} (h : Told dbg n a l) :
    Told dbg n (.skipWhile f false a) (l.dropWhile f) := by
  have h1 : ∀ a a', a.step dbg = .ok (.loop, a') → (Pipe.skipWhile f false a).step dbg = .ok (.loop, .skipWhile f false a') :=
    fun x x' hx => by simp only [Pipe.step, hx]; rfl
  have hh := drop_hint (p := .skipWhile f false a) h.hint rfl (List.dropWhile_sublist f (l := l)).length_le
  induction h with
  | done _ k => exact .done hh (inner_ret (F' := .skipWhile f false) h1 k (fun x hx => by simp only [Pipe.step, hx]; rfl))
  | @item a a' x l _ k kt ih =>
    by_cases c : f x = true
    · rw [List.dropWhile_cons_of_pos c] at hh ⊢
      exact told_loop (fun r hr => inner_loop (F' := .skipWhile f false) h1 k
        (fun b hb => by simp only [Pipe.step, hb, ok_bind, c]; rfl) hr) hh
        (ih (drop_hint kt.hint rfl (List.dropWhile_sublist f (l := l)).length_le))
    · rw [List.dropWhile_cons_of_neg c] at hh ⊢
      exact .item hh (inner_ret (F' := .skipWhile f true) h1 k (fun b hb => by simp only [Pipe.step, hb, ok_bind, c]; rfl))
        (started_told kt)

theorem takeWhile_told {dbg : Bool} {n : Nat} {f : Iv → Bool} {a : Pipe} {l : List Iv} (h : Told dbg n a l) :
    Told dbg n (.takeWhile f false a) (l.takeWhile f) := by
  have h1 : ∀ a a', a.step dbg = .ok (.loop, a') → (Pipe.takeWhile f false a).step dbg = .ok (.loop, .takeWhile f false a') :=
    fun x x' hx => by simp only [Pipe.step, hx]; rfl
  have hh := drop_hint (p := .takeWhile f false a) h.hint rfl (List.takeWhile_sublist f (l := l)).length_le
  induction h with
  | done _ k => exact .done hh (inner_ret (F' := .takeWhile f false) h1 k (fun x hx => by simp only [Pipe.step, hx]; rfl))
  | @item a a' x l _ k kt ih =>
    by_cases c : f x = true
    · rw [List.takeWhile_cons_of_pos c] at hh ⊢
      exact .item hh (inner_ret (F' := .takeWhile f false) h1 k (fun b hb => by simp only [Pipe.step, hb, ok_bind, c]; rfl))
        (ih (drop_hint kt.hint rfl (List.takeWhile_sublist f (l := l)).length_le))
    · rw [List.takeWhile_cons_of_neg c] at hh ⊢
      exact .done hh (inner_ret (F' := .takeWhile f true) h1 k (fun b hb => by simp only [Pipe.step, hb, ok_bind, c]; rfl))

theorem skip_hint {n m : Nat} {a : Pipe} (h : Hint n a m) (k : Nat) : Hint n (.skip k a) (m - k) := by
  refine ⟨Nat.sub_le_sub_right h.1 k, fun u hu => ?_⟩
  obtain ⟨v, hv, rfl⟩ := Option.map_eq_some_iff.1 hu
  have := h.2 v hv
  omega

theorem skip_told {dbg : Bool} {n m : Nat} {a : Pipe} {l : List Iv} (h : Told dbg n a l) : Told dbg n (.skip m a) (l.drop m) := by
  have h1 : ∀ n a a', a.step dbg = .ok (.loop, a') → (Pipe.skip n a).step dbg = .ok (.loop, .skip n a') :=
    fun n x x' hx => by simp only [Pipe.step, hx]; rfl
  induction h generalizing m with
  | done g k =>
    rw [List.drop_nil]
    exact .done (by have := skip_hint g m; rwa [Nat.zero_sub] at this)
      (inner_ret (F := .skip m) (F' := .skip 0) (h1 m) k (fun x hx => by simp only [Pipe.step, hx]; rfl))
  | item g k kt ih =>
    rename_i x l
    cases m with
    | zero =>
      exact .item (skip_hint g 0) (inner_ret (F' := .skip 0) (h1 0) k (fun b hb => by simp only [Pipe.step, hb, ok_bind]; rfl)) (ih (m := 0))
    | succ m =>
      rw [List.drop_succ_cons]
      refine told_loop (fun r hr => inner_loop (F := .skip (m + 1)) (F' := .skip m) (h1 _) k
        (fun b hb => by simp only [Pipe.step, hb, ok_bind]; rfl) hr) ?_ ih
      have := skip_hint g (m + 1)
      rw [List.length_drop]
      rwa [Nat.add_sub_add_right] at this

theorem take_hint {n m : Nat} {a : Pipe} (h : Hint n a m) (k : Nat) : Hint n (.take k a) (min m k) := by
  unfold Hint
  rw [Pipe.sizeHint]
  split
  · next c =>
    have c : k = 0 := by simpa using c
    subst c
    exact ⟨Nat.zero_le _, fun u _ => by omega⟩
  · obtain ⟨h1, h2⟩ := h
    refine ⟨by simp only; omega, fun u hu => ?_⟩
    cases hm : a.sizeHint.2 with
    | none => simp only [hm] at hu; cases hu; omega
    | some v =>
      simp only [hm] at hu; cases hu
      have := h2 v hm
      omega

theorem take_told {dbg : Bool} {n m : Nat} {a : Pipe} {l : List Iv} (h : Told dbg n a l) : Told dbg n (.take m a) (l.take m) := by
  induction h generalizing m with
  | @done a a' g k =>
    rw [List.take_nil]
    have hh : Hint n (.take m a) 0 := by have := take_hint g m; rwa [Nat.zero_min] at this
    cases m with
    | zero => exact .done (p' := .take 0 a) hh (.ret (by simp only [Pipe.step]))
    | succ m =>
      exact .done hh (inner_ret (F := .take (m + 1)) (F' := .take m) (take_loop m) k (fun b hb => by simp only [Pipe.step, hb, ok_bind]; rfl))
  | @item a a' x l g k kt ih =>
    have hh := take_hint g m
    cases m with
    | zero => exact .done (p' := .take 0 a) hh (.ret (by simp only [Pipe.step]))
    | succ m =>
      rw [List.take_succ_cons]
      refine .item ?_ (inner_ret (F := .take (m + 1)) (F' := .take m) (take_loop m) k (fun b hb => by simp only [Pipe.step, hb, ok_bind]; rfl)) ih
      rw [List.length_take]
      rw [show min (l.length + 1) (m + 1) = min m l.length + 1 by omega] at hh
      exact hh

/-- the items left to `step_by` after an item -/
theorem stepCount_after (k m : Nat) : stepCount k (m - k) = m / (k + 1) := by
  simp only [stepCount, beq_iff_eq]
  by_cases c : m - k = 0
  · rw [if_pos c, Nat.div_eq_of_lt (by omega)]
  · rw [if_neg c]
    have e : m = m - k - 1 + (k + 1) := by omega
    conv => rhs; rw [e]
    rw [Nat.add_div_right _ (by omega)]
    omega

theorem stepCount_slack (k m n : Nat) : stepCount k (m + n) ≤ stepCount k m + n := by
  have one : ∀ a, stepCount k (a + 1) ≤ stepCount k a + 1 := by
    intro a
    simp only [stepCount, beq_iff_eq]
    rw [if_neg (by omega), Nat.add_sub_cancel]
    by_cases c : a = 0
    · rw [if_pos c, c, Nat.zero_div]; omega
    · rw [if_neg c]
      have : a / (k + 1) ≤ (a - 1) / (k + 1) + 1 := by
        rw [← Nat.add_div_right _ (by omega)]
        exact Nat.div_le_div_right (by omega)
      omega
  induction n with
  | zero => exact Nat.le_refl _
  | succ n ih => have := one (m + n); rw [← Nat.add_assoc]; omega

theorem step_hint_new {n m k : Nat} {a : Pipe} (h : Hint n a m) : Hint n (.stepBy k 0 a) (stepCount k m) := by
  refine ⟨stepCount_mono h.1, fun u hu => ?_⟩
  obtain ⟨v, hv, rfl⟩ := Option.map_eq_some_iff.1 hu
  exact Nat.le_trans (stepCount_mono (h.2 v hv)) (stepCount_slack k v n)

theorem step_hint {n m k : Nat} {a : Pipe} (h : Hint n a m) : Hint n (.stepBy k k a) (stepCount k (m - k)) := by
  cases k with
  | zero => exact step_hint_new h
  | succ k =>
    rw [stepCount_after]
    have e : ∀ v, v / (k + 1 + 1) = stepCount (k + 1) (v - (k + 1)) := fun v => (stepCount_after _ v).symm
    refine ⟨Nat.div_le_div_right h.1, fun u hu => ?_⟩
    obtain ⟨v, hv, rfl⟩ := Option.map_eq_some_iff.1 hu
    have h2 := h.2 v hv
    rw [e, e]
    exact Nat.le_trans (stepCount_mono (show m - (k + 1) ≤ v - (k + 1) + n by omega)) (stepCount_slack _ _ n)

theorem stepBy_told {dbg : Bool} {n k r : Nat} {a : Pipe} {l : List Iv} (h : Told dbg n a l) :
    ∀ p, (∀ q, (Pipe.stepBy k r a).Next dbg q → p.Next dbg q) → Hint n p (stepCount k (l.length - r)) →
      Told dbg n p (stepList k (l.drop r)) := by
  have h1 : ∀ r a a', a.step dbg = .ok (.loop, a') → (Pipe.stepBy k r a).step dbg = .ok (.loop, .stepBy k r a') :=
    fun n x x' hx => by simp only [Pipe.step, hx]; rfl
  induction h generalizing r with
  | done g h =>
    intro p hp hh
    rw [List.drop_nil, stepList]
    refine .done ?_ (hp _ (inner_ret (F := .stepBy k r) (F' := .stepBy k k) (h1 r) h (fun x hx => by simp only [Pipe.step, hx]; rfl)))
    rwa [List.length_nil, Nat.zero_sub] at hh
  | @item a a' x l g h kt ih =>
    intro p hp hh
    cases r with
    | zero =>
      rw [List.drop_zero, stepList]
      refine .item ?_ (hp _ (inner_ret (F := .stepBy k 0) (F' := .stepBy k k) (h1 0) h (fun b hb => by simp only [Pipe.step, hb, ok_bind]; rfl)))
        (ih (r := k) _ (fun _ h => h) (step_hint kt.hint))
      have e := stepList_length k (x :: l)
      rw [stepList, List.length_cons] at e
      rw [e]
      exact hh
    | succ r =>
      rw [List.drop_succ_cons]
      refine ih p (fun q hq => hp q (inner_loop (F := .stepBy k (r + 1)) (F' := .stepBy k r) (h1 _) h
        (fun b hb => by simp only [Pipe.step, hb, ok_bind]; rfl) hq)) ?_
      rwa [List.length_cons, Nat.add_sub_add_right] at hh

theorem same_told {dbg : Bool} {n : Nat} {a : Pipe} {l : List Iv} (h : Told dbg n a l) : Told dbg n (.same a) l := by
  have h1 : ∀ a a', a.step dbg = .ok (.loop, a') → (Pipe.same a).step dbg = .ok (.loop, .same a') :=
    fun x x' hx => by simp only [Pipe.step, hx]; rfl
  induction h with
  | done g k => exact .done g (inner_ret (F' := .same) h1 k (fun x hx => by simp only [Pipe.step, hx]; rfl))
  | item g k _ ih => exact .item g (inner_ret (F' := .same) h1 k (fun x hx => by simp only [Pipe.step, hx]; rfl)) ih

theorem chain_told {dbg : Bool} {c : Chain} (h : Used dbg c) {l : List Iv} (hl : c.items dbg = .ok l) :
    ∃ p, c.start = .ok p ∧ Told dbg (holders c) p l := by
  induction c generalizing l with
  | set s => cases hl; exact ⟨_, rfl, items_told s⟩
  | win w => cases hl; exact ⟨_, rfl, items_told _⟩
  | into w => cases hl; exact ⟨_, rfl, items_told _⟩
  | union a b iha ihb =>
    obtain ⟨x, e1, hl⟩ := bind_ok hl
    obtain ⟨y, e2, hl⟩ := bind_ok hl
    cases hl
    obtain ⟨p, p1, p2⟩ := iha h.1 e1
    obtain ⟨q, q1, q2⟩ := ihb h.2 e2
    exact ⟨_, by rw [Chain.start, p1, ok_bind, q1, ok_bind]; rfl, union_told (UnionIter.new x y) p2.fused q2.fused⟩
  | inter a b iha ihb =>
    obtain ⟨x, e1, hl⟩ := bind_ok hl
    obtain ⟨y, e2, hl⟩ := bind_ok hl
    cases hl
    obtain ⟨p, p1, p2⟩ := iha h.1 e1
    obtain ⟨q, q1, q2⟩ := ihb h.2.1 e2
    exact ⟨_, by rw [Chain.start, p1, ok_bind, q1, ok_bind]; rfl, inter_told (InterIter.new x y) p2.fused q2.fused⟩
  | excl a b iha ihb =>
    obtain ⟨x, e1, hl⟩ := bind_ok hl
    obtain ⟨y, e2, hl⟩ := bind_ok hl
    cases hl
    obtain ⟨r, g1, g2⟩ := C104_contract_partial h.2.1
    rw [e2] at g1; cases g1
    obtain ⟨p, p1, p2⟩ := iha h.1 e1
    obtain ⟨q, q1, q2⟩ := ihb h.2.1 e2
    refine ⟨_, by rw [Chain.start, p1, ok_bind, q1, ok_bind]; rfl, ?_⟩
    rw [holders, Nat.add_assoc]
    exact inter_told (InterIter.new x _) p2.fused (compl_told y g2 (ComplIter.new y) 0 rfl q2.fused).fused
  | compl a iha =>
    obtain ⟨x, e1, hl⟩ := bind_ok hl
    cases hl
    obtain ⟨r, g1, g2⟩ := C104_contract_partial (c := a) h
    rw [e1] at g1; cases g1
    obtain ⟨p, p1, p2⟩ := iha h e1
    exact ⟨_, by rw [Chain.start, p1, ok_bind]; rfl, compl_told x g2 (ComplIter.new x) 0 rfl p2.fused⟩
  | transl d a iha =>
    obtain ⟨p, p1, p2⟩ := chain_yields hl
    obtain ⟨q, -, e⟩ := bind_ok p1
    cases e
    exact ⟨_, p1, told_silent (F := .transl d) (fun _ => rfl) (fun a r p' h => transl_shape h) p2 q rfl⟩
  | scale ty n a iha =>
    obtain ⟨p, p1, p2⟩ := chain_yields hl
    obtain ⟨q, -, e⟩ := bind_ok p1
    cases e
    exact ⟨_, p1, told_silent (F := .scale ty n) (fun _ => rfl) (fun a r p' h => scale_shape h) p2 q rfl⟩
  | filter f a iha =>
    obtain ⟨x, e1, hl⟩ := bind_ok hl
    cases hl
    obtain ⟨p, p1, p2⟩ := iha h e1
    exact ⟨_, by rw [Chain.start, p1, ok_bind]; rfl, filter_told p2⟩
  | skipWhile f a iha =>
    obtain ⟨x, e1, hl⟩ := bind_ok hl
    cases hl
    obtain ⟨p, p1, p2⟩ := iha h e1
    exact ⟨_, by rw [Chain.start, p1, ok_bind]; rfl, skipWhile_told p2⟩
  | takeWhile f a iha =>
    obtain ⟨x, e1, hl⟩ := bind_ok hl
    cases hl
    obtain ⟨p, p1, p2⟩ := iha h e1
    exact ⟨_, by rw [Chain.start, p1, ok_bind]; rfl, takeWhile_told p2⟩
  | skip n a iha =>
    obtain ⟨x, e1, hl⟩ := bind_ok hl
    cases hl
    obtain ⟨p, p1, p2⟩ := iha h e1
    exact ⟨_, by rw [Chain.start, p1, ok_bind]; rfl, skip_told p2⟩
  | take n a iha =>
    obtain ⟨x, e1, hl⟩ := bind_ok hl
    cases hl
    obtain ⟨p, p1, p2⟩ := iha h e1
    exact ⟨_, by rw [Chain.start, p1, ok_bind]; rfl, take_told p2⟩
  | stepBy n a iha =>
    cases n with
    | zero => cases hl
    | succ n =>
      obtain ⟨x, e1, hl⟩ := bind_ok hl
      cases hl
      obtain ⟨p, p1, p2⟩ := iha h.2 e1
      refine ⟨_, by rw [Chain.start, p1, ok_bind]; rfl, ?_⟩
      exact stepBy_told (r := 0) p2 _ (fun _ h => h) (step_hint_new p2.hint)
  | same a iha =>
    obtain ⟨p, p1, p2⟩ := iha h hl
    exact ⟨_, by rw [Chain.start, p1, ok_bind]; rfl, same_told p2⟩

/-- C52, partial: at any point of the iteration of any pipeline, the number of items still to come is at least the lower bound announced,
and exceeds the upper bound by at most the number of unions and complements of the pipeline. Missing: the exact upper bound, see
`C52_union_violated` and `C52_compl_violated`. -/
theorem C52_pipeline_partial (dbg : Bool) (c : Chain) (h : Used dbg c) (p q : Pipe) (hp : c.start = .ok p) (l : List Iv)
    (hg : Gives dbg p l q) :
    ∃ r, Yields dbg q r ∧ q.sizeHint.1 ≤ r.length ∧ ∀ m, q.sizeHint.2 = some m → r.length ≤ m + holders c := by
  obtain ⟨a, h1, -⟩ := C104_contract_partial h
  obtain ⟨p', h3, h4⟩ := chain_told h h1
  rw [hp] at h3
  cases h3
  obtain ⟨r, -, t⟩ := h4.gives hg
  exact ⟨r, t.yields, t.hint⟩

/-- C52. At any point of the iteration of a pipeline without unions nor complements, the number of items still to come is within the bounds
announced. -/
theorem C52_plain_pipeline (dbg : Bool) (c : Chain) (h : Used dbg c) (h0 : holders c = 0) (p q : Pipe) (hp : c.start = .ok p) (l : List Iv)
    (hg : Gives dbg p l q) :
    ∃ r, Yields dbg q r ∧ q.sizeHint.1 ≤ r.length ∧ ∀ m, q.sizeHint.2 = some m → r.length ≤ m := by
  obtain ⟨r, h1, h2⟩ := C52_pipeline_partial dbg c h p q hp l hg
  rw [h0] at h2
  exact ⟨r, h1, h2⟩

theorem before_gap {a b : Iv} (ha : WF a) (hb : WF b) (h : a.upper + 1 < b.lower) : a.upper < justBefore b.lower := by
  obtain ⟨p1, p2, p3, p4, p5⟩ := ha
  obtain ⟨r1, r2, r3, r4, r5⟩ := hb
  rw [justBefore_eq]; split <;> ticks

theorem drain_held (xs : List Iv) (t : Iv) (h : ∀ x ∈ xs, x.upper < justBefore t.lower) :
    (UnionIter.mk xs [] .waitI t).drain = xs ++ [t] := by
  induction xs with
  | nil => rw [UnionIter.drain_waitI_nil]; rfl
  | cons x xs ih =>
    rw [UnionIter.drain_eq]
    simp only [UnionIter.step, h x (List.mem_cons_self ..), if_true]
    rw [ih (fun y hy => h y (List.mem_cons_of_mem _ hy))]
    rfl

theorem unions_first (dbg : Bool) (n : Nat) : ∀ (x : Iv) (xs : List Iv), xs.length = n → Canon (x :: xs) →
    ∃ p q, (xs.foldl (fun c y => Chain.union c (.set [y])) (.set [x])).start = .ok p ∧ p.Next dbg (.ok (some x, q)) ∧
      q.sizeHint = (0, some 0) ∧ Yields dbg q xs := by
  induction n with
  | zero =>
    intro x xs hn hc
    rw [List.length_eq_zero_iff.1 hn]
    exact ⟨.items [x], .items [], rfl, .ret (by simp only [Pipe.step]), rfl, items_yields []⟩
  | succ n ih =>
    intro x xs hn hc
    rcases List.eq_nil_or_concat xs with rfl | ⟨L, y, e⟩
    · cases hn
    rw [List.concat_eq_append] at e
    subst e
    rw [List.length_append, List.length_singleton] at hn
    have hw := hc.wf
    have hg := hc.gap
    rw [← List.cons_append, List.pairwise_append] at hg
    obtain ⟨g1, -, g3⟩ := hg
    obtain ⟨p, q, h1, h2, h3, h4⟩ := ih x L (by omega) ⟨fun i hi => hw i (by rw [← List.cons_append]; exact List.mem_append_left _ hi), g1⟩
    have wy := hw y (by simp)
    have gap : ∀ z ∈ x :: L, z.upper < justBefore y.lower := fun z hz =>
      before_gap (hw z (by rw [← List.cons_append]; exact List.mem_append_left _ hz)) wy (g3 z hz y (List.mem_singleton_self y))
    refine ⟨.union p false none (.items [y]) false none .init Iv.all, .union q false none (.items []) false none .waitI y, ?_, ?_, ?_, ?_⟩
    · rw [List.foldl_append, List.foldl_cons, List.foldl_nil, Chain.start, h1]; rfl
    · obtain ⟨b, k1, k2⟩ := next_inner (F := fun a => .union a false none (.items [y]) false none .init Iv.all)
        (G := fun o a => (.loop, .union a o.isNone (some o) (.items [y]) false none .init Iv.all))
        (fun a a' ha => by simp only [Pipe.step, UState.asksI, ha]; rfl) h2 (fun a ha => by simp only [Pipe.step, UState.asksI, ha]; rfl)
      refine k1.next (.loop k2 (.loop (p' := .union q false (some (some x)) (.items []) false (some (some y)) .init Iv.all) ?_ (.ret ?_)))
      · simp only [Pipe.step, UState.asksI, UState.asksJ]; rfl
      · simp only [Pipe.step, UState.asksI, UState.asksJ, answer, Option.getD, Option.toList, UnionIter.step, gap x (List.mem_cons_self ..), if_true]
        rfl
    · simp only [Pipe.sizeHint, Pipe.fuseHint, h3]; rfl
    · have := union_yields (dbg := dbg) (UnionIter.mk L [] .waitI y) (i := q) (j := .items []) (ei := false) (ej := false) h4.fused
        (items_yields []).fused
      rw [drain_held L y (fun z hz => gap z (List.mem_cons_of_mem _ hz))] at this
      exact this

/-- C52 is violated as much as `C52_pipeline_partial` allows: make the union, one by one, of the intervals of any canonical set. After its
first item the pipeline announces that there is nothing to come, although all the other intervals are, as many as there are unions. -/
theorem C52_pipeline_violated (dbg : Bool) (x : Iv) (xs : List Iv) (h : Canon (x :: xs)) :
    ∃ c p q, c = xs.foldl (fun c y => Chain.union c (.set [y])) (.set [x]) ∧ Used dbg c ∧ holders c = xs.length ∧ c.start = .ok p ∧
      Gives dbg p [x] q ∧ q.sizeHint.2 = some 0 ∧ Yields dbg q xs := by
  obtain ⟨p, q, h1, h2, h3, h4⟩ := unions_first dbg xs.length x xs rfl h
  have key : ∀ (ys : List Iv) (c : Chain), Used dbg c → (∀ y ∈ ys, Canon [y]) →
      Used dbg (ys.foldl (fun c y => Chain.union c (.set [y])) c) ∧
      holders (ys.foldl (fun c y => Chain.union c (.set [y])) c) = holders c + ys.length := by
    intro ys
    induction ys with
    | nil => intro c hc _; exact ⟨hc, rfl⟩
    | cons y ys ih =>
      intro c hc hy
      obtain ⟨i1, i2⟩ := ih (.union c (.set [y])) ⟨hc, hy y (List.mem_cons_self ..)⟩ (fun z hz => hy z (List.mem_cons_of_mem _ hz))
      rw [List.foldl_cons]
      refine ⟨i1, i2.trans ?_⟩
      simp only [holders, List.length_cons]
      omega
  have one : ∀ y ∈ x :: xs, Canon [y] := fun y hy =>
    ⟨fun i hi => by rw [List.mem_singleton.1 hi]; exact h.wf y hy, List.pairwise_singleton _ _⟩
  obtain ⟨u1, u2⟩ := key xs (.set [x]) (one x (List.mem_cons_self ..)) (fun y hy => one y (List.mem_cons_of_mem _ hy))
  exact ⟨_, p, q, rfl, u1, by rw [u2]; exact Nat.zero_add _, h1, .item h2 .nil, by rw [h3], h4⟩

example : Canon [⟨0, 1⟩, ⟨5, 6⟩, ⟨10, INF⟩] := by decide

/-- pipelines without and with unions and complements -/
example : Used true (.skip 1 (.inter (.set [⟨0, 9⟩, ⟨20, 30⟩]) (.set [⟨5, 25⟩]))) ∧
    holders (Chain.skip 1 (.inter (.set [⟨0, 9⟩, ⟨20, 30⟩]) (.set [⟨5, 25⟩]))) = 0 ∧
    Used true (.compl (.union (.set [⟨0, 9⟩]) (.set [⟨20, 30⟩]))) ∧
    holders (Chain.compl (.union (.set [⟨0, 9⟩]) (.set [⟨20, 30⟩]))) = 2 := by
  refine ⟨⟨(by decide : Canon [⟨0, 9⟩, ⟨20, 30⟩]), (by decide : Canon [⟨5, 25⟩]), ?_⟩, rfl,
    ⟨(by decide : Canon [⟨0, 9⟩]), (by decide : Canon [⟨20, 30⟩])⟩, rfl⟩
  intro x y hx hy
  cases hx; cases hy
  decide

end Chrono
