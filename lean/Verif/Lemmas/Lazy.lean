import Verif.Spec.Lazy
import Verif.Lemmas.Hoare
import Verif.Lemmas.Set

/-!
# Pipelines advanced one call at a time
-/

set_option linter.unusedSimpArgs false

namespace Chrono
open Spec

/-! ## One result per call -/

theorem next_det {dbg : Bool} {p : Pipe} {r r' : Res (Option Iv × Pipe)} (h : p.Next dbg r) (h' : p.Next dbg r') : r = r' := by
  induction h with
  | ret h => cases h' with
    | ret k => rw [h] at k; cases k; rfl
    | loop k _ => rw [h] at k; cases k
    | panic k => rw [h] at k; cases k
  | loop h _ ih => cases h' with
    | ret k => rw [h] at k; cases k
    | loop k kn => rw [h] at k; cases k; exact ih kn
    | panic k => rw [h] at k; cases k
  | panic h => cases h' with
    | ret k => rw [h] at k; cases k
    | loop k _ => rw [h] at k; cases k
    | panic k => rw [h] at k; cases k; rfl

theorem yields_det {dbg : Bool} {p : Pipe} {l l' : List Iv} (h : Yields dbg p l) (h' : Yields dbg p l') : l = l' := by
  induction h generalizing l' with
  | done h => cases h' with
    | done k => rfl
    | item k _ => have := next_det h k; cases this
  | item h _ ih => cases h' with
    | done k => have := next_det h k; cases this
    | item k kt => have := next_det h k; cases this; rw [ih kt]

theorem yields_not_breaks {dbg : Bool} {p : Pipe} {l l' : List Iv} {e : Panic} (h : Yields dbg p l) : ¬ Breaks dbg p l' e := by
  rintro ⟨q, g, b⟩
  induction g generalizing l with
  | nil => cases h with
    | done k => have := next_det k b; cases this
    | item k _ => have := next_det k b; cases this
  | item g _ ih => cases h with
    | done k => have := next_det k g; cases this
    | item k kt => have := next_det k g; cases this; exact ih kt b

/-! ## Turns -/

/-- turns which do not return -/
inductive Loops (dbg : Bool) : Pipe → Pipe → Prop where
  | refl {p : Pipe} : Loops dbg p p
  | step {p p' q : Pipe} (h : p.step dbg = .ok (.loop, p')) (t : Loops dbg p' q) : Loops dbg p q

theorem Loops.trans {dbg : Bool} {p q r : Pipe} (h : Loops dbg p q) (k : Loops dbg q r) : Loops dbg p r := by
  induction h with
  | refl => exact k
  | step h _ ih => exact .step h (ih k)

theorem Loops.next {dbg : Bool} {p q : Pipe} {r : Res (Option Iv × Pipe)} (h : Loops dbg p q) (k : q.Next dbg r) : p.Next dbg r := by
  induction h with
  | refl => exact k
  | step h _ ih => exact .loop h (ih k)

/-- how a call of `next` runs through the turns of an inner one: `F` puts the inner state back into the outer one -/
theorem next_inner {dbg : Bool} {F : Pipe → Pipe} {G : Option Iv → Pipe → Turn × Pipe}
    (h1 : ∀ a a', a.step dbg = .ok (.loop, a') → (F a).step dbg = .ok (.loop, F a'))
    {a a' : Pipe} {o : Option Iv} (h : a.Next dbg (.ok (o, a')))
    (h2 : ∀ b, b.step dbg = .ok (.ret o, a') → (F b).step dbg = .ok (G o a')) :
    ∃ b, Loops dbg (F a) (F b) ∧ (F b).step dbg = .ok (G o a') := by
  generalize e : (Except.ok (o, a') : Res (Option Iv × Pipe)) = r at h
  induction h with
  | ret h => cases e; exact ⟨_, .refl, h2 _ h⟩
  | loop h _ ih =>
    obtain ⟨b, k1, k2⟩ := ih e
    exact ⟨b, .step (h1 _ _ h) k1, k2⟩
  | panic h => cases e

/-! ## The inner iterators of `Fuse` -/

/-- a relation between a pipeline and what it still yields, kept by the calls of `next` -/
def Follows (dbg : Bool) (Y : Pipe → List Iv → Prop) : Prop :=
  ∀ i l, Y i l → ∃ i', i.Next dbg (.ok (l.head?, i')) ∧ (l ≠ [] → Y i' l.tail)

theorem yields_follows (dbg : Bool) : Follows dbg (Yields dbg) := by
  intro i l h
  cases h with
  | done k => exact ⟨_, k, fun c => absurd rfl c⟩
  | item k kt => exact ⟨_, k, fun _ => kt⟩

/-- a fused inner iterator, and what it still yields -/
def Fused (Y : Pipe → List Iv → Prop) (i : Pipe) (e : Bool) (l : List Iv) : Prop := (e = true ∧ l = []) ∨ (e = false ∧ Y i l)

theorem fused_ask {dbg : Bool} {Y : Pipe → List Iv → Prop} (hY : Follows dbg Y) {F : Pipe → Bool → Option (Option Iv) → Pipe}
    (h0 : ∀ i, (F i true none).step dbg = .ok (.loop, F i true (some none)))
    (h1 : ∀ a a', a.step dbg = .ok (.loop, a') → (F a false none).step dbg = .ok (.loop, F a' false none))
    (h2 : ∀ a a' o, a.step dbg = .ok (.ret o, a') → (F a false none).step dbg = .ok (.loop, F a' o.isNone (some o)))
    {i : Pipe} {e : Bool} {l : List Iv} (h : Fused Y i e l) :
    ∃ i' e', Loops dbg (F i e none) (F i' e' (some l.head?)) ∧ Fused Y i' e' l.tail := by
  rcases h with ⟨rfl, rfl⟩ | ⟨rfl, h⟩
  · exact ⟨i, true, .step (h0 i) .refl, Or.inl ⟨rfl, rfl⟩⟩
  · have key : ∀ {o i'}, i.Next dbg (.ok (o, i')) → Loops dbg (F i false none) (F i' o.isNone (some o)) := by
      intro o i' hn
      obtain ⟨b, k1, k2⟩ := next_inner (F := fun a => F a false none) (G := fun o a => (.loop, F a o.isNone (some o))) h1 hn
        (fun b hb => h2 b i' o hb)
      exact k1.trans (.step k2 .refl)
    obtain ⟨i', k, kt⟩ := hY i l h
    cases l with
    | nil => exact ⟨_, _, key k, Or.inl ⟨rfl, rfl⟩⟩
    | cons x l => exact ⟨_, _, key k, Or.inr ⟨rfl, kt (by simp)⟩⟩

/-! ## Union -/

theorem union_local (s : UnionIter) :
    s.step = ((UnionIter.step ⟨answer (if s.state.asksI then some s.i.head? else none),
        answer (if s.state.asksJ then some s.j.head? else none), s.state, s.tmp⟩).1,
      ⟨if s.state.asksI then s.i.tail else s.i, if s.state.asksJ then s.j.tail else s.j,
        (UnionIter.step ⟨answer (if s.state.asksI then some s.i.head? else none),
          answer (if s.state.asksJ then some s.j.head? else none), s.state, s.tmp⟩).2.state,
        (UnionIter.step ⟨answer (if s.state.asksI then some s.i.head? else none),
          answer (if s.state.asksJ then some s.j.head? else none), s.state, s.tmp⟩).2.tmp⟩) := by
  rcases s with ⟨i, j, st, tmp⟩
  cases st <;> cases i <;> cases j <;>
    simp only [UState.asksI, UState.asksJ, answer, UnionIter.step, List.head?, List.tail, Option.getD, Option.toList,
      if_true, if_false, Bool.false_eq_true] <;> (repeat' split) <;> simp_all

theorem union_turn {dbg : Bool} {Y Z : Pipe → List Iv → Prop} (hY : Follows dbg Y) (hZ : Follows dbg Z) (s : UnionIter) {i j : Pipe} {ei ej : Bool} (hi : Fused Y i ei s.i) (hj : Fused Z j ej s.j) :
    ∃ i' ei' j' ej' q, Loops dbg (.union i ei none j ej none s.state s.tmp) q ∧
      q.step dbg = .ok (s.step.1, .union i' ei' none j' ej' none s.step.2.state s.step.2.tmp) ∧
      Fused Y i' ei' s.step.2.i ∧ Fused Z j' ej' s.step.2.j := by
  have A : ∃ i' ei', Loops dbg (.union i ei none j ej none s.state s.tmp)
      (.union i' ei' (if s.state.asksI then some s.i.head? else none) j ej none s.state s.tmp) ∧
      Fused Y i' ei' (if s.state.asksI then s.i.tail else s.i) := by
    by_cases c : s.state.asksI = true
    · rw [if_pos c, if_pos c]
      refine fused_ask hY (F := fun i ei bi => .union i ei bi j ej none s.state s.tmp) ?_ ?_ ?_ hi
      · intro i; simp only [Pipe.step, c]; rfl
      · intro a a' h; simp only [Pipe.step, c, h]; rfl
      · intro a a' o h; simp only [Pipe.step, c, h]; rfl
    · rw [if_neg c, if_neg c]
      exact ⟨i, ei, .refl, hi⟩
  obtain ⟨i', ei', a1, a2⟩ := A
  have nb : (s.state.asksI && (if s.state.asksI = true then some s.i.head? else none).isNone) = false := by
    by_cases c : s.state.asksI = true
    · rw [if_pos c]; simp
    · rw [if_neg c]; simp [c]
  have B : ∃ j' ej', Loops dbg (.union i' ei' (if s.state.asksI then some s.i.head? else none) j ej none s.state s.tmp)
      (.union i' ei' (if s.state.asksI then some s.i.head? else none) j' ej'
        (if s.state.asksJ then some s.j.head? else none) s.state s.tmp) ∧
      Fused Z j' ej' (if s.state.asksJ then s.j.tail else s.j) := by
    by_cases c : s.state.asksJ = true
    · rw [if_pos (c := s.state.asksJ = true) c, if_pos (c := s.state.asksJ = true) c]
      refine fused_ask hZ (F := fun j ej bj => .union i' ei' (if s.state.asksI then some s.i.head? else none) j ej bj s.state s.tmp)
        ?_ ?_ ?_ hj
      · intro i; simp only [Pipe.step, nb, c]; rfl
      · intro a a' h; simp only [Pipe.step, nb, c, h]; rfl
      · intro a a' o h; simp only [Pipe.step, nb, c, h]; rfl
    · rw [if_neg (c := s.state.asksJ = true) c, if_neg (c := s.state.asksJ = true) c]
      exact ⟨j, ej, .refl, hj⟩
  obtain ⟨j', ej', b1, b2⟩ := B
  have nb' : (s.state.asksJ && (if s.state.asksJ = true then some s.j.head? else none).isNone) = false := by
    by_cases c : s.state.asksJ = true
    · rw [if_pos c]; simp
    · rw [if_neg c]; simp [c]
  have l := union_local s
  refine ⟨i', ei', j', ej', _, a1.trans b1, ?_, ?_, ?_⟩
  · rw [l]
    simp only [Pipe.step, nb, nb', Bool.false_eq_true, if_false]
  · rw [l]; exact a2
  · rw [l]; exact b2

theorem union_next {dbg : Bool} {Y Z : Pipe → List Iv → Prop} (hY : Follows dbg Y) (hZ : Follows dbg Z) (s : UnionIter) {i j : Pipe} {ei ej : Bool} (hi : Fused Y i ei s.i) (hj : Fused Z j ej s.j) :
    ∃ i' ei' j' ej', (Pipe.union i ei none j ej none s.state s.tmp).Next dbg
        (.ok (s.next.1, .union i' ei' none j' ej' none s.next.2.state s.next.2.tmp)) ∧
      Fused Y i' ei' s.next.2.i ∧ Fused Z j' ej' s.next.2.j := by
  fun_induction UnionIter.next s generalizing i j ei ej with
  | case1 s o s1 hs =>
    obtain ⟨i', ei', j', ej', q, t1, t2, t3, t4⟩ := union_turn hY hZ s hi hj
    rw [hs] at t2 t3 t4
    exact ⟨i', ei', j', ej', t1.next (.ret t2), t3, t4⟩
  | case2 s s1 hs ih =>
    obtain ⟨i', ei', j', ej', q, t1, t2, t3, t4⟩ := union_turn hY hZ s hi hj
    rw [hs] at t2 t3 t4
    obtain ⟨i2, ei2, j2, ej2, n1, n2, n3⟩ := ih t3 t4
    exact ⟨i2, ei2, j2, ej2, t1.next (.loop t2 n1), n2, n3⟩

theorem union_yields {dbg : Bool} (s : UnionIter) {i j : Pipe} {ei ej : Bool} (hi : Fused (Yields dbg) i ei s.i) (hj : Fused (Yields dbg) j ej s.j) :
    Yields dbg (.union i ei none j ej none s.state s.tmp) s.drain := by
  fun_induction UnionIter.drain s generalizing i j ei ej with
  | case1 s s1 hs =>
    obtain ⟨i', ei', j', ej', n1, n2, n3⟩ := union_next (yields_follows dbg) (yields_follows dbg) s hi hj
    rw [hs] at n1
    exact .done n1
  | case2 s x s1 hs ih =>
    obtain ⟨i', ei', j', ej', n1, n2, n3⟩ := union_next (yields_follows dbg) (yields_follows dbg) s hi hj
    rw [hs] at n1 n2 n3
    exact .item n1 (ih n2 n3)

/-! ## Inter -/

theorem inter_local (s : InterIter) :
    s.step = ((InterIter.step ⟨answer (if s.state.asksI then some s.i.head? else none),
        answer (if s.state.asksJ then some s.j.head? else none), s.state, s.tmp⟩).1,
      ⟨if s.state.asksI then s.i.tail else s.i, if s.state.asksJ then s.j.tail else s.j,
        (InterIter.step ⟨answer (if s.state.asksI then some s.i.head? else none),
          answer (if s.state.asksJ then some s.j.head? else none), s.state, s.tmp⟩).2.state,
        (InterIter.step ⟨answer (if s.state.asksI then some s.i.head? else none),
          answer (if s.state.asksJ then some s.j.head? else none), s.state, s.tmp⟩).2.tmp⟩) := by
  rcases s with ⟨i, j, st, tmp⟩
  cases st <;> cases i <;> cases j <;>
    simp only [NState.asksI, NState.asksJ, answer, InterIter.step, List.head?, List.tail, Option.getD, Option.toList,
      if_true, if_false, Bool.false_eq_true] <;> (repeat' split) <;> simp_all

theorem inter_turn {dbg : Bool} {Y Z : Pipe → List Iv → Prop} (hY : Follows dbg Y) (hZ : Follows dbg Z) (s : InterIter) {i j : Pipe} {ei ej : Bool} (hi : Fused Y i ei s.i) (hj : Fused Z j ej s.j) :
    ∃ i' ei' j' ej' q, Loops dbg (.inter i ei none j ej none s.state s.tmp) q ∧
      q.step dbg = .ok (s.step.1, .inter i' ei' none j' ej' none s.step.2.state s.step.2.tmp) ∧
      Fused Y i' ei' s.step.2.i ∧ Fused Z j' ej' s.step.2.j := by
  have A : ∃ i' ei', Loops dbg (.inter i ei none j ej none s.state s.tmp)
      (.inter i' ei' (if s.state.asksI then some s.i.head? else none) j ej none s.state s.tmp) ∧
      Fused Y i' ei' (if s.state.asksI then s.i.tail else s.i) := by
    by_cases c : s.state.asksI = true
    · rw [if_pos c, if_pos c]
      refine fused_ask hY (F := fun i ei bi => .inter i ei bi j ej none s.state s.tmp) ?_ ?_ ?_ hi
      · intro i; simp only [Pipe.step, c]; rfl
      · intro a a' h; simp only [Pipe.step, c, h]; rfl
      · intro a a' o h; simp only [Pipe.step, c, h]; rfl
    · rw [if_neg c, if_neg c]
      exact ⟨i, ei, .refl, hi⟩
  obtain ⟨i', ei', a1, a2⟩ := A
  have nb : (s.state.asksI && (if s.state.asksI = true then some s.i.head? else none).isNone) = false := by
    by_cases c : s.state.asksI = true
    · rw [if_pos c]; simp
    · rw [if_neg c]; simp [c]
  have B : ∃ j' ej', Loops dbg (.inter i' ei' (if s.state.asksI then some s.i.head? else none) j ej none s.state s.tmp)
      (.inter i' ei' (if s.state.asksI then some s.i.head? else none) j' ej'
        (if s.state.asksJ then some s.j.head? else none) s.state s.tmp) ∧
      Fused Z j' ej' (if s.state.asksJ then s.j.tail else s.j) := by
    by_cases c : s.state.asksJ = true
    · rw [if_pos (c := s.state.asksJ = true) c, if_pos (c := s.state.asksJ = true) c]
      refine fused_ask hZ (F := fun j ej bj => .inter i' ei' (if s.state.asksI then some s.i.head? else none) j ej bj s.state s.tmp)
        ?_ ?_ ?_ hj
      · intro i; simp only [Pipe.step, nb, c]; rfl
      · intro a a' h; simp only [Pipe.step, nb, c, h]; rfl
      · intro a a' o h; simp only [Pipe.step, nb, c, h]; rfl
    · rw [if_neg (c := s.state.asksJ = true) c, if_neg (c := s.state.asksJ = true) c]
      exact ⟨j, ej, .refl, hj⟩
  obtain ⟨j', ej', b1, b2⟩ := B
  have nb' : (s.state.asksJ && (if s.state.asksJ = true then some s.j.head? else none).isNone) = false := by
    by_cases c : s.state.asksJ = true
    · rw [if_pos c]; simp
    · rw [if_neg c]; simp [c]
  have l := inter_local s
  refine ⟨i', ei', j', ej', _, a1.trans b1, ?_, ?_, ?_⟩
  · rw [l]
    simp only [Pipe.step, nb, nb', Bool.false_eq_true, if_false]
  · rw [l]; exact a2
  · rw [l]; exact b2

theorem inter_next {dbg : Bool} {Y Z : Pipe → List Iv → Prop} (hY : Follows dbg Y) (hZ : Follows dbg Z) (s : InterIter) {i j : Pipe} {ei ej : Bool} (hi : Fused Y i ei s.i) (hj : Fused Z j ej s.j) :
    ∃ i' ei' j' ej', (Pipe.inter i ei none j ej none s.state s.tmp).Next dbg
        (.ok (s.next.1, .inter i' ei' none j' ej' none s.next.2.state s.next.2.tmp)) ∧
      Fused Y i' ei' s.next.2.i ∧ Fused Z j' ej' s.next.2.j := by
  fun_induction InterIter.next s generalizing i j ei ej with
  | case1 s o s1 hs =>
    obtain ⟨i', ei', j', ej', q, t1, t2, t3, t4⟩ := inter_turn hY hZ s hi hj
    rw [hs] at t2 t3 t4
    exact ⟨i', ei', j', ej', t1.next (.ret t2), t3, t4⟩
  | case2 s s1 hs ih =>
    obtain ⟨i', ei', j', ej', q, t1, t2, t3, t4⟩ := inter_turn hY hZ s hi hj
    rw [hs] at t2 t3 t4
    obtain ⟨i2, ei2, j2, ej2, n1, n2, n3⟩ := ih t3 t4
    exact ⟨i2, ei2, j2, ej2, t1.next (.loop t2 n1), n2, n3⟩

theorem inter_yields {dbg : Bool} (s : InterIter) {i j : Pipe} {ei ej : Bool} (hi : Fused (Yields dbg) i ei s.i) (hj : Fused (Yields dbg) j ej s.j) :
    Yields dbg (.inter i ei none j ej none s.state s.tmp) s.drain := by
  fun_induction InterIter.drain s generalizing i j ei ej with
  | case1 s s1 hs =>
    obtain ⟨i', ei', j', ej', n1, n2, n3⟩ := inter_next (yields_follows dbg) (yields_follows dbg) s hi hj
    rw [hs] at n1
    exact .done n1
  | case2 s x s1 hs ih =>
    obtain ⟨i', ei', j', ej', n1, n2, n3⟩ := inter_next (yields_follows dbg) (yields_follows dbg) s hi hj
    rw [hs] at n1 n2 n3
    exact .item n1 (ih n2 n3)


/-! ## Complement -/

theorem compl_next {dbg : Bool} {Y : Pipe → List Iv → Prop} (hY : Follows dbg Y) (lower : Int) (inFor : Bool) {a : Pipe} {ea : Bool} {l : List Iv} (h : Fused Y a ea l) :
    ∃ a' ea', (Pipe.compl a ea lower inFor).Next dbg
        (.ok ((if inFor then ComplIter.scan lower l else ComplIter.next ⟨l, lower⟩).1,
          .compl a' ea' (if inFor then ComplIter.scan lower l else ComplIter.next ⟨l, lower⟩).2.lower false)) ∧
      Fused Y a' ea' (if inFor then ComplIter.scan lower l else ComplIter.next ⟨l, lower⟩).2.iter := by
  induction l generalizing a ea lower inFor with
  | nil =>
    have e : (if inFor then ComplIter.scan lower [] else ComplIter.next ⟨[], lower⟩) = ComplIter.scan lower [] := by
      cases inFor
      · simp only [ComplIter.next, Bool.false_eq_true, if_false, ite_self]
      · rfl
    have t : complTurn lower inFor none = (.ret (ComplIter.scan lower []).1, (ComplIter.scan lower []).2.lower, false) := by
      simp only [complTurn, ComplIter.scan]
      split <;> rfl
    have t' : (ComplIter.scan lower []).2.iter = [] := by
      simp only [ComplIter.scan]
      split <;> rfl
    rw [e, t']
    rcases h with ⟨rfl, -⟩ | ⟨rfl, h⟩
    · refine ⟨a, true, .ret ?_, Or.inl ⟨rfl, rfl⟩⟩
      simp only [Pipe.step, if_true, t]
    · obtain ⟨a', k, -⟩ := hY a [] h
      have k : a.Next dbg (.ok (none, a')) := k
      · obtain ⟨b, k1, k2⟩ := next_inner (F := fun a => .compl a false lower inFor)
          (G := fun o a => ((complTurn lower inFor o).1, .compl a o.isNone (complTurn lower inFor o).2.1 (complTurn lower inFor o).2.2))
          (fun x x' hx => by simp only [Pipe.step, hx]; rfl) k (fun x hx => by simp only [Pipe.step, hx]; rfl)
        rw [t] at k2
        exact ⟨a', true, k1.next (.ret k2), Or.inl ⟨rfl, rfl⟩⟩
  | cons x l ih =>
    rcases h with ⟨-, h⟩ | ⟨rfl, h⟩
    · cases h
    · obtain ⟨a', k, kt⟩ := hY a _ h
      have k : a.Next dbg (.ok (some x, a')) := k
      · obtain ⟨b, k1, k2⟩ := next_inner (F := fun a => .compl a false lower inFor)
          (G := fun o a => ((complTurn lower inFor o).1, .compl a o.isNone (complTurn lower inFor o).2.1 (complTurn lower inFor o).2.2))
          (fun x x' hx => by simp only [Pipe.step, hx]; rfl) k (fun x hx => by simp only [Pipe.step, hx]; rfl)
        have f : Fused Y a' false l := Or.inr ⟨rfl, kt (by simp)⟩
        by_cases c : inFor = false ∧ isPastInfinite lower = true
        · have e : (if inFor then ComplIter.scan lower (x :: l) else ComplIter.next ⟨x :: l, lower⟩) =
              if justBefore x.lower == -INF then ComplIter.scan (justAfter x.upper) l
              else (some ⟨-INF, justBefore x.lower⟩, ⟨l, justAfter x.upper⟩) := by
            rw [c.1]
            simp only [ComplIter.next, c.2, Bool.false_eq_true, if_false, if_true]
          have t : complTurn lower inFor (some x) = if justBefore x.lower == -INF then (.loop, justAfter x.upper, true)
              else (.ret (some ⟨-INF, justBefore x.lower⟩), justAfter x.upper, false) := by
            simp only [complTurn, c.1, c.2, Bool.not_false, Bool.and_self, if_true]
          rw [e]
          rw [t] at k2
          by_cases d : (justBefore x.lower == -INF) = true
          · rw [if_pos d] at k2 ⊢
            obtain ⟨a2, e2, n1, n2⟩ := ih (justAfter x.upper) true f
            rw [if_pos rfl] at n1 n2
            exact ⟨a2, e2, k1.next (.loop k2 n1), n2⟩
          · rw [if_neg d] at k2 ⊢
            exact ⟨a', false, k1.next (.ret k2), f⟩
        · have e : (if inFor then ComplIter.scan lower (x :: l) else ComplIter.next ⟨x :: l, lower⟩) =
              ComplIter.scan lower (x :: l) := by
            cases inFor
            · simp only [true_and] at c
              simp only [ComplIter.next, c, Bool.false_eq_true, if_false]
            · rfl
          have t : complTurn lower inFor (some x) = if lower < x.lower then
              (.ret (some ⟨lower, justBefore x.lower⟩), justAfter x.upper, false) else (.loop, lower, true) := by
            simp only [complTurn]
            rw [if_neg]
            simp only [Bool.and_eq_true, Bool.not_eq_true']
            exact c
          rw [e]
          rw [t] at k2
          simp only [ComplIter.scan]
          by_cases d : lower < x.lower
          · rw [if_pos d] at k2 ⊢
            exact ⟨a', false, k1.next (.ret k2), f⟩
          · rw [if_neg d] at k2 ⊢
            obtain ⟨a2, e2, n1, n2⟩ := ih lower true f
            rw [if_pos rfl] at n1 n2
            exact ⟨a2, e2, k1.next (.loop k2 n1), n2⟩

theorem compl_yields {dbg : Bool} (s : ComplIter) {a : Pipe} {ea : Bool} (h : Fused (Yields dbg) a ea s.iter) :
    Yields dbg (.compl a ea s.lower false) s.drain := by
  fun_induction ComplIter.drain s generalizing a ea with
  | case1 s s1 hs =>
    obtain ⟨a', ea', n1, n2⟩ := compl_next (yields_follows dbg) s.lower false h
    rw [if_neg (by decide), show (⟨s.iter, s.lower⟩ : ComplIter) = s from rfl, hs] at n1
    exact .done n1
  | case2 s x s1 hs ih =>
    obtain ⟨a', ea', n1, n2⟩ := compl_next (yields_follows dbg) s.lower false h
    rw [if_neg (by decide), show (⟨s.iter, s.lower⟩ : ComplIter) = s from rfl, hs] at n1 n2
    exact .item n1 (ih n2)

/-! ## The other ones -/

theorem inner_ret {dbg : Bool} {F F' : Pipe → Pipe}
    (h1 : ∀ a a', a.step dbg = .ok (.loop, a') → (F a).step dbg = .ok (.loop, F a'))
    {a a' : Pipe} {o o' : Option Iv} (h : a.Next dbg (.ok (o, a')))
    (h2 : ∀ b, b.step dbg = .ok (.ret o, a') → (F b).step dbg = .ok (.ret o', F' a')) : (F a).Next dbg (.ok (o', F' a')) := by
  obtain ⟨b, k1, k2⟩ := next_inner (G := fun _ a => (.ret o', F' a)) h1 h h2
  exact k1.next (.ret k2)

theorem inner_loop {dbg : Bool} {F F' : Pipe → Pipe}
    (h1 : ∀ a a', a.step dbg = .ok (.loop, a') → (F a).step dbg = .ok (.loop, F a'))
    {a a' : Pipe} {o : Option Iv} (h : a.Next dbg (.ok (o, a')))
    (h2 : ∀ b, b.step dbg = .ok (.ret o, a') → (F b).step dbg = .ok (.loop, F' a'))
    {r : Res (Option Iv × Pipe)} (hr : (F' a').Next dbg r) : (F a).Next dbg r := by
  obtain ⟨b, k1, k2⟩ := next_inner (G := fun _ a => (.loop, F' a)) h1 h h2
  exact k1.next (.loop k2 hr)

theorem items_yields {dbg : Bool} : ∀ l : List Iv, Yields dbg (.items l) l
  | [] => .done (p' := .items []) (.ret (by simp only [Pipe.step]))
  | _ :: l => .item (p' := .items l) (.ret (by simp only [Pipe.step])) (items_yields l)

theorem transl_yields {dbg : Bool} {d : Int} {a : Pipe} {l r : List Iv} (h : Yields dbg a l) (e : TSet.translIter dbg d l = .ok r) :
    Yields dbg (.transl d a) r := by
  have h1 : ∀ a a', a.step dbg = .ok (.loop, a') → (Pipe.transl d a).step dbg = .ok (.loop, .transl d a') :=
    fun x x' hx => by simp only [Pipe.step, hx]; rfl
  induction h generalizing r with
  | done k =>
    cases e
    exact .done (inner_ret (F' := .transl d) h1 k (fun x hx => by simp only [Pipe.step, hx]; rfl))
  | item k _ ih =>
    rename_i x l _
    rw [TSet.translIter] at e
    obtain ⟨y, e1, e⟩ := bind_ok e
    have n := inner_ret (F' := .transl d) (o' := if y.isEmpty then none else some y) h1 k (fun b hb => by
      simp only [Pipe.step, hb, ok_bind, e1]; rfl)
    split at e
    · next c =>
      cases e
      rw [if_pos c] at n
      exact .done n
    · next c =>
      obtain ⟨r', e2, e⟩ := bind_ok e
      cases e
      rw [if_neg c] at n
      exact .item n (ih e2)

theorem scale_yields {dbg : Bool} {ty : Iv.ScaleTy} {n : Int} {a : Pipe} {l r : List Iv} (h : Yields dbg a l)
    (e : TSet.scaleIter ty n l = .ok r) : Yields dbg (.scale ty n a) r := by
  have h1 : ∀ a a', a.step dbg = .ok (.loop, a') → (Pipe.scale ty n a).step dbg = .ok (.loop, .scale ty n a') :=
    fun x x' hx => by simp only [Pipe.step, hx]; rfl
  induction h generalizing r with
  | done k =>
    cases e
    exact .done (inner_ret (F' := .scale ty n) h1 k (fun x hx => by simp only [Pipe.step, hx]; rfl))
  | item k _ ih =>
    rename_i x l _
    rw [TSet.scaleIter] at e
    obtain ⟨y, e1, e⟩ := bind_ok e
    have n := inner_ret (F' := .scale ty n) (o' := if y.isEmpty then none else some y) h1 k (fun b hb => by
      simp only [Pipe.step, hb, ok_bind, e1]; rfl)
    split at e
    · next c =>
      cases e
      rw [if_pos c] at n
      exact .done n
    · next c =>
      obtain ⟨r', e2, e⟩ := bind_ok e
      cases e
      rw [if_neg c] at n
      exact .item n (ih e2)

theorem yields_loop {dbg : Bool} {p q : Pipe} {l : List Iv} (h : ∀ r, q.Next dbg r → p.Next dbg r) (y : Yields dbg q l) :
    Yields dbg p l := by
  cases y with
  | done k => exact .done (h _ k)
  | item k kt => exact .item (h _ k) kt

theorem filter_yields {dbg : Bool} {f : Iv → Bool} {a : Pipe} {l : List Iv} (h : Yields dbg a l) :
    Yields dbg (.filter f a) (l.filter f) := by
  have h1 : ∀ a a', a.step dbg = .ok (.loop, a') → (Pipe.filter f a).step dbg = .ok (.loop, .filter f a') :=
    fun x x' hx => by simp only [Pipe.step, hx]; rfl
  induction h with
  | done k => exact .done (inner_ret (F' := .filter f) h1 k (fun x hx => by simp only [Pipe.step, hx]; rfl))
  | item k _ ih =>
    rename_i x l _
    by_cases c : f x = true
    · rw [List.filter_cons_of_pos c]
      exact .item (inner_ret (F' := .filter f) h1 k (fun b hb => by simp only [Pipe.step, hb, ok_bind, c]; rfl)) ih
    · rw [List.filter_cons_of_neg c]
      exact yields_loop (fun r hr => inner_loop (F' := .filter f) h1 k
        (fun b hb => by simp only [Pipe.step, hb, ok_bind, c]; rfl) hr) ih

theorem started_yields {dbg : Bool} {f : Iv → Bool} {a : Pipe} {l : List Iv} (h : Yields dbg a l) :
    Yields dbg (.skipWhile f true a) l := by
  have h1 : ∀ a a', a.step dbg = .ok (.loop, a') → (Pipe.skipWhile f true a).step dbg = .ok (.loop, .skipWhile f true a') :=
    fun x x' hx => by simp only [Pipe.step, hx]; rfl
  induction h with
  | done k => exact .done (inner_ret (F' := .skipWhile f true) h1 k (fun x hx => by simp only [Pipe.step, hx]; rfl))
  | item k _ ih => exact .item (inner_ret (F' := .skipWhile f true) h1 k (fun x hx => by simp only [Pipe.step, hx]; rfl)) ih

theorem skipWhile_yields {dbg : Bool} {f : Iv → Bool} {a : Pipe} {l : List Iv} (h : Yields dbg a l) :
    Yields dbg (.skipWhile f false a) (l.dropWhile f) := by
  have h1 : ∀ a a', a.step dbg = .ok (.loop, a') → (Pipe.skipWhile f false a).step dbg = .ok (.loop, .skipWhile f false a') :=
    fun x x' hx => by simp only [Pipe.step, hx]; rfl
  induction h with
  | done k => exact .done (inner_ret (F' := .skipWhile f false) h1 k (fun x hx => by simp only [Pipe.step, hx]; rfl))
  | item k kt ih =>
    rename_i x l
    by_cases c : f x = true
    · rw [List.dropWhile_cons_of_pos c]
      exact yields_loop (fun r hr => inner_loop (F' := .skipWhile f false) h1 k
        (fun b hb => by simp only [Pipe.step, hb, ok_bind, c]; rfl) hr) ih
    · rw [List.dropWhile_cons_of_neg c]
      exact .item (inner_ret (F' := .skipWhile f true) h1 k (fun b hb => by simp only [Pipe.step, hb, ok_bind, c]; rfl))
        (started_yields kt)

theorem takeWhile_yields {dbg : Bool} {f : Iv → Bool} {a : Pipe} {l : List Iv} (h : Yields dbg a l) :
    Yields dbg (.takeWhile f false a) (l.takeWhile f) := by
  have h1 : ∀ a a', a.step dbg = .ok (.loop, a') → (Pipe.takeWhile f false a).step dbg = .ok (.loop, .takeWhile f false a') :=
    fun x x' hx => by simp only [Pipe.step, hx]; rfl
  induction h with
  | done k => exact .done (inner_ret (F' := .takeWhile f false) h1 k (fun x hx => by simp only [Pipe.step, hx]; rfl))
  | item k kt ih =>
    rename_i x l
    by_cases c : f x = true
    · rw [List.takeWhile_cons_of_pos c]
      exact .item (inner_ret (F' := .takeWhile f false) h1 k (fun b hb => by simp only [Pipe.step, hb, ok_bind, c]; rfl)) ih
    · rw [List.takeWhile_cons_of_neg c]
      exact .done (inner_ret (F' := .takeWhile f true) h1 k (fun b hb => by simp only [Pipe.step, hb, ok_bind, c]; rfl))

theorem skip_yields {dbg : Bool} {n : Nat} {a : Pipe} {l : List Iv} (h : Yields dbg a l) :
    Yields dbg (.skip n a) (l.drop n) := by
  have h1 : ∀ n a a', a.step dbg = .ok (.loop, a') → (Pipe.skip n a).step dbg = .ok (.loop, .skip n a') :=
    fun n x x' hx => by simp only [Pipe.step, hx]; rfl
  induction h generalizing n with
  | done k =>
    rw [List.drop_nil]
    exact .done (inner_ret (F := .skip n) (F' := .skip 0) (h1 n) k (fun x hx => by simp only [Pipe.step, hx]; rfl))
  | item k kt ih =>
    rename_i x l
    cases n with
    | zero => exact .item (inner_ret (F' := .skip 0) (h1 0) k (fun b hb => by simp only [Pipe.step, hb, ok_bind]; rfl)) (ih (n := 0))
    | succ n =>
      rw [List.drop_succ_cons]
      exact yields_loop (fun r hr => inner_loop (F := .skip (n + 1)) (F' := .skip n) (h1 _) k
        (fun b hb => by simp only [Pipe.step, hb, ok_bind]; rfl) hr) ih

theorem take_loop {dbg : Bool} (n : Nat) : ∀ a a', a.step dbg = .ok (.loop, a') →
    (Pipe.take (n + 1) a).step dbg = .ok (.loop, .take (n + 1) a') :=
  fun x x' hx => by simp only [Pipe.step, hx]; rfl

theorem take_yields {dbg : Bool} {n : Nat} {a : Pipe} {l : List Iv} (h : Yields dbg a l) :
    Yields dbg (.take n a) (l.take n) := by
  induction h generalizing n with
  | @done a a' k =>
    rw [List.take_nil]
    cases n with
    | zero => exact .done (p' := .take 0 a) (.ret (by simp only [Pipe.step]))
    | succ n => exact .done (inner_ret (F := .take (n + 1)) (F' := .take n) (take_loop n) k (fun b hb => by simp only [Pipe.step, hb, ok_bind]; rfl))
  | @item a a' x l k kt ih =>
    cases n with
    | zero => exact .done (p' := .take 0 a) (.ret (by simp only [Pipe.step]))
    | succ n =>
      rw [List.take_succ_cons]
      exact .item (inner_ret (F := .take (n + 1)) (F' := .take n) (take_loop n) k (fun b hb => by simp only [Pipe.step, hb, ok_bind]; rfl)) ih

/-- the items of a list after `r` skipped ones, by steps of `k + 1` -/
theorem stepBy_yields {dbg : Bool} {k r : Nat} {a : Pipe} {l : List Iv} (h : Yields dbg a l) :
    Yields dbg (.stepBy k r a) (stepList k (l.drop r)) := by
  have h1 : ∀ r a a', a.step dbg = .ok (.loop, a') → (Pipe.stepBy k r a).step dbg = .ok (.loop, .stepBy k r a') :=
    fun n x x' hx => by simp only [Pipe.step, hx]; rfl
  induction h generalizing r with
  | done h =>
    rw [List.drop_nil, stepList]
    exact .done (inner_ret (F := .stepBy k r) (F' := .stepBy k k) (h1 r) h (fun x hx => by simp only [Pipe.step, hx]; rfl))
  | item h kt ih =>
    rename_i x l
    cases r with
    | zero =>
      rw [List.drop_zero, stepList]
      exact .item (inner_ret (F := .stepBy k 0) (F' := .stepBy k k) (h1 0) h (fun b hb => by simp only [Pipe.step, hb, ok_bind]; rfl)) ih
    | succ r =>
      rw [List.drop_succ_cons]
      exact yields_loop (fun q hr => inner_loop (F := .stepBy k (r + 1)) (F' := .stepBy k r) (h1 _) h
        (fun b hb => by simp only [Pipe.step, hb, ok_bind]; rfl) hr) ih

theorem same_yields {dbg : Bool} {a : Pipe} {l : List Iv} (h : Yields dbg a l) : Yields dbg (.same a) l := by
  have h1 : ∀ a a', a.step dbg = .ok (.loop, a') → (Pipe.same a).step dbg = .ok (.loop, .same a') :=
    fun x x' hx => by simp only [Pipe.step, hx]; rfl
  induction h with
  | done k => exact .done (inner_ret (F' := .same) h1 k (fun x hx => by simp only [Pipe.step, hx]; rfl))
  | item k _ ih => exact .item (inner_ret (F' := .same) h1 k (fun x hx => by simp only [Pipe.step, hx]; rfl)) ih

theorem Spec.Yields.fused {dbg : Bool} {a : Pipe} {l : List Iv} (h : Yields dbg a l) : Fused (Yields dbg) a false l := Or.inr ⟨rfl, h⟩

/-- the lazy evaluation yields the items of the eager one -/
theorem chain_yields {dbg : Bool} {c : Chain} {l : List Iv} (h : c.items dbg = .ok l) :
    ∃ p, c.start = .ok p ∧ Yields dbg p l := by
  induction c generalizing l with
  | set s => cases h; exact ⟨_, rfl, items_yields s⟩
  | win w => cases h; exact ⟨_, rfl, items_yields _⟩
  | into w => cases h; exact ⟨_, rfl, items_yields _⟩
  | union a b iha ihb =>
    obtain ⟨x, e1, h⟩ := bind_ok h
    obtain ⟨y, e2, h⟩ := bind_ok h
    cases h
    obtain ⟨p, p1, p2⟩ := iha e1
    obtain ⟨q, q1, q2⟩ := ihb e2
    refine ⟨_, by rw [Chain.start, p1, ok_bind, q1, ok_bind]; rfl, ?_⟩
    exact union_yields (UnionIter.new x y) p2.fused q2.fused
  | inter a b iha ihb =>
    obtain ⟨x, e1, h⟩ := bind_ok h
    obtain ⟨y, e2, h⟩ := bind_ok h
    cases h
    obtain ⟨p, p1, p2⟩ := iha e1
    obtain ⟨q, q1, q2⟩ := ihb e2
    refine ⟨_, by rw [Chain.start, p1, ok_bind, q1, ok_bind]; rfl, ?_⟩
    exact inter_yields (InterIter.new x y) p2.fused q2.fused
  | excl a b iha ihb =>
    obtain ⟨x, e1, h⟩ := bind_ok h
    obtain ⟨y, e2, h⟩ := bind_ok h
    cases h
    obtain ⟨p, p1, p2⟩ := iha e1
    obtain ⟨q, q1, q2⟩ := ihb e2
    refine ⟨_, by rw [Chain.start, p1, ok_bind, q1, ok_bind]; rfl, ?_⟩
    exact inter_yields (InterIter.new x _) p2.fused (compl_yields (ComplIter.new y) q2.fused).fused
  | compl a iha =>
    obtain ⟨x, e1, h⟩ := bind_ok h
    cases h
    obtain ⟨p, p1, p2⟩ := iha e1
    refine ⟨_, by rw [Chain.start, p1, ok_bind]; rfl, ?_⟩
    exact compl_yields (ComplIter.new x) p2.fused
  | transl d a iha =>
    obtain ⟨x, e1, h⟩ := bind_ok h
    obtain ⟨p, p1, p2⟩ := iha e1
    exact ⟨_, by rw [Chain.start, p1, ok_bind]; rfl, transl_yields p2 h⟩
  | scale ty n a iha =>
    obtain ⟨x, e1, h⟩ := bind_ok h
    obtain ⟨p, p1, p2⟩ := iha e1
    exact ⟨_, by rw [Chain.start, p1, ok_bind]; rfl, scale_yields p2 h⟩
  | filter f a iha =>
    obtain ⟨x, e1, h⟩ := bind_ok h
    cases h
    obtain ⟨p, p1, p2⟩ := iha e1
    exact ⟨_, by rw [Chain.start, p1, ok_bind]; rfl, filter_yields p2⟩
  | skipWhile f a iha =>
    obtain ⟨x, e1, h⟩ := bind_ok h
    cases h
    obtain ⟨p, p1, p2⟩ := iha e1
    exact ⟨_, by rw [Chain.start, p1, ok_bind]; rfl, skipWhile_yields p2⟩
  | takeWhile f a iha =>
    obtain ⟨x, e1, h⟩ := bind_ok h
    cases h
    obtain ⟨p, p1, p2⟩ := iha e1
    exact ⟨_, by rw [Chain.start, p1, ok_bind]; rfl, takeWhile_yields p2⟩
  | skip n a iha =>
    obtain ⟨x, e1, h⟩ := bind_ok h
    cases h
    obtain ⟨p, p1, p2⟩ := iha e1
    exact ⟨_, by rw [Chain.start, p1, ok_bind]; rfl, skip_yields p2⟩
  | take n a iha =>
    obtain ⟨x, e1, h⟩ := bind_ok h
    cases h
    obtain ⟨p, p1, p2⟩ := iha e1
    exact ⟨_, by rw [Chain.start, p1, ok_bind]; rfl, take_yields p2⟩
  | stepBy n a iha =>
    cases n with
    | zero => cases h
    | succ n =>
      obtain ⟨x, e1, h⟩ := bind_ok h
      cases h
      obtain ⟨p, p1, p2⟩ := iha e1
      refine ⟨_, by rw [Chain.start, p1, ok_bind]; rfl, ?_⟩
      exact stepBy_yields (r := 0) p2
  | same a iha =>
    obtain ⟨p, p1, p2⟩ := iha h
    exact ⟨_, by rw [Chain.start, p1, ok_bind]; rfl, same_yields p2⟩

/-! ## Termination -/

/-- Proof-only measure: an inner iterator behind `Fuse` -/
def fuseW (e : Bool) (w : Nat) : Nat := if e then 0 else w + 1
/-- Proof-only measure: an answer waiting to be looked at -/
def answerW : Option (Option Iv) → Nat
  | none => 1
  | some none => 0
  | some (some _) => 3
/-- Proof-only measure: a pending interval -/
def UState.weight : UState → Nat
  | .waitI | .waitJ => 3
  | _ => 0
/-- Proof-only measure: a pending interval -/
def NState.weight : NState → Nat
  | .waitI | .waitJ => 3
  | _ => 0

/-- Proof-only measure: decreases at each turn which does not end the iteration -/
def Pipe.weight : Pipe → Nat
  | .items l => l.length
  | .union i ei bi j ej bj st _ => 4 * (fuseW ei i.weight + fuseW ej j.weight) + answerW bi + answerW bj + st.weight
  | .inter i ei bi j ej bj st _ => 4 * (fuseW ei i.weight + fuseW ej j.weight) + answerW bi + answerW bj + st.weight
  | .compl a ea lower _ => 4 * fuseW ea a.weight + (if isFutureInfinite lower then 0 else 1)
  | .transl _ a => a.weight
  | .scale _ _ a => a.weight
  | .filter _ a => a.weight
  | .skipWhile _ _ a => a.weight
  | .takeWhile _ _ a => a.weight
  | .skip _ a => a.weight
  | .take _ a => a.weight
  | .stepBy _ _ a => a.weight
  | .same a => a.weight

theorem union_own {bi bj : Option (Option Iv)} {st : UState} {tmp : Iv} {t : Turn} {u : UnionIter}
    (h : UnionIter.step ⟨answer bi, answer bj, st, tmp⟩ = (t, u)) (ht : t ≠ .ret none)
    (hi : (st.asksI && bi.isNone) = false) (hj : (st.asksJ && bj.isNone) = false) :
    answerW none + answerW none + u.state.weight < answerW bi + answerW bj + st.weight := by
  rcases bi with _ | _ | bi <;> rcases bj with _ | _ | bj <;> cases st <;>
    simp only [UnionIter.step, answer, Option.getD, Option.toList, UState.asksI, UState.asksJ, Option.isNone, Bool.and_true,
      Bool.and_self, Bool.and_false, Bool.true_eq_false] at h hi hj <;> (repeat' split at h) <;> cases h <;>
    first | exact absurd rfl ht | (simp only [answerW, UState.weight]; omega)

theorem inter_own {bi bj : Option (Option Iv)} {st : NState} {tmp : Iv} {t : Turn} {u : InterIter}
    (h : InterIter.step ⟨answer bi, answer bj, st, tmp⟩ = (t, u)) (ht : t ≠ .ret none)
    (hi : (st.asksI && bi.isNone) = false) (hj : (st.asksJ && bj.isNone) = false) :
    answerW none + answerW none + u.state.weight < answerW bi + answerW bj + st.weight := by
  rcases bi with _ | _ | bi <;> rcases bj with _ | _ | bj <;> cases st <;>
    simp only [InterIter.step, answer, Option.getD, Option.toList, NState.asksI, NState.asksJ, Option.isNone, Bool.and_true,
      Bool.and_self, Bool.and_false, Bool.true_eq_false] at h hi hj <;> (repeat' split at h) <;> cases h <;>
    first | exact absurd rfl ht | (simp only [answerW, NState.weight]; omega)

theorem compl_own {lower lo : Int} {inFor f : Bool} {o : Option Iv} {t : Turn} (h : complTurn lower inFor o = (t, lo, f))
    (ht : t ≠ .ret none) :
    (if isFutureInfinite lo then 0 else 1) < (if isFutureInfinite lower then 0 else 1) + if o.isSome then 4 else 0 := by
  have : (if isFutureInfinite lo then 0 else 1 : Nat) ≤ 1 := by split <;> omega
  cases o with
  | some x => simp only [Option.isSome, if_true]; omega
  | none =>
    rw [complTurn] at h
    split at h
    · cases h; exact absurd rfl ht
    · next c =>
      cases h
      rw [if_neg c]
      decide

theorem union_own' {bi bj : Option (Option Iv)} {st : UState} {tmp : Iv}
    (ht : (UnionIter.step ⟨answer bi, answer bj, st, tmp⟩).1 ≠ .ret none)
    (hi : (st.asksI && bi.isNone) = false) (hj : (st.asksJ && bj.isNone) = false) :
    answerW none + answerW none + (UnionIter.step ⟨answer bi, answer bj, st, tmp⟩).2.state.weight <
      answerW bi + answerW bj + st.weight := by
  generalize h : UnionIter.step ⟨answer bi, answer bj, st, tmp⟩ = r at ht
  exact union_own h ht hi hj

theorem inter_own' {bi bj : Option (Option Iv)} {st : NState} {tmp : Iv}
    (ht : (InterIter.step ⟨answer bi, answer bj, st, tmp⟩).1 ≠ .ret none)
    (hi : (st.asksI && bi.isNone) = false) (hj : (st.asksJ && bj.isNone) = false) :
    answerW none + answerW none + (InterIter.step ⟨answer bi, answer bj, st, tmp⟩).2.state.weight <
      answerW bi + answerW bj + st.weight := by
  generalize h : InterIter.step ⟨answer bi, answer bj, st, tmp⟩ = r at ht
  exact inter_own h ht hi hj

theorem compl_own' {lower : Int} {inFor : Bool} {o : Option Iv} (ht : (complTurn lower inFor o).1 ≠ .ret none) :
    (if isFutureInfinite (complTurn lower inFor o).2.1 then 0 else 1) <
      (if isFutureInfinite lower then 0 else 1) + if o.isSome then 4 else 0 := by
  generalize h : complTurn lower inFor o = r at ht
  exact compl_own h ht

theorem step_weight {dbg : Bool} {p p' : Pipe} {t : Turn} (h : p.step dbg = .ok (t, p')) (ht : t ≠ .ret none) :
    p'.weight < p.weight := by
  induction p generalizing t p' with
  | items l =>
    cases l with
    | nil => cases h; exact absurd rfl ht
    | cons x l => cases h; exact Nat.lt_succ_self _
  | union i ei bi j ej bj st tmp ihi ihj =>
    rw [Pipe.step] at h
    split at h
    · next c =>
      have hb : bi = none := by cases bi with | none => rfl | some _ => simp at c
      subst hb
      split at h
      · cases h
        simp only [Pipe.weight, answerW]; omega
      · next ce =>
        have ce : ei = false := by simpa using ce
        subst ce
        obtain ⟨⟨t1, i1⟩, e1, h⟩ := bind_ok h
        cases t1 with
        | loop =>
          have := ihi e1 nofun
          cases h
          simp only [Pipe.weight, fuseW]; simp only [Bool.false_eq_true, if_false]; omega
        | ret o =>
          cases h
          cases o with
          | none => simp only [Pipe.weight, fuseW, answerW, Option.isNone, if_true, Bool.false_eq_true, if_false]; omega
          | some x =>
            have := ihi e1 nofun
            simp only [Pipe.weight, fuseW, answerW, Option.isNone, if_true, Bool.false_eq_true, if_false]; omega
    · next c =>
      split at h
      · next cj =>
        have hb : bj = none := by cases bj with | none => rfl | some _ => simp at cj
        subst hb
        split at h
        · cases h
          simp only [Pipe.weight, answerW]; omega
        · next ce =>
          have ce : ej = false := by simpa using ce
          subst ce
          obtain ⟨⟨t1, i1⟩, e1, h⟩ := bind_ok h
          cases t1 with
          | loop =>
            have := ihj e1 nofun
            cases h
            simp only [Pipe.weight, fuseW]; simp only [Bool.false_eq_true, if_false]; omega
          | ret o =>
            cases h
            cases o with
            | none => simp only [Pipe.weight, fuseW, answerW, Option.isNone, if_true, Bool.false_eq_true, if_false]; omega
            | some x =>
              have := ihj e1 nofun
              simp only [Pipe.weight, fuseW, answerW, Option.isNone, if_true, Bool.false_eq_true, if_false]; omega
      · next cj =>
        cases h
        have := union_own' ht (Bool.eq_false_iff.2 c) (Bool.eq_false_iff.2 cj)
        simp only [Pipe.weight]; omega
  | inter i ei bi j ej bj st tmp ihi ihj =>
    rw [Pipe.step] at h
    split at h
    · next c =>
      have hb : bi = none := by cases bi with | none => rfl | some _ => simp at c
      subst hb
      split at h
      · cases h
        simp only [Pipe.weight, answerW]; omega
      · next ce =>
        have ce : ei = false := by simpa using ce
        subst ce
        obtain ⟨⟨t1, i1⟩, e1, h⟩ := bind_ok h
        cases t1 with
        | loop =>
          have := ihi e1 nofun
          cases h
          simp only [Pipe.weight, fuseW]; simp only [Bool.false_eq_true, if_false]; omega
        | ret o =>
          cases h
          cases o with
          | none => simp only [Pipe.weight, fuseW, answerW, Option.isNone, if_true, Bool.false_eq_true, if_false]; omega
          | some x =>
            have := ihi e1 nofun
            simp only [Pipe.weight, fuseW, answerW, Option.isNone, if_true, Bool.false_eq_true, if_false]; omega
    · next c =>
      split at h
      · next cj =>
        have hb : bj = none := by cases bj with | none => rfl | some _ => simp at cj
        subst hb
        split at h
        · cases h
          simp only [Pipe.weight, answerW]; omega
        · next ce =>
          have ce : ej = false := by simpa using ce
          subst ce
          obtain ⟨⟨t1, i1⟩, e1, h⟩ := bind_ok h
          cases t1 with
          | loop =>
            have := ihj e1 nofun
            cases h
            simp only [Pipe.weight, fuseW]; simp only [Bool.false_eq_true, if_false]; omega
          | ret o =>
            cases h
            cases o with
            | none => simp only [Pipe.weight, fuseW, answerW, Option.isNone, if_true, Bool.false_eq_true, if_false]; omega
            | some x =>
              have := ihj e1 nofun
              simp only [Pipe.weight, fuseW, answerW, Option.isNone, if_true, Bool.false_eq_true, if_false]; omega
      · next cj =>
        cases h
        have := inter_own' ht (Bool.eq_false_iff.2 c) (Bool.eq_false_iff.2 cj)
        simp only [Pipe.weight]; omega
  | compl a ea lower inFor iha =>
    rw [Pipe.step] at h
    split at h
    · cases h
      have := compl_own' (o := none) ht
      simp only [Pipe.weight]
      simp only [Option.isSome, Bool.false_eq_true, if_false] at this
      omega
    · next ce =>
      have ce : ea = false := by simpa using ce
      subst ce
      obtain ⟨⟨t1, i1⟩, e1, h⟩ := bind_ok h
      cases t1 with
      | loop =>
        have := iha e1 nofun
        cases h
        simp only [Pipe.weight, fuseW]; simp only [Bool.false_eq_true, if_false]; omega
      | ret o =>
        cases h
        have w := compl_own' (o := o) ht
        revert w
        generalize (complTurn lower inFor o).2.fst = lo
        generalize (complTurn lower inFor o).2.snd = f
        intro w
        cases o with
        | none =>
          simp only [Pipe.weight, fuseW, Option.isNone, if_true, Bool.false_eq_true, if_false]
          simp only [Option.isSome, Bool.false_eq_true, if_false] at w
          omega
        | some x =>
          have := iha e1 nofun
          simp only [Pipe.weight, fuseW, Option.isNone, if_true, Bool.false_eq_true, if_false]
          simp only [Option.isSome, if_true] at w
          omega
  | transl d a iha =>
    obtain ⟨⟨t1, a1⟩, e1, h⟩ := bind_ok h
    rcases t1 with (_ | x) | _
    · cases h; exact absurd rfl ht
    · obtain ⟨y, _, h⟩ := bind_ok h
      cases h; exact (iha e1 nofun : a1.weight < a.weight)
    · cases h; exact (iha e1 nofun : a1.weight < a.weight)
  | scale ty n a iha =>
    obtain ⟨⟨t1, a1⟩, e1, h⟩ := bind_ok h
    rcases t1 with (_ | x) | _
    · cases h; exact absurd rfl ht
    · obtain ⟨y, _, h⟩ := bind_ok h
      cases h; exact (iha e1 nofun : a1.weight < a.weight)
    · cases h; exact (iha e1 nofun : a1.weight < a.weight)
  | filter f a iha =>
    obtain ⟨⟨t1, a1⟩, e1, h⟩ := bind_ok h
    rcases t1 with (_ | x) | _
    · cases h; exact absurd rfl ht
    · cases h; exact (iha e1 nofun : a1.weight < a.weight)
    · cases h; exact (iha e1 nofun : a1.weight < a.weight)
  | skipWhile f st a iha =>
    obtain ⟨⟨t1, a1⟩, e1, h⟩ := bind_ok h
    rcases t1 with (_ | x) | _
    · cases h; exact absurd rfl ht
    · simp only at h
      split at h <;> cases h <;> exact (iha e1 nofun : a1.weight < a.weight)
    · cases h; exact (iha e1 nofun : a1.weight < a.weight)
  | takeWhile f over a iha =>
    rw [Pipe.step] at h
    split at h
    · cases h; exact absurd rfl ht
    · obtain ⟨⟨t1, a1⟩, e1, h⟩ := bind_ok h
      rcases t1 with (_ | x) | _
      · cases h; exact absurd rfl ht
      · simp only at h
        split at h
        · cases h; exact (iha e1 nofun : a1.weight < a.weight)
        · cases h; exact absurd rfl ht
      · cases h; exact (iha e1 nofun : a1.weight < a.weight)
  | skip n a iha =>
    obtain ⟨⟨t1, a1⟩, e1, h⟩ := bind_ok h
    rcases t1 with (_ | x) | _
    · cases h; exact absurd rfl ht
    · cases n <;> cases h <;> exact (iha e1 nofun : a1.weight < a.weight)
    · cases h; exact (iha e1 nofun : a1.weight < a.weight)
  | take n a iha =>
    cases n with
    | zero => cases h; exact absurd rfl ht
    | succ n =>
      obtain ⟨⟨t1, a1⟩, e1, h⟩ := bind_ok h
      rcases t1 with o | _
      · cases h; exact (iha e1 ht : a1.weight < a.weight)
      · cases h; exact (iha e1 nofun : a1.weight < a.weight)
  | stepBy k r a iha =>
    obtain ⟨⟨t1, a1⟩, e1, h⟩ := bind_ok h
    rcases t1 with (_ | x) | _
    · cases h; exact absurd rfl ht
    · cases r <;> cases h <;> exact (iha e1 nofun : a1.weight < a.weight)
    · cases h; exact (iha e1 nofun : a1.weight < a.weight)
  | same a iha =>
    obtain ⟨⟨t1, a1⟩, e1, h⟩ := bind_ok h
    cases h
    exact (iha e1 ht : a1.weight < a.weight)

theorem next_total (dbg : Bool) (p : Pipe) : ∃ r, p.Next dbg r := by
  generalize hn : p.weight = n
  induction n using Nat.strongRecOn generalizing p with
  | ind n ih =>
    cases e : p.step dbg with
    | error e' => exact ⟨_, .panic e⟩
    | ok v =>
      obtain ⟨t, p'⟩ := v
      cases t with
      | ret o => exact ⟨_, .ret e⟩
      | loop =>
        obtain ⟨r, k⟩ := ih _ (hn ▸ step_weight e nofun) p' rfl
        exact ⟨r, .loop e k⟩

theorem next_weight {dbg : Bool} {p p' : Pipe} {x : Iv} {r : Res (Option Iv × Pipe)} (h : p.Next dbg r)
    (hr : r = .ok (some x, p')) : p'.weight < p.weight := by
  induction h with
  | ret h => cases hr; exact step_weight h nofun
  | loop h _ ih => exact Nat.lt_trans (ih hr) (step_weight h nofun)
  | panic h => cases hr

theorem iteration_ends (dbg : Bool) (p : Pipe) : (∃ l, Yields dbg p l) ∨ ∃ l e, Breaks dbg p l e := by
  generalize hn : p.weight = n
  induction n using Nat.strongRecOn generalizing p with
  | ind n ih =>
    obtain ⟨r, k⟩ := next_total dbg p
    rcases r with e | ⟨_ | x, p'⟩
    · exact .inr ⟨[], e, p, .nil, k⟩
    · exact .inl ⟨[], .done k⟩
    · rcases ih _ (hn ▸ next_weight k rfl) p' rfl with ⟨l, y⟩ | ⟨l, e, q, g, k'⟩
      · exact .inl ⟨x :: l, .item k y⟩
      · exact .inr ⟨x :: l, e, q, .item k g, k'⟩

/-! ## Taking no more than what has been given -/

theorem take_given {dbg : Bool} {p q : Pipe} {l : List Iv} (h : Gives dbg p l q) : Yields dbg (.take l.length p) l := by
  induction h with
  | @nil p => exact .done (p' := .take 0 p) (.ret (by simp only [Pipe.step, List.length_nil]))
  | @item p p' q x l k _ ih =>
    exact .item (inner_ret (F := .take (l.length + 1)) (F' := .take l.length) (take_loop _) k
      (fun b hb => by simp only [Pipe.step, hb, ok_bind]; rfl)) ih

end Chrono
