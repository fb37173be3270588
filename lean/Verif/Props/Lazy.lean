import Verif.Lemmas.Lazy
import Verif.Props.Chain
import Verif.Props.SetRel

/-!
# Pipelines of lazy iterators, one call of `next` at a time (C117), and what they announce (C52)
-/

namespace Chrono
open Spec

/-- C117. Whenever the complete evaluation of a pipeline, of any depth, does not panic, successive calls of `next` on it return
exactly its items, then `None`. -/
theorem C117_lazy (dbg : Bool) (c : Chain) (l : List Iv) (h : c.items dbg = .ok l) :
    ∃ p, c.start = .ok p ∧ Yields dbg p l ∧ ∀ l', Yields dbg p l' → l' = l := by
  obtain ⟨p, h1, h2⟩ := chain_yields h
  exact ⟨p, h1, h2, fun l' h' => yields_det h' h2⟩

example : ∃ p, exChain.start = .ok p ∧ Yields true p [⟨-INF, 198⟩, ⟨220, 224⟩] := by
  obtain ⟨p, h1, h2, -⟩ := C117_lazy true exChain [⟨-INF, 198⟩, ⟨220, 224⟩] (by decide +kernel)
  exact ⟨p, h1, h2⟩

/-- C117. A pipeline on which some call of `next` panics, before the first `None`, is one whose complete evaluation panics. -/
theorem C117_panic (dbg : Bool) (c : Chain) (p : Pipe) (hp : c.start = .ok p) (l : List Iv) (e : Panic) (h : Breaks dbg p l e) :
    ∃ e', c.items dbg = .error e' := by
  cases hi : c.items dbg with
  | error e' => exact ⟨e', rfl⟩
  | ok r =>
    obtain ⟨q, h1, h2⟩ := chain_yields hi
    rw [hp] at h1
    cases h1
    exact absurd h (yields_not_breaks h2)

/-- C117. Each call of `next` on a pipeline, in any state, returns or panics; and the iteration of any pipeline ends, either with
`None` or with a panic, never both. -/
theorem C117_terminates (dbg : Bool) (p : Pipe) :
    (∃ r, p.Next dbg r ∧ ∀ r', p.Next dbg r' → r' = r) ∧
    ((∃ l, Yields dbg p l ∧ ∀ l' e, ¬ Breaks dbg p l' e) ∨ ((∃ l e, Breaks dbg p l e) ∧ ∀ l, ¬ Yields dbg p l)) := by
  obtain ⟨r, hr⟩ := next_total dbg p
  refine ⟨⟨r, hr, fun r' h' => next_det h' hr⟩, ?_⟩
  rcases iteration_ends dbg p with ⟨l, h⟩ | ⟨l, e, h⟩
  · exact .inl ⟨l, h, fun l' e => yields_not_breaks h⟩
  · exact .inr ⟨⟨l, e, h⟩, fun l' h' => yields_not_breaks h' h⟩

/-- C117. A pipeline asks for no more than it is asked for: if the first calls of `next` return the items of `l`, then `take` of that
many yields `l` and ends, whatever happens afterwards in the pipeline. -/
theorem C117_take (dbg : Bool) (c : Chain) (p q : Pipe) (hp : c.start = .ok p) (l : List Iv) (h : Gives dbg p l q) :
    ∃ p', (Chain.take l.length c).start = .ok p' ∧ Yields dbg p' l :=
  ⟨_, by rw [Chain.start, hp, ok_bind]; rfl, take_given h⟩

theorem transl_breaks {dbg : Bool} {d : Int} {x : Iv} {e : Panic} {rest : List Iv} (hx : x.addTv dbg d = .error e) :
    ∀ (l : List Iv) {r : List Iv} {a : Pipe}, Yields dbg a (l ++ x :: rest) → TSet.translIter dbg d l = .ok r →
      r.length = l.length → Breaks dbg (.transl d a) r e := by
  have h1 : ∀ a a', a.step dbg = .ok (.loop, a') → (Pipe.transl d a).step dbg = .ok (.loop, .transl d a') :=
    fun x x' hx => by simp only [Pipe.step, hx]; rfl
  intro l
  induction l with
  | nil =>
    intro r a h e1 _
    cases e1
    refine ⟨_, .nil, ?_⟩
    cases h with
    | item k _ =>
      revert k
      generalize hr : (Except.ok (some x, _) : Res (Option Iv × Pipe)) = r'
      intro k
      induction k with
      | ret hk =>
        cases hr
        exact .panic (by simp only [Pipe.step, hk, ok_bind, hx]; rfl)
      | loop hk _ ih => exact .loop (h1 _ _ hk) (ih hr)
      | panic _ => cases hr
  | cons y l ih =>
    intro r a h e1 hl
    cases h with
    | item k kt =>
      rw [TSet.translIter] at e1
      obtain ⟨z, e2, e1⟩ := bind_ok e1
      split at e1
      · cases e1; simp at hl
      · next c =>
        obtain ⟨r', e3, e1⟩ := bind_ok e1
        cases e1
        obtain ⟨q, g, b⟩ := ih kt e3 (by simpa using hl)
        exact ⟨q, .item (inner_ret (F' := .transl d) h1 k (fun b hb => by
          simp only [Pipe.step, hb, ok_bind, e2]
          rw [if_neg c]; rfl)) g, b⟩

/-- C117. The translation of a pipeline panics no earlier than at the interval which overflows: the translations of all the intervals
before it are returned first. -/
theorem C117_translation (dbg : Bool) (c : Chain) (d : Int) (l rest r : List Iv) (x : Iv) (e : Panic)
    (h : c.items dbg = .ok (l ++ x :: rest)) (hl : l.mapM (fun i => i.addTv dbg d) = .ok r) (hr : ∀ i ∈ r, i.isEmpty = false)
    (hx : x.addTv dbg d = .error e) :
    ∃ p, (Chain.transl d c).start = .ok p ∧ Breaks dbg p r e := by
  obtain ⟨p, h1, h2⟩ := chain_yields h
  refine ⟨_, by rw [Chain.start, h1, ok_bind]; rfl, ?_⟩
  have hr' : TSet.translIter dbg d l = .ok r ∧ r.length = l.length := by
    clear h h2
    induction l generalizing r with
    | nil => cases hl; exact ⟨rfl, rfl⟩
    | cons y l ih =>
      rw [List.mapM_cons] at hl
      obtain ⟨z, e1, hl⟩ := bind_ok hl
      obtain ⟨r', e2, hl⟩ := bind_ok hl
      cases hl
      obtain ⟨i1, i2⟩ := ih r' e2 (fun i hi => hr i (List.mem_cons_of_mem _ hi))
      refine ⟨?_, congrArg (· + 1) i2⟩
      rw [TSet.translIter, e1, ok_bind, hr z (List.mem_cons_self ..), i1]
      rfl
  exact transl_breaks hx l h2 hr'.1 hr'.2

/-- a set of which the last interval cannot be translated: the lazy translation gives the others before it panics, and panics not at
all if no more is taken, while the complete evaluation panics -/
example : ∃ p, (Chain.transl 5 (.set [⟨0, 1⟩, ⟨7, 9⟩, ⟨INF - 4, INF - 3⟩])).start = .ok p ∧
    Breaks true p [⟨5, 6⟩, ⟨12, 14⟩] .debugAssert :=
  C117_translation true (.set [⟨0, 1⟩, ⟨7, 9⟩, ⟨INF - 4, INF - 3⟩]) 5 [⟨0, 1⟩, ⟨7, 9⟩] [] [⟨5, 6⟩, ⟨12, 14⟩] ⟨INF - 4, INF - 3⟩ .debugAssert
    rfl (by decide +kernel) (by decide) (by decide +kernel)

example : ∃ p, (Chain.take 2 (.transl 5 (.set [⟨0, 1⟩, ⟨7, 9⟩, ⟨INF - 4, INF - 3⟩]))).start = .ok p ∧
    Yields true p [⟨5, 6⟩, ⟨12, 14⟩] ∧
    (Chain.take 2 (.transl 5 (.set [⟨0, 1⟩, ⟨7, 9⟩, ⟨INF - 4, INF - 3⟩]))).items true = .error .debugAssert := by
  obtain ⟨p, h1, q, h2, -⟩ := C117_translation true (.set [⟨0, 1⟩, ⟨7, 9⟩, ⟨INF - 4, INF - 3⟩]) 5 [⟨0, 1⟩, ⟨7, 9⟩] []
    [⟨5, 6⟩, ⟨12, 14⟩] ⟨INF - 4, INF - 3⟩ .debugAssert rfl (by decide +kernel) (by decide) (by decide +kernel)
  obtain ⟨p', h3, h4⟩ := C117_take true _ p q h1 _ h2
  exact ⟨p', h3, h4, by decide +kernel⟩

/-- C117. A pipeline used as it has to be never panics, and its calls of `next` return canonical items. -/
theorem C117_used (dbg : Bool) (c : Chain) (h : Used dbg c) :
    ∃ p l, c.start = .ok p ∧ Yields dbg p l ∧ Canon l ∧ ∀ l' e, ¬ Breaks dbg p l' e := by
  obtain ⟨l, h1, h2⟩ := C104_contract_partial h
  obtain ⟨p, h3, h4⟩ := chain_yields h1
  exact ⟨p, l, h3, h4, h2, fun l' e => yields_not_breaks h4⟩

example : Used true (.same (.take 1 (.compl (.set [⟨0, 9⟩])))) := (by decide : Canon [⟨0, 9⟩])

/-! ## What a new pipeline announces -/

/-- how many items `step_by(k + 1)` keeps of `n` -/
def stepCount (k n : Nat) : Nat := if n == 0 then 0 else 1 + (n - 1) / (k + 1)

theorem stepList_length (k : Nat) (l : List Iv) : (stepList k l).length = stepCount k l.length := by
  fun_induction stepList k l with
  | case1 => rfl
  | case2 x xs ih =>
    rw [List.length_cons, ih, List.length_drop, List.length_cons]
    simp only [stepCount, Nat.add_sub_cancel, beq_iff_eq, Nat.add_eq_zero_iff, Nat.succ_ne_self, and_false, if_false]
    by_cases c : xs.length - k = 0
    · rw [if_pos c, Nat.div_eq_of_lt (by omega)]
    · rw [if_neg c]
      have e : xs.length = xs.length - k - 1 + (k + 1) := by omega
      rw [show xs.length / (k + 1) = (xs.length - k - 1) / (k + 1) + 1 by
        conv => lhs; rw [e]
        rw [Nat.add_div_right _ (by omega)]]
      omega

theorem stepCount_mono {k a b : Nat} (h : a ≤ b) : stepCount k a ≤ stepCount k b := by
  simp only [stepCount, beq_iff_eq]
  by_cases ha : a = 0
  · rw [if_pos ha]; exact Nat.zero_le _
  · rw [if_neg ha, if_neg (by omega)]
    exact Nat.add_le_add_left (Nat.div_le_div_right (by omega)) 1

theorem compl_length {s : TSet} (h : Canon s) :
    s.length - 1 ≤ (ComplIter.new s).drain.length ∧ (ComplIter.new s).drain.length ≤ s.length + 1 := by
  obtain ⟨h1, m, h2, h3⟩ := C52_compl_hint_partial s h
  have e : (ComplIter.new s).sizeHint = (s.length - 1, some (s.length + 1)) := by
    have : isFinite (-INF) = false := by decide
    simp only [ComplIter.sizeHint, ComplIter.new, this, Bool.false_eq_true, if_false]
  have h0 := (h1 0).1
  rw [ComplIter.after, e] at h0
  rw [e] at h2
  cases h2
  exact ⟨h0, h3⟩

theorem union_length (i j : List Iv) : (UnionIter.new i j).drain.length ≤ i.length + j.length := by
  obtain ⟨-, h⟩ := C52_union_hint_partial (UnionIter.new i j)
  obtain ⟨m, h1, h2⟩ := h i j
  cases h1
  exact h2

theorem inter_length (i j : List Iv) : (InterIter.new i j).drain.length ≤ i.length + j.length := by
  obtain ⟨-, m, h1, h2⟩ := C52_inter_hint (InterIter.new i j)
  cases h1
  exact h2

theorem sum_hint {a b : Option Nat} {m n k : Nat} (h : Pipe.sumHint a b = some k) (ha : ∀ x, a = some x → m ≤ x)
    (hb : ∀ x, b = some x → n ≤ x) : m + n ≤ k := by
  cases a with
  | none => cases h
  | some a =>
    cases b with
    | none => cases h
    | some b => cases h; exact Nat.add_le_add (ha a rfl) (hb b rfl)

theorem fresh_hint {dbg : Bool} {c : Chain} (h : Used dbg c) {p : Pipe} (hp : c.start = .ok p) {l : List Iv}
    (hl : c.items dbg = .ok l) : p.sizeHint.1 ≤ l.length ∧ ∀ m, p.sizeHint.2 = some m → l.length ≤ m := by
  have own : ∀ l : List Iv, (Pipe.items l).sizeHint.1 ≤ l.length ∧ ∀ m, (Pipe.items l).sizeHint.2 = some m → l.length ≤ m :=
    fun l => ⟨Nat.le_refl _, fun m e => by cases e; exact Nat.le_refl _⟩
  induction c generalizing p l with
  | set s => cases hl; cases hp; exact own _
  | win w => cases hl; cases hp; exact own _
  | into w => cases hl; cases hp; exact own _
  | union a b iha ihb =>
    obtain ⟨p1, e1, hp⟩ := bind_ok hp
    obtain ⟨p2, e2, hp⟩ := bind_ok hp
    obtain ⟨l1, f1, hl⟩ := bind_ok hl
    obtain ⟨l2, f2, hl⟩ := bind_ok hl
    cases hp; cases hl
    exact ⟨Nat.zero_le _, fun m e => Nat.le_trans (union_length l1 l2) (sum_hint e (iha h.1 e1 f1).2 (ihb h.2 e2 f2).2)⟩
  | inter a b iha ihb =>
    obtain ⟨p1, e1, hp⟩ := bind_ok hp
    obtain ⟨p2, e2, hp⟩ := bind_ok hp
    obtain ⟨l1, f1, hl⟩ := bind_ok hl
    obtain ⟨l2, f2, hl⟩ := bind_ok hl
    cases hp; cases hl
    exact ⟨Nat.zero_le _, fun m e => Nat.le_trans (inter_length l1 l2) (sum_hint e (iha h.1 e1 f1).2 (ihb h.2.1 e2 f2).2)⟩
  | excl a b iha ihb =>
    obtain ⟨p1, e1, hp⟩ := bind_ok hp
    obtain ⟨p2, e2, hp⟩ := bind_ok hp
    obtain ⟨l1, f1, hl⟩ := bind_ok hl
    obtain ⟨l2, f2, hl⟩ := bind_ok hl
    cases hp; cases hl
    obtain ⟨r, g1, g2⟩ := C104_contract_partial h.2.1
    rw [f2] at g1; cases g1
    refine ⟨Nat.zero_le _, fun m e => Nat.le_trans (inter_length l1 _) (sum_hint e (iha h.1 e1 f1).2 ?_)⟩
    intro x hx
    have hx : (p2.sizeHint.2.map (· + 1)) = some x := hx
    obtain ⟨y, hy, rfl⟩ := Option.map_eq_some_iff.1 hx
    exact Nat.le_trans (compl_length g2).2 (Nat.succ_le_succ ((ihb h.2.1 e2 f2).2 y hy))
  | compl a iha =>
    obtain ⟨p1, e1, hp⟩ := bind_ok hp
    obtain ⟨l1, f1, hl⟩ := bind_ok hl
    cases hp; cases hl
    obtain ⟨r, g1, g2⟩ := C104_contract_partial (c := a) h
    rw [f1] at g1; cases g1
    obtain ⟨i1, i2⟩ := iha h e1 f1
    refine ⟨Nat.le_trans (Nat.sub_le_sub_right i1 1) (compl_length g2).1, fun x hx => ?_⟩
    have hx : (p1.sizeHint.2.map (· + 1)) = some x := hx
    obtain ⟨y, hy, rfl⟩ := Option.map_eq_some_iff.1 hx
    exact Nat.le_trans (compl_length g2).2 (Nat.succ_le_succ (i2 y hy))
  | transl d a iha =>
    obtain ⟨p1, e1, hp⟩ := bind_ok hp
    cases hp
    exact ⟨Nat.zero_le _, nofun⟩
  | scale ty n a iha =>
    obtain ⟨p1, e1, hp⟩ := bind_ok hp
    cases hp
    exact ⟨Nat.zero_le _, nofun⟩
  | filter f a iha =>
    obtain ⟨p1, e1, hp⟩ := bind_ok hp
    obtain ⟨l1, f1, hl⟩ := bind_ok hl
    cases hp; cases hl
    exact ⟨Nat.zero_le _, fun m e => Nat.le_trans (List.length_filter_le _ _) ((iha h e1 f1).2 m e)⟩
  | skipWhile f a iha =>
    obtain ⟨p1, e1, hp⟩ := bind_ok hp
    obtain ⟨l1, f1, hl⟩ := bind_ok hl
    cases hp; cases hl
    exact ⟨Nat.zero_le _, fun m e => Nat.le_trans (List.dropWhile_sublist _).length_le ((iha h e1 f1).2 m e)⟩
  | takeWhile f a iha =>
    obtain ⟨p1, e1, hp⟩ := bind_ok hp
    obtain ⟨l1, f1, hl⟩ := bind_ok hl
    cases hp; cases hl
    exact ⟨Nat.zero_le _, fun m e => Nat.le_trans (List.takeWhile_sublist _).length_le ((iha h e1 f1).2 m e)⟩
  | skip n a iha =>
    obtain ⟨p1, e1, hp⟩ := bind_ok hp
    obtain ⟨l1, f1, hl⟩ := bind_ok hl
    cases hp; cases hl
    obtain ⟨i1, i2⟩ := iha h e1 f1
    rw [List.length_drop]
    refine ⟨Nat.sub_le_sub_right i1 n, fun x hx => ?_⟩
    obtain ⟨y, hy, rfl⟩ := Option.map_eq_some_iff.1 hx
    exact Nat.sub_le_sub_right (i2 y hy) n
  | take n a iha =>
    obtain ⟨p1, e1, hp⟩ := bind_ok hp
    obtain ⟨l1, f1, hl⟩ := bind_ok hl
    cases hp; cases hl
    obtain ⟨i1, i2⟩ := iha h e1 f1
    rw [List.length_take, Pipe.sizeHint]
    split
    · next c =>
      have c : n = 0 := by simpa using c
      subst c
      exact ⟨Nat.zero_le _, fun m e => by cases e; omega⟩
    · refine ⟨by simp only; omega, fun x hx => ?_⟩
      cases hm : p1.sizeHint.2 with
      | none => simp only [hm] at hx; cases hx; omega
      | some m =>
        simp only [hm] at hx; cases hx
        have := i2 m hm
        omega
  | stepBy n a iha =>
    cases n with
    | zero => cases hl
    | succ n =>
      obtain ⟨p1, e1, hp⟩ := bind_ok hp
      obtain ⟨l1, f1, hl⟩ := bind_ok hl
      cases hp; cases hl
      obtain ⟨i1, i2⟩ := iha h.2 e1 f1
      rw [stepList_length]
      refine ⟨stepCount_mono i1, fun x hx => ?_⟩
      obtain ⟨y, hy, rfl⟩ := Option.map_eq_some_iff.1 hx
      exact stepCount_mono (i2 y hy)
  | same a iha =>
    obtain ⟨p1, e1, hp⟩ := bind_ok hp
    cases hp
    exact iha h e1 hl

/-- C52. Before the first call of `next`, the number of items a pipeline of any depth is going to yield is within the bounds announced
by its `size_hint`. -/
theorem C52_new_pipeline (dbg : Bool) (c : Chain) (h : Used dbg c) :
    ∃ p l, c.start = .ok p ∧ Yields dbg p l ∧ p.sizeHint.1 ≤ l.length ∧ ∀ m, p.sizeHint.2 = some m → l.length ≤ m := by
  obtain ⟨l, h1, -⟩ := C104_contract_partial h
  obtain ⟨p, h3, h4⟩ := chain_yields h1
  exact ⟨p, l, h3, h4, fresh_hint h h3 h1⟩

/-- a complement by steps of two: the announced bounds are 1 and 2 -/
example : Used true (.stepBy 2 (.compl (.set [⟨0, 9⟩, ⟨20, 30⟩]))) ∧ ∃ p,
    (Chain.stepBy 2 (.compl (.set [⟨0, 9⟩, ⟨20, 30⟩]))).start = .ok p ∧ p.sizeHint = (1, some 2) :=
  ⟨⟨by decide, (by decide : Canon [⟨0, 9⟩, ⟨20, 30⟩])⟩, _, rfl, by decide⟩

end Chrono
