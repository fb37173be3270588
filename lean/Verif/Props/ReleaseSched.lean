import Verif.Props.ReleaseGraph
import Verif.Props.Lazy
import Verif.Spec.ReleaseSched

set_option linter.unusedSimpArgs false

/-!
# Debug assertions never change a result (C119)
-/

namespace Chrono
open Spec

theorem silent_refl {α : Type} (a : Res α) : Silent a a := Or.inr rfl

theorem silent_bind {α β : Type} {a b : Res α} {f g : α → Res β} (h : Silent a b) (hf : ∀ x, Silent (f x) (g x)) :
    Silent (a >>= f) (b >>= g) := by
  rcases h with rfl | rfl
  · exact Or.inl rfl
  · cases b with
    | error e => exact Or.inr rfl
    | ok x => exact hf x

theorem silent_bind_mem {α β : Type} {a b : Res α} {f g : α → Res β} (h : Silent a b) (hf : ∀ x, a = .ok x → Silent (f x) (g x)) :
    Silent (a >>= f) (b >>= g) := by
  rcases h with rfl | rfl
  · exact Or.inl rfl
  · cases b with
    | error e => exact Or.inr rfl
    | ok x => exact hf x rfl

theorem silent_fold {α β : Type} {f g : β → α → Res β} (h : ∀ b a, Silent (f b a) (g b a)) :
    ∀ (l : List α) (b : β), Silent (l.foldlM f b) (l.foldlM g b)
  | [], b => silent_refl _
  | a :: l, b => by
    rw [List.foldlM_cons, List.foldlM_cons]
    exact silent_bind (h b a) fun b' => silent_fold h l b'

theorem silent_mapM {α β : Type} {f g : α → Res β} (h : ∀ a, Silent (f a) (g a)) : ∀ l : List α, Silent (l.mapM f) (l.mapM g)
  | [] => silent_refl _
  | a :: l => by
    rw [List.mapM_cons, List.mapM_cons]
    exact silent_bind (h a) fun _ => silent_bind (silent_mapM h l) fun _ => silent_refl _

theorem silent_ite {α : Type} {c : Prop} [Decidable c] {a b a' b' : Res α} (h1 : Silent a a') (h2 : Silent b b') :
    Silent (if c then a else b) (if c then a' else b') := by
  split
  · exact h1
  · exact h2

theorem silent_base (tw : Iv) : Silent (Iv.debugNonEmpty true tw) (Iv.debugNonEmpty false tw) := by
  unfold Iv.debugNonEmpty
  by_cases h : tw.isEmpty
  · rw [if_pos (by rw [h]; rfl)]; exact Or.inl rfl
  · exact Or.inr (by simp [h])

/-- prove that two programs of the same shape differ by debug assertions only, from the same fact about their parts -/
syntax "silent" "[" term,* "]" : tactic
macro_rules
  | `(tactic| silent [$ts,*]) => `(tactic|
    repeat' first
      $[| with_reducible exact $ts]*
      | with_reducible exact silent_refl _
      | with_reducible exact silent_base _
      | with_reducible refine silent_bind ?_ (fun _ => ?_)
      | with_reducible refine silent_ite ?_ ?_
      | with_reducible refine silent_mapM (fun _ => ?_) _
      | with_reducible refine silent_fold (fun _ _ => ?_) _ _)

theorem addTv_silent (i : Iv) (d : Int) : Silent (i.addTv true d) (i.addTv false d) := by
  unfold Iv.addTv; silent []
theorem subTv_silent (i : Iv) (d : Int) : Silent (i.subTv true d) (i.subTv false d) := by
  unfold Iv.subTv; silent []
theorem addSpan_silent (i s : Iv) : Silent (i.addSpan true s) (i.addSpan false s) := by
  unfold Iv.addSpan; silent []
theorem subSpan_silent (i s : Iv) : Silent (i.subSpan true s) (i.subSpan false s) := by
  unfold Iv.subSpan; silent []
theorem tsAddSpan_silent (t : Int) (s : Iv) : Silent (Iv.tsAddSpan true t s) (Iv.tsAddSpan false t s) := by
  unfold Iv.tsAddSpan; silent []
theorem tsSubSpan_silent (t : Int) (s : Iv) : Silent (Iv.tsSubSpan true t s) (Iv.tsSubSpan false t s) := by
  unfold Iv.tsSubSpan; silent []
theorem slotSubTs_silent (i : Iv) (t : Int) : Silent (i.slotSubTs true t) (i.slotSubTs false t) := by
  unfold Iv.slotSubTs; silent []

theorem translIter_silent (d : Int) : ∀ l, Silent (TSet.translIter true d l) (TSet.translIter false d l)
  | [] => silent_refl _
  | tw :: l => by
    unfold TSet.translIter
    have := translIter_silent d l
    silent [addTv_silent _ _, this]

theorem setAddSpan_silent (s : TSet) (sp : Iv) : Silent (TSet.addSpan true s sp) (TSet.addSpan false s sp) := by
  unfold TSet.addSpan; silent [addSpan_silent _ _]

/-! ## C119: intervals and sets -/

/-- C119. The translations of an interval: a release build returns what the debug build returns, or panics as it does, unless the debug
build stops on its debug assertion. Any interval and any offset, infinite or not. -/
theorem C119_intervals (i s : Iv) (t : Int) :
    Silent (i.addTv true t) (i.addTv false t) ∧ Silent (i.subTv true t) (i.subTv false t) ∧
    Silent (Iv.tvSubIv true t i) (Iv.tvSubIv false t i) ∧ Silent (i.addSpan true s) (i.addSpan false s) ∧
    Silent (i.subSpan true s) (i.subSpan false s) ∧ Silent (Iv.tsAddSpan true t s) (Iv.tsAddSpan false t s) ∧
    Silent (Iv.tsSubSpan true t s) (Iv.tsSubSpan false t s) ∧ Silent (i.slotSubTs true t) (i.slotSubTs false t) :=
  ⟨addTv_silent i t, subTv_silent i t, addTv_silent i.neg t, addSpan_silent i s, subSpan_silent i s, tsAddSpan_silent t s,
    tsSubSpan_silent t s, slotSubTs_silent i t⟩

/-- C119. The same for the translations of a set. -/
theorem C119_sets (a b : TSet) (s : Iv) (t : Int) :
    Silent (TSet.addTv true a t) (TSet.addTv false a t) ∧ Silent (TSet.subTv true a t) (TSet.subTv false a t) ∧
    Silent (TSet.addTs true a t) (TSet.addTs false a t) ∧ Silent (TSet.subTs true a t) (TSet.subTs false a t) ∧
    Silent (TSet.tsSub true t a) (TSet.tsSub false t a) ∧ Silent (TSet.addSpan true a s) (TSet.addSpan false a s) ∧
    Silent (TSet.subSpan true a s) (TSet.subSpan false a s) ∧ Silent (TSet.addSpans true a b) (TSet.addSpans false a b) ∧
    Silent (TSet.subSpans true a b) (TSet.subSpans false a b) := by
  refine ⟨?_, ?_, ?_, ?_, ?_, setAddSpan_silent a s, ?_, ?_, ?_⟩
  · unfold TSet.addTv; silent [addTv_silent _ _]
  · unfold TSet.subTv; silent [subTv_silent _ _]
  · unfold TSet.addTs; silent [tsAddSpan_silent _ _]
  · unfold TSet.subTs; silent [tsAddSpan_silent _ _]
  · unfold TSet.tsSub; silent [tsSubSpan_silent _ _]
  · unfold TSet.subSpan; silent [subSpan_silent _ _]
  · unfold TSet.addSpans; silent [addSpan_silent _ _]
  · unfold TSet.subSpans; silent [subSpan_silent _ _]

/-- in a release build the result is `r`: a debug build stops on the debug assertion if `P r`, and returns `r` otherwise -/
def Detects {α : Type} (P : α → Prop) (debug release : Res α) : Prop :=
  ∀ r, release = .ok r → (P r ∧ debug = .error .debugAssert) ∨ (¬ P r ∧ debug = .ok r)

theorem detects_iff {α : Type} {P : α → Prop} {d e : Res α} (h : Detects P d e) {r : α} (hr : e = .ok r) :
    (d = .error .debugAssert ↔ P r) ∧ (d = .ok r ↔ ¬ P r) := by
  rcases h r hr with ⟨h1, h2⟩ | ⟨h1, h2⟩ <;> simp [h1, h2]

theorem detects_base (tw : Iv) : Detects (fun r => r.isEmpty = true) (Iv.debugNonEmpty true tw) (Iv.debugNonEmpty false tw) := by
  unfold Iv.debugNonEmpty
  intro r h
  cases h
  cases e : tw.isEmpty <;> simp [e]

theorem detects_bind {α β : Type} {P : β → Prop} {a : Res α} {f g : α → Res β} (h : ∀ x, Detects P (f x) (g x)) :
    Detects P (a >>= f) (a >>= g) := by
  intro r hr
  cases a with
  | error e => cases hr
  | ok x => exact h x r hr

theorem detects_mapM {α β : Type} {P : β → Prop} {f g : α → Res β} (h : ∀ x, Detects P (f x) (g x)) :
    ∀ l : List α, Detects (fun r => ∃ x ∈ r, P x) (l.mapM f) (l.mapM g)
  | [] => fun r hr => by
    cases hr
    exact Or.inr ⟨fun ⟨x, hx, _⟩ => (List.not_mem_nil hx), rfl⟩
  | a :: l => by
    intro r hr
    rw [List.mapM_cons] at hr ⊢
    cases e : g a with
    | error e' => rw [e] at hr; cases hr
    | ok y =>
      rw [e, ok_bind] at hr
      cases e2 : l.mapM g with
      | error e' => rw [e2] at hr; cases hr
      | ok ys =>
        rw [e2, ok_bind] at hr
        cases hr
        rcases h a y e with ⟨h1, h2⟩ | ⟨h1, h2⟩
        · exact Or.inl ⟨⟨y, List.mem_cons_self, h1⟩, by rw [h2]; rfl⟩
        · rw [h2, ok_bind]
          rcases detects_mapM h l ys e2 with ⟨⟨x, hx, hp⟩, h4⟩ | ⟨h3, h4⟩
          · exact Or.inl ⟨⟨x, List.mem_cons_of_mem _ hx, hp⟩, by rw [h4]; rfl⟩
          · refine Or.inr ⟨?_, by rw [h4]; rfl⟩
            rintro ⟨x, hx, hp⟩
            rcases List.mem_cons.1 hx with e | hx
            · exact h1 (e ▸ hp)
            · exact h3 ⟨x, hx, hp⟩

theorem addTv_detects (i : Iv) (d : Int) : Detects (fun r => r.isEmpty = true) (i.addTv true d) (i.addTv false d) :=
  detects_bind fun _ => detects_bind fun _ => detects_base _
theorem subTv_detects (i : Iv) (d : Int) : Detects (fun r => r.isEmpty = true) (i.subTv true d) (i.subTv false d) :=
  detects_bind fun _ => detects_bind fun _ => detects_base _
theorem addSpan_detects (i s : Iv) : Detects (fun r => r.isEmpty = true) (i.addSpan true s) (i.addSpan false s) :=
  detects_bind fun _ => detects_bind fun _ => detects_base _
theorem subSpan_detects (i s : Iv) : Detects (fun r => r.isEmpty = true) (i.subSpan true s) (i.subSpan false s) :=
  detects_bind fun _ => detects_bind fun _ => detects_base _
theorem tsAddSpan_detects (t : Int) (s : Iv) : Detects (fun r => r.isEmpty = true) (Iv.tsAddSpan true t s) (Iv.tsAddSpan false t s) :=
  detects_bind fun _ => detects_bind fun _ => detects_base _
theorem tsSubSpan_detects (t : Int) (s : Iv) : Detects (fun r => r.isEmpty = true) (Iv.tsSubSpan true t s) (Iv.tsSubSpan false t s) :=
  detects_bind fun _ => detects_bind fun _ => detects_base _
theorem slotSubTs_detects (i : Iv) (t : Int) : Detects (fun r => r.isEmpty = true) (i.slotSubTs true t) (i.slotSubTs false t) :=
  detects_bind fun _ => detects_bind fun _ => detects_base _

/-- C119. The debug assertion of a translation stops exactly when the interval which a release build returns is empty. -/
theorem C119_interval_stops (i s r : Iv) (t : Int) :
    (i.addTv false t = .ok r → (i.addTv true t = .error .debugAssert ↔ r.isEmpty)) ∧
    (i.subTv false t = .ok r → (i.subTv true t = .error .debugAssert ↔ r.isEmpty)) ∧
    (Iv.tvSubIv false t i = .ok r → (Iv.tvSubIv true t i = .error .debugAssert ↔ r.isEmpty)) ∧
    (i.addSpan false s = .ok r → (i.addSpan true s = .error .debugAssert ↔ r.isEmpty)) ∧
    (i.subSpan false s = .ok r → (i.subSpan true s = .error .debugAssert ↔ r.isEmpty)) ∧
    (Iv.tsAddSpan false t s = .ok r → (Iv.tsAddSpan true t s = .error .debugAssert ↔ r.isEmpty)) ∧
    (Iv.tsSubSpan false t s = .ok r → (Iv.tsSubSpan true t s = .error .debugAssert ↔ r.isEmpty)) ∧
    (i.slotSubTs false t = .ok r → (i.slotSubTs true t = .error .debugAssert ↔ r.isEmpty)) :=
  ⟨fun h => (detects_iff (addTv_detects i t) h).1, fun h => (detects_iff (subTv_detects i t) h).1,
    fun h => (detects_iff (addTv_detects i.neg t) h).1, fun h => (detects_iff (addSpan_detects i s) h).1,
    fun h => (detects_iff (subSpan_detects i s) h).1, fun h => (detects_iff (tsAddSpan_detects t s) h).1,
    fun h => (detects_iff (tsSubSpan_detects t s) h).1, fun h => (detects_iff (slotSubTs_detects i t) h).1⟩

/-- C119. The translations of a set by a time value or a timestamp stop exactly when the set which a release build returns has an empty
interval. -/
theorem C119_set_stops (a r : TSet) (t : Int) :
    (TSet.addTv false a t = .ok r → (TSet.addTv true a t = .error .debugAssert ↔ ∃ x ∈ r, x.isEmpty)) ∧
    (TSet.subTv false a t = .ok r → (TSet.subTv true a t = .error .debugAssert ↔ ∃ x ∈ r, x.isEmpty)) ∧
    (TSet.addTs false a t = .ok r → (TSet.addTs true a t = .error .debugAssert ↔ ∃ x ∈ r, x.isEmpty)) ∧
    (TSet.subTs false a t = .ok r → (TSet.subTs true a t = .error .debugAssert ↔ ∃ x ∈ r, x.isEmpty)) ∧
    (TSet.tsSub false t a = .ok r → (TSet.tsSub true t a = .error .debugAssert ↔ ∃ x ∈ r, x.isEmpty)) :=
  ⟨fun h => (detects_iff (detects_mapM (fun i => addTv_detects i t) a) h).1,
    fun h => (detects_iff (detects_mapM (fun i => subTv_detects i t) a) h).1,
    fun h => (detects_iff (detects_mapM (fun i => tsAddSpan_detects t i) a) h).1,
    fun h => (detects_iff (detects_mapM (fun i => tsAddSpan_detects (tvNeg t) i) a) h).1,
    fun h => (detects_iff (detects_mapM (fun i => tsSubSpan_detects t i) a.reverse) h).1⟩

/-! ## C119: chains and pipelines of iterators -/

theorem items_silent (c : Chain) : Silent (c.items true) (c.items false) := by
  induction c with
  | set | win | into => exact silent_refl _
  | union a b ia ib => unfold Chain.items; silent [ia, ib]
  | inter a b ia ib => unfold Chain.items; silent [ia, ib]
  | excl a b ia ib => unfold Chain.items; silent [ia, ib]
  | compl a ia => unfold Chain.items; silent [ia]
  | transl d a ia => unfold Chain.items; silent [ia, translIter_silent _ _]
  | scale ty n a ia => unfold Chain.items; silent [ia]
  | filter p a ia => unfold Chain.items; silent [ia]
  | skipWhile p a ia => unfold Chain.items; silent [ia]
  | takeWhile p a ia => unfold Chain.items; silent [ia]
  | skip n a ia => unfold Chain.items; silent [ia]
  | take n a ia => unfold Chain.items; silent [ia]
  | stepBy n a ia =>
    unfold Chain.items
    cases n with
    | zero => exact silent_refl _
    | succ n => silent [ia]
  | same a ia => unfold Chain.items; exact ia

theorem operators_silent (c : Chain) : Silent (c.operators true) (c.operators false) := by
  have tr : ∀ s d, Silent (TSet.addTv true s d) (TSet.addTv false s d) := fun s d => (C119_sets s [] ⟨0, 0⟩ d).1
  induction c with
  | set | win | into => exact silent_refl _
  | union a b ia ib => unfold Chain.operators; silent [ia, ib]
  | inter a b ia ib => unfold Chain.operators; silent [ia, ib]
  | excl a b ia ib => unfold Chain.operators; silent [ia, ib]
  | compl a ia => unfold Chain.operators; silent [ia]
  | transl d a ia => unfold Chain.operators; silent [ia, tr _ _]
  | scale ty n a ia => unfold Chain.operators; silent [ia]
  | filter p a ia => unfold Chain.operators; silent [ia]
  | skipWhile p a ia => unfold Chain.operators; silent [ia]
  | takeWhile p a ia => unfold Chain.operators; silent [ia]
  | skip n a ia => unfold Chain.operators; silent [ia]
  | take n a ia => unfold Chain.operators; silent [ia]
  | stepBy n a ia =>
    unfold Chain.operators
    cases n with
    | zero => exact silent_refl _
    | succ n => silent [ia]
  | same a ia => unfold Chain.operators; exact ia

/-- C119. A chain of iterators or of operators of any length, collected: the same set in both builds, or the same panic, unless the debug
build stops on a debug assertion. -/
theorem C119_chains (c : Chain) :
    Silent (c.collect true) (c.collect false) ∧ Silent (c.operators true) (c.operators false) := by
  refine ⟨?_, operators_silent c⟩
  unfold Chain.collect
  silent [items_silent c]

theorem step_silent (p : Pipe) : Silent (p.step true) (p.step false) := by
  induction p with
  | items l => cases l <;> exact silent_refl _
  | union i ei bi j ej bj st tmp hi hj =>
    unfold Pipe.step
    refine silent_ite (silent_ite (silent_refl _) (silent_bind hi fun x => ?_))
      (silent_ite (silent_ite (silent_refl _) (silent_bind hj fun x => ?_)) (silent_refl _))
    all_goals exact silent_refl _
  | inter i ei bi j ej bj st tmp hi hj =>
    unfold Pipe.step
    refine silent_ite (silent_ite (silent_refl _) (silent_bind hi fun x => ?_))
      (silent_ite (silent_ite (silent_refl _) (silent_bind hj fun x => ?_)) (silent_refl _))
    all_goals exact silent_refl _
  | compl a ea lower inFor ha =>
    unfold Pipe.step
    exact silent_ite (silent_refl _) (silent_bind ha fun x => silent_refl _)
  | transl d a ha =>
    unfold Pipe.step
    refine silent_bind ha fun x => ?_
    rcases x with ⟨t, a⟩
    rcases t with (_ | tw) | _
    · exact silent_refl _
    · exact silent_bind (addTv_silent tw d) fun _ => silent_refl _
    · exact silent_refl _
  | scale ty n a ha => unfold Pipe.step; exact silent_bind ha fun x => silent_refl _
  | filter p a ha => unfold Pipe.step; exact silent_bind ha fun x => silent_refl _
  | skipWhile p st a ha => unfold Pipe.step; exact silent_bind ha fun x => silent_refl _
  | takeWhile p o a ha => unfold Pipe.step; exact silent_ite (silent_refl _) (silent_bind ha fun x => silent_refl _)
  | skip n a ha => unfold Pipe.step; exact silent_bind ha fun x => silent_refl _
  | take n a ha =>
    unfold Pipe.step
    cases n with
    | zero => exact silent_refl _
    | succ n => exact silent_bind ha fun x => silent_refl _
  | stepBy k r a ha => unfold Pipe.step; exact silent_bind ha fun x => silent_refl _
  | same a ha => unfold Pipe.step; exact silent_bind ha fun x => silent_refl _

theorem step_same {p : Pipe} {r : Res (Turn × Pipe)} (h : p.step true = r) (hr : r ≠ .error .debugAssert) : p.step false = r :=
  ((step_silent p).resolve_left fun e => hr (h.symm.trans e)).trans h

/-- C119. A call of `next` on a pipeline, in any state: if the debug build does not stop on a debug assertion, the release build returns
the same item, or panics the same way, and leaves the pipeline in the same state. -/
theorem C119_next {p : Pipe} {r : Res (Option Iv × Pipe)} (h : p.Next true r) (hr : r ≠ .error .debugAssert) : p.Next false r := by
  induction h with
  | ret h => exact .ret (step_same h nofun)
  | loop h _ ih => exact .loop (step_same h nofun) (ih hr)
  | panic h => exact .panic (step_same h fun e => hr (by cases e; rfl))

theorem gives_same {p q : Pipe} {l : List Iv} (h : Gives true p l q) : Gives false p l q := by
  induction h with
  | nil => exact .nil
  | item h _ ih => exact .item (C119_next h nofun) ih

/-- C119. A whole iteration: the items which a debug build yields before the end, or before a panic which is not a debug assertion, are
those which a release build yields before the end, or before the same panic. -/
theorem C119_pipes {p : Pipe} {l : List Iv} :
    (Yields true p l → Yields false p l) ∧ (∀ e, e ≠ .debugAssert → Breaks true p l e → Breaks false p l e) := by
  refine ⟨fun h => ?_, ?_⟩
  · induction h with
    | done h => exact .done (C119_next h nofun)
    | item h _ ih => exact .item (C119_next h nofun) ih
  · rintro e he ⟨q, hg, hn⟩
    exact ⟨q, gives_same hg, C119_next hn fun h => he (by cases h; rfl)⟩

/-! ## C119: schedules -/

theorem propagateOne_silent (i : Nat) (sch : List TSet) (k : Constr) :
    Silent (Sched.propagateOne true i sch k) (Sched.propagateOne false i sch k) := by
  unfold Sched.propagateOne
  silent [setAddSpan_silent _ _]

theorem ps_silent {s : Sched} (hv : Valid s.graph) (i : Nat) :
    Silent (s.propagateScheduling true i) (s.propagateSchedulingR i) := by
  unfold Sched.propagateScheduling Sched.propagateSchedulingR
  rw [(C118_queries hv i i).2.2.2.2.2.1]
  silent [propagateOne_silent _ _ _]

theorem psR_eq {s : Sched} (hv : Valid s.graph) (i : Nat) : s.propagateSchedulingR i = s.propagateScheduling false i := by
  unfold Sched.propagateScheduling Sched.propagateSchedulingR
  rw [(C118_queries hv i i).2.2.2.2.2.1]

theorem retain_silent {s : Sched} (hv : Valid s.graph) (i : Nat) (w : Window) : Silent (s.retain true i w) (s.retainR i w) := by
  unfold Sched.retain Sched.retainR
  refine silent_ite (silent_bind (silent_refl _) fun si => silent_ite (silent_refl _) (silent_ite (silent_refl _)
    (silent_bind (silent_refl _) fun r => silent_bind (silent_refl _) fun d => silent_bind ?_ fun _ => silent_refl _))) (silent_refl _)
  exact ps_silent (s := { s with schedule := d }) hv i

theorem retainR_eq {s : Sched} (hv : Valid s.graph) (i : Nat) (w : Window) : s.retainR i w = s.retain false i w := by
  unfold Sched.retain Sched.retainR
  have : ∀ d : List TSet, Sched.propagateSchedulingR { s with schedule := d } i =
      Sched.propagateScheduling false { s with schedule := d } i := fun d => psR_eq (s := { s with schedule := d }) hv i
  simp only [this]

theorem retain_graph {dbg : Bool} {s s' : Sched} {i : Nat} {w : Window} {o : Outcome} (h : s.retain dbg i w = .ok (s', o)) :
    s'.graph = s.graph := by
  unfold Sched.retain at h
  split at h
  · obtain ⟨si, -, h⟩ := bind_inv h
    split at h
    · cases h; rfl
    · split at h
      · cases h; rfl
      · obtain ⟨r, -, h⟩ := bind_inv h
        obtain ⟨d, -, h⟩ := bind_inv h
        obtain ⟨s1, h1, h⟩ := bind_inv h
        cases h
        unfold Sched.propagateScheduling at h1
        obtain ⟨ks, -, h1⟩ := bind_inv h1
        obtain ⟨d', -, h1⟩ := bind_inv h1
        cases h1; rfl
  · cases h

/-- the loop of `set_deadline` and `set_startline` -/
theorem retainAll_both (w : Window) : ∀ (l : List Nat) (p : Sched × Outcome), Valid p.1.graph →
    Silent
      (l.foldlM (fun (p : Sched × Outcome) i => do
        match ← Sched.retain true p.1 i w with
        | (s, .unchanged) => return (s, p.2)
        | (s, .propagated) => return (s, .propagated)
        | _ => (.error .unwrapNone : Res (Sched × Outcome))) p)
      (l.foldlM (fun (p : Sched × Outcome) i => do
        match ← Sched.retainR p.1 i w with
        | (s, .unchanged) => return (s, p.2)
        | (s, .propagated) => return (s, .propagated)
        | _ => (.error .unwrapNone : Res (Sched × Outcome))) p) ∧
    (l.foldlM (fun (p : Sched × Outcome) i => do
        match ← Sched.retainR p.1 i w with
        | (s, .unchanged) => return (s, p.2)
        | (s, .propagated) => return (s, .propagated)
        | _ => (.error .unwrapNone : Res (Sched × Outcome))) p) =
      (l.foldlM (fun (p : Sched × Outcome) i => do
        match ← Sched.retain false p.1 i w with
        | (s, .unchanged) => return (s, p.2)
        | (s, .propagated) => return (s, .propagated)
        | _ => (.error .unwrapNone : Res (Sched × Outcome))) p) ∧
    ∀ dbg p', (l.foldlM (fun (p : Sched × Outcome) i => do
        match ← Sched.retain dbg p.1 i w with
        | (s, .unchanged) => return (s, p.2)
        | (s, .propagated) => return (s, .propagated)
        | _ => (.error .unwrapNone : Res (Sched × Outcome))) p) = .ok p' → p'.1.graph = p.1.graph
  | [], p, _ => ⟨silent_refl _, rfl, fun _ p' h => by cases h; rfl⟩
  | i :: l, p, hv => by
    have step : ∀ dbg q, (do
        match ← Sched.retain dbg p.1 i w with
        | (s, .unchanged) => return (s, p.2)
        | (s, .propagated) => return (s, .propagated)
        | _ => (.error .unwrapNone : Res (Sched × Outcome))) = .ok q → q.1.graph = p.1.graph := by
      intro dbg q h
      obtain ⟨⟨s, o⟩, h1, h⟩ := bind_inv h
      cases o <;> cases h <;> exact retain_graph h1
    refine ⟨?_, ?_, ?_⟩
    · rw [List.foldlM_cons, List.foldlM_cons]
      refine silent_bind_mem (silent_bind (retain_silent hv i w) fun x => silent_refl _) fun q hq => ?_
      exact (retainAll_both w l q (by rw [step true q hq]; exact hv)).1
    · rw [List.foldlM_cons, List.foldlM_cons, retainR_eq hv]
      generalize hx : (do
        match ← Sched.retain false p.1 i w with
        | (s, .unchanged) => return (s, p.2)
        | (s, .propagated) => return (s, .propagated)
        | _ => (.error .unwrapNone : Res (Sched × Outcome))) = x
      cases x with
      | error e => rfl
      | ok q => exact (retainAll_both w l q (by rw [step false q hx]; exact hv)).2.1
    · intro dbg p' h
      rw [List.foldlM_cons] at h
      obtain ⟨q, hq, h⟩ := bind_inv h
      have e := step dbg q hq
      exact ((retainAll_both w l q (by rw [e]; exact hv)).2.2 dbg p' h).trans e

theorem req_silent {s : Sched} (hv : Valid s.graph) (q : Req) : Silent (q.run true s) (q.runR s) := by
  cases q with
  | retain i w => exact retain_silent hv i w
  | remove i w => exact retain_silent hv i _
  | deadline d => exact silent_ite (silent_refl _) (retainAll_both _ _ (s, .unchanged) hv).1
  | startline d => exact silent_ite (silent_refl _) (retainAll_both _ _ (s, .unchanged) hv).1

theorem req_eq {s : Sched} (hv : Valid s.graph) (q : Req) : q.runR s = q.run false s := by
  cases q with
  | retain i w => exact retainR_eq hv i w
  | remove i w => exact retainR_eq hv i _
  | deadline d =>
    change s.setDeadlineR d = s.setDeadline false d
    unfold Sched.setDeadline Sched.setDeadlineR
    split
    · rfl
    · exact (retainAll_both _ _ (s, .unchanged) hv).2.1
  | startline d =>
    change s.setStartlineR d = s.setStartline false d
    unfold Sched.setStartline Sched.setStartlineR
    split
    · rfl
    · exact (retainAll_both _ _ (s, .unchanged) hv).2.1

theorem req_graph {dbg : Bool} {s s' : Sched} {o : Outcome} (hv : Valid s.graph) {q : Req} (h : q.run dbg s = .ok (s', o)) :
    s'.graph = s.graph := by
  cases q with
  | retain i w => exact retain_graph h
  | remove i w => exact retain_graph h
  | deadline d =>
    change s.setDeadline dbg d = _ at h
    unfold Sched.setDeadline at h
    split at h
    · cases h; rfl
    · exact (retainAll_both _ _ (s, .unchanged) hv).2.2 dbg _ h
  | startline d =>
    change s.setStartline dbg d = _ at h
    unfold Sched.setStartline at h
    split at h
    · cases h; rfl
    · exact (retainAll_both _ _ (s, .unchanged) hv).2.2 dbg _ h

/-- C119. A request to a scheduler over an allocated graph, whatever its slots and the request are: the release build gives the same answer
and the same schedule as the debug build, or panics the same way, unless the debug build stops on a debug assertion. The arithmetic of
the graph makes no difference: what a release build does is what the debug build would do without the debug assertions. -/
theorem C119_request {s : Sched} (hv : Valid s.graph) (q : Req) :
    Silent (q.run true s) (q.runR s) ∧ q.runR s = q.run false s := ⟨req_silent hv q, req_eq hv q⟩

/-- C119. Any number of requests, one after the other. -/
theorem C119_requests {s : Sched} (hv : Valid s.graph) (l : List Req) : Silent (plan s l) (planR s l) := by
  induction l generalizing s with
  | nil => exact silent_refl _
  | cons q l ih =>
    unfold plan planR
    refine silent_bind_mem (req_silent hv q) fun x hx => ?_
    exact silent_bind (ih (s := x.1) (by rw [req_graph hv (s' := x.1) (o := x.2) hx]; exact hv)) fun _ => silent_refl _

/-- C119. Whole programs, which build a graph of at most 65535 instants by any history of operations, then make any requests to a scheduler:
if the debug build ends without stopping on a debug assertion, the release build ends with the same schedule and the same answers. -/
theorem C119_program {ops : List Op} (hops : ∀ op ∈ ops, op.InRange) (reqs : List Req) :
    Silent (program ops reqs) (programR ops reqs) := by
  unfold program programR
  rw [C118_history C59_start.1 hops]
  refine silent_bind_mem (silent_refl _) fun g hg => ?_
  rcases C59_history C59_start.1 hops with ⟨g', e, hv⟩ | e
  · rw [hg] at e
    cases e
    exact C119_requests (s := Sched.new g) hv reqs
  · rw [hg] at e; cases e

/-- a translation which overflows stops a debug build, and gives an empty interval in a release build; one which does not overflow gives
the same interval in both -/
example : Iv.addTv true ⟨INF - 2, INF - 1⟩ 5 = .error .debugAssert ∧ (∃ r, Iv.addTv false ⟨INF - 2, INF - 1⟩ 5 = .ok r ∧ r.isEmpty) ∧
    Iv.addTv true ⟨1, 4⟩ 5 = .ok ⟨6, 9⟩ ∧ Iv.addTv false ⟨1, 4⟩ 5 = .ok ⟨6, 9⟩ := by
  refine ⟨by decide, ?_, by decide, by decide⟩
  have h : Iv.addTv false ⟨INF - 2, INF - 1⟩ 5 = .ok Iv.empty := by decide
  exact ⟨_, h, ((C119_interval_stops _ ⟨0, 0⟩ _ 5).1 h).1 (by decide)⟩

/-- the same for a set of two intervals, only the last of which overflows -/
example : TSet.addTv true [⟨1, 4⟩, ⟨INF - 2, INF - 1⟩] 5 = .error .debugAssert ∧
    TSet.addTv false [⟨1, 4⟩, ⟨INF - 2, INF - 1⟩] 5 = .ok [⟨6, 9⟩, Iv.empty] := by
  have h : TSet.addTv false [⟨1, 4⟩, ⟨INF - 2, INF - 1⟩] 5 = .ok [⟨6, 9⟩, Iv.empty] := by decide
  exact ⟨((C119_set_stops _ _ 5).1 h).2 ⟨Iv.empty, by decide, by decide⟩, h⟩

/-- a pipeline which yields two items in a debug build -/
example : Yields false (.transl 5 (.items [⟨1, 4⟩, ⟨8, 9⟩])) [⟨6, 9⟩, ⟨13, 14⟩] :=
  C119_pipes.1 (.item (.ret rfl) (.item (.ret rfl) (.done (.ret rfl))))

/-- a program which builds a graph of three instants, then schedules: neither build stops -/
example : (∀ op ∈ [Op.propagate ⟨0, 1, false, 2, 5⟩, .propagate ⟨1, 2, false, 1, 4⟩], op.InRange) ∧
    (∃ s os, program [.propagate ⟨0, 1, false, 2, 5⟩, .propagate ⟨1, 2, false, 1, 4⟩]
        [.retain 0 (.conv (.iv ⟨10, 20⟩)), .deadline 22, .remove 1 (.point 15)] = .ok (s, os) ∧
      programR [.propagate ⟨0, 1, false, 2, 5⟩, .propagate ⟨1, 2, false, 1, 4⟩]
        [.retain 0 (.conv (.iv ⟨10, 20⟩)), .deadline 22, .remove 1 (.point 15)] = .ok (s, os) ∧
      os = [.propagated, .propagated, .propagated]) := by
  have hr : ∀ op ∈ [Op.propagate ⟨0, 1, false, 2, 5⟩, .propagate ⟨1, 2, false, 1, 4⟩], op.InRange := by
    simp only [List.mem_cons, List.not_mem_nil, or_false]
    rintro op (rfl | rfl) <;> simp only [Op.InRange] <;> decide
  refine ⟨hr, ?_⟩
  have key := C119_program hr [.retain 0 (.conv (.iv ⟨10, 20⟩)), .deadline 22, .remove 1 (.point 15)]
  have run : Except.map Prod.snd (program [.propagate ⟨0, 1, false, 2, 5⟩, .propagate ⟨1, 2, false, 1, 4⟩]
      [.retain 0 (.conv (.iv ⟨10, 20⟩)), .deadline 22, .remove 1 (.point 15)]) =
      .ok [.propagated, .propagated, .propagated] := by decide +kernel
  generalize program _ _ = d at key run ⊢
  rcases d with e | ⟨s, os⟩
  · cases run
  · cases run
    exact ⟨s, _, rfl, key.resolve_left nofun, rfl⟩

end Chrono
