import Verif.Spec.Crash
import Verif.Props.SchedHistory

/-!
# Contents left by interrupted operations
-/

set_option linter.unusedSimpArgs false

namespace Chrono
open Spec

namespace Run

theorem bind_def {S α β : Type} (x : Run S α) (f : α → Run S β) : x >>= f = Run.bind x f := rfl

theorem res_pure {S α : Type} (a : α) : (pure a : Run S α).res = .ok a := rfl

theorem res_lift {S α : Type} (x : Res α) : (lift x : Run S α).res = x := rfl

theorem res_put {S : Type} (x : Res S) : (put x).res = x := by cases x <;> rfl

theorem res_bind {S α β : Type} (x : Run S α) (f : α → Run S β) : (x >>= f).res = x.res >>= fun a => (f a).res := by
  rw [bind_def]
  unfold bind
  cases h : x.res <;> rfl

theorem res_foldlM {S α β : Type} {f : α → β → Run S α} {g : α → β → Res α} (h : ∀ a b, (f a b).res = g a b) :
    ∀ (l : List β) (a : α), (l.foldlM f a).res = l.foldlM g a
  | [], _ => rfl
  | b :: l, a => by
    rw [List.foldlM_cons, List.foldlM_cons, res_bind, h]
    congr 1
    exact funext fun x => res_foldlM h l x

theorem res_ite {S α : Type} {c : Prop} [Decidable c] (x y : Run S α) : (if c then x else y).res = if c then x.res else y.res := by
  split <;> rfl

end Run

/-- all the contents satisfy `I`; the result satisfies `P`, or is a panic allowed by `E` -/
structure RSafe {S α : Type} (I : S → Prop) (P : α → Prop) (E : Panic → Prop) (x : Run S α) : Prop where
  steps : ∀ s ∈ x.steps, I s
  res : Safe P E x.res

namespace RSafe

theorem pure {S α : Type} {I : S → Prop} {P : α → Prop} {E : Panic → Prop} {a : α} (h : P a) : RSafe I P E (pure a : Run S α) :=
  ⟨fun _ h => (nomatch h), .ok h⟩

theorem lift {S α : Type} {I : S → Prop} {P : α → Prop} {E : Panic → Prop} {x : Res α} (h : Safe P E x) :
    RSafe I P E (Run.lift x : Run S α) :=
  ⟨fun _ h => (nomatch h), h⟩

theorem put {S : Type} {I P : S → Prop} {E : Panic → Prop} {x : Res S} (h : Safe P E x) (hi : ∀ s, P s → I s) :
    RSafe I P E (Run.put x) := by
  cases h with
  | ok h => exact ⟨fun s hs => by cases List.mem_singleton.1 hs; exact hi _ h, .ok h⟩
  | error h => exact ⟨fun _ h => (nomatch h), .error h⟩

theorem bind {S α β : Type} {I : S → Prop} {P : α → Prop} {Q : β → Prop} {E : Panic → Prop} {x : Run S α} {f : α → Run S β}
    (h : RSafe I P E x) (hf : ∀ a, P a → RSafe I Q E (f a)) : RSafe I Q E (x >>= f) := by
  obtain ⟨h1, h2⟩ := h
  rw [Run.bind_def]
  unfold Run.bind
  cases e : x.res with
  | ok a =>
    rw [e] at h2
    cases h2 with
    | ok h2 =>
      obtain ⟨k1, k2⟩ := hf a h2
      refine ⟨fun s hs => ?_, k2⟩
      rcases List.mem_append.1 hs with hs | hs
      · exact h1 s hs
      · exact k1 s hs
  | error e' =>
    rw [e] at h2
    cases h2 with
    | error h2 => exact ⟨h1, .error h2⟩

theorem foldlM {S α β : Type} {f : α → β → Run S α} {I : S → Prop} {P : α → Prop} {E : Panic → Prop} : ∀ {l : List β} {a : α},
    P a → (∀ x b, b ∈ l → P x → RSafe I P E (f x b)) → RSafe I P E (l.foldlM f a)
  | [], _, ha, _ => .pure ha
  | b :: l, a, ha, st => by
    rw [List.foldlM_cons]
    exact (st a b (by simp) ha).bind (fun x hx => RSafe.foldlM hx (fun x b hb => st x b (by simp [hb])))

theorem mono {S α : Type} {I J : S → Prop} {P Q : α → Prop} {E F : Panic → Prop} {x : Run S α} (h : RSafe I P E x)
    (hi : ∀ s, I s → J s) (hp : ∀ a, P a → Q a) (he : ∀ e, E e → F e) : RSafe J Q F x :=
  ⟨fun s hs => hi s (h.steps s hs), (h.res.mono hp).monoE he⟩

end RSafe

/-! ## The results are those of the model -/

namespace Graph
open Run

theorem relaxT_res (g : Graph) (i j : Nat) (v : Int) : (g.relaxT i j v).res = g.relax i j v := by
  unfold relaxT relax
  simp only [res_bind, res_lift, res_ite, res_put, res_pure]
  rfl

theorem propagateLowerBoundT_res (g : Graph) (io jo : Nat) : (g.propagateLowerBoundT io jo).res = g.propagateLowerBound io jo := by
  unfold propagateLowerBoundT propagateLowerBound
  rw [res_bind, res_lift]
  congr 1
  funext v
  rw [res_bind]
  congr 1
  · exact res_foldlM (fun a b => by simp only [res_bind, res_lift, relaxT_res]) _ _
  · funext y
    refine res_foldlM (fun a b => ?_) _ _
    rw [res_bind, res_lift]
    congr 1
    funext z
    exact res_foldlM (fun a b => by simp only [res_bind, res_lift, relaxT_res]) _ _

theorem propagateT_res (g : Graph) (k : Constr) : (g.propagateT k).res = g.propagate k := by
  unfold propagateT propagate
  simp only [res_bind, res_lift, res_ite, res_put, res_pure, propagateLowerBoundT_res]
  rfl

theorem gpRowT_res (g : Graph) (k i : Nat) : (g.gpRowT k i).res = g.gpRow k i := by
  unfold gpRowT gpRow
  exact res_foldlM (fun a b => by simp only [res_bind, res_lift, relaxT_res]) _ _

theorem globalPropagationT_res (g : Graph) : g.globalPropagationT.res = g.globalPropagation := by
  unfold globalPropagationT globalPropagation
  simp only [res_bind, res_pure]
  congr 1
  refine res_foldlM (fun a b => ?_) _ _
  refine res_foldlM (fun a b => ?_) _ _
  simp only [res_bind, res_lift, res_ite, res_pure, gpRowT_res]
  rfl

theorem mergeT_res (g h : Graph) : (g.mergeT h).res = g.merge h := by
  unfold mergeT merge
  by_cases c : g.size < h.size
  · simp only [if_pos c, res_bind, res_put, res_ite, res_pure, globalPropagationT_res, ok_bind]
    rfl
  · simp only [if_neg c, res_bind, res_put, res_ite, res_pure, globalPropagationT_res, ok_bind]
    rfl

theorem insertT_res (g : Graph) (k : Constr) : (g.insertT k).res = g.insert k := by
  unfold insertT insert
  simp only [res_bind, res_lift, res_ite, res_put, res_pure]
  rfl

theorem extendT_res (g : Graph) (hint : Option Nat) (ks : List Constr) : (g.extendT hint ks).res = g.extend hint ks := by
  unfold extendT extend
  split
  · rfl
  · split
    · cases ks with
      | nil => rfl
      | cons k l => exact propagateT_res g k
    · rw [res_bind]
      congr 1
      · exact res_foldlM (fun a b => insertT_res a b) _ _
      · funext y
        exact globalPropagationT_res y

end Graph

namespace Sched
open Run

theorem loopT_res (dbg : Bool) (i : Nat) (g : Graph) : ∀ (ks : List Constr) (sch : List TSet),
    (ks.foldlM (fun (s : Sched) k => Run.put (do return { s with schedule := ← propagateOne dbg i s.schedule k })) ⟨g, sch⟩).res =
      (do return (⟨g, ← ks.foldlM (propagateOne dbg i) sch⟩ : Sched))
  | [], _ => rfl
  | k :: ks, sch => by
    rw [List.foldlM_cons, List.foldlM_cons, res_bind, res_put]
    cases h : propagateOne dbg i sch k with
    | error e => rfl
    | ok sch' => exact loopT_res dbg i g ks sch'

theorem retainT_res (dbg : Bool) (s : Sched) (i : Nat) (w : Window) : (s.retainT dbg i w).res = s.retain dbg i w := by
  unfold retainT retain propagateScheduling
  simp only [res_bind, res_lift, res_ite, res_put, res_pure, loopT_res]
  split
  · cases sget s.schedule i with
    | error e => rfl
    | ok si =>
      simp only [ok_bind]
      split
      · rfl
      · split
        · rfl
        · cases w.restrict si with
          | error e => rfl
          | ok r =>
            simp only [ok_bind]
            cases sset s.schedule i r with
            | error e => rfl
            | ok sch =>
              simp only [ok_bind, pure_bind]
              cases s.graph.constraintsFrom i with
              | error e => rfl
              | ok ks =>
                simp only [ok_bind, loopT_res]
                rfl
  · rfl

theorem retainAllT_res (dbg : Bool) (s : Sched) (w : Window) : (s.retainAllT dbg w).res = s.retainAll dbg w := by
  unfold retainAllT retainAll
  refine res_foldlM (fun p i => ?_) _ _
  rw [res_bind, retainT_res]
  congr 1
  funext q
  rcases q with ⟨x, o⟩
  cases o <;> rfl

theorem setDeadlineT_res (dbg : Bool) (s : Sched) (d : Int) : (s.setDeadlineT dbg d).res = s.setDeadline dbg d := by
  unfold setDeadlineT setDeadline
  simp only [res_ite, res_lift, retainAllT_res]

theorem setStartlineT_res (dbg : Bool) (s : Sched) (d : Int) : (s.setStartlineT dbg d).res = s.setStartline dbg d := by
  unfold setStartlineT setStartline
  simp only [res_ite, res_lift, retainAllT_res]

theorem runT_res (dbg : Bool) (s : Sched) (r : Req) : (r.runT dbg s).res = r.run dbg s := by
  cases r with
  | retain i w => exact retainT_res dbg s i w
  | remove i w => exact retainT_res dbg s i _
  | deadline d => exact setDeadlineT_res dbg s d
  | startline d => exact setStartlineT_res dbg s d

end Sched

end Chrono
