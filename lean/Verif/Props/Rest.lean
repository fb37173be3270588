import Verif.Props.Overflow
import Verif.Props.Lazy
import Verif.Lemmas.Seq

/-!
# What a pipeline does after its end (C146)
-/

namespace Chrono
open Spec

/-- what is true of a pipeline at any turn of any call of `next` -/
def Pipe.Kept (dbg : Bool) : Pipe → Prop
  | .items _ => True
  | .union _ ei bi _ ej bj _ _ => (bi = some none → ei = true) ∧ (bj = some none → ej = true)
  | .inter _ _ _ _ _ _ _ _ => True
  | .compl _ _ _ _ => True
  | .transl _ a => dbg = true ∧ a.Kept dbg
  | .scale _ _ a => a.Kept dbg
  | .filter _ a => a.Kept dbg
  | .skipWhile _ _ a => a.Kept dbg
  | .takeWhile _ _ a => a.Kept dbg
  | .skip _ a => a.Kept dbg
  | .take _ a => a.Kept dbg
  | .stepBy _ _ a => a.Kept dbg
  | .same a => a.Kept dbg

/-- a pipeline which has returned `None` -/
def Pipe.AtRest : Pipe → Prop
  | .items l => l = []
  | .union _ ei bi _ ej bj st _ => bi = none ∧ bj = none ∧ (st = .done ∨ (st = .onlyI ∧ ei = true) ∨ (st = .onlyJ ∧ ej = true))
  | .inter _ _ bi _ _ bj st _ => bi = none ∧ bj = none ∧ st = .done
  | .compl _ ea lower _ => ea = true ∧ isFutureInfinite lower = true
  | .transl _ a => a.AtRest
  | .scale _ _ a => a.AtRest
  | .filter _ a => a.AtRest
  | .skipWhile _ _ a => a.AtRest
  | .takeWhile _ over a => over = true ∨ a.AtRest
  | .skip _ a => a.AtRest
  | .take n a => n = 0 ∨ a.AtRest
  | .stepBy _ _ a => a.AtRest
  | .same a => a.AtRest

theorem rest_next (dbg : Bool) (p : Pipe) (h : p.AtRest) : ∃ p', p.Next dbg (.ok (none, p')) ∧ p'.AtRest := by
  induction p with
  | items l => cases (h : l = []); exact ⟨.items [], .ret (by simp only [Pipe.step]), rfl⟩
  | union i ei bi j ej bj st tmp =>
    obtain ⟨rfl, rfl, rfl | ⟨rfl, rfl⟩ | ⟨rfl, rfl⟩⟩ := h
    · exact ⟨.union i ei none j ej none .done tmp, .ret (by simp only [Pipe.step, UState.asksI, UState.asksJ, UnionIter.step]; rfl), rfl, rfl, Or.inl rfl⟩
    · refine ⟨.union i true none j ej none .onlyI tmp, .loop (p' := .union i true (some none) j ej none .onlyI tmp) ?_ (.ret ?_), rfl, rfl, Or.inr (Or.inl ⟨rfl, rfl⟩)⟩
      · simp only [Pipe.step, UState.asksI]; rfl
      · simp only [Pipe.step, UState.asksI, UState.asksJ, UnionIter.step, answer]; rfl
    · refine ⟨.union i ei none j true none .onlyJ tmp, .loop (p' := .union i ei none j true (some none) .onlyJ tmp) ?_ (.ret ?_), rfl, rfl, Or.inr (Or.inr ⟨rfl, rfl⟩)⟩
      · simp only [Pipe.step, UState.asksI, UState.asksJ]; rfl
      · simp only [Pipe.step, UState.asksI, UState.asksJ, UnionIter.step, answer]; rfl
  | inter i ei bi j ej bj st tmp =>
    obtain ⟨rfl, rfl, rfl⟩ := h
    exact ⟨.inter i ei none j ej none .done tmp, .ret (by simp only [Pipe.step, NState.asksI, NState.asksJ, InterIter.step]; rfl), rfl, rfl, rfl⟩
  | compl a ea lower inFor =>
    obtain ⟨rfl, h2⟩ := h
    exact ⟨.compl a true lower false, .ret (by simp only [Pipe.step, complTurn, h2, if_true]), rfl, h2⟩
  | transl d a ih =>
    obtain ⟨a', h1, h2⟩ := ih h
    exact ⟨.transl d a', inner_ret (F := .transl d) (F' := .transl d) (fun x x' hx => by simp only [Pipe.step, hx]; rfl) h1 (fun x hx => by simp only [Pipe.step, hx]; rfl), h2⟩
  | scale ty n a ih =>
    obtain ⟨a', h1, h2⟩ := ih h
    exact ⟨.scale ty n a', inner_ret (F := .scale ty n) (F' := .scale ty n) (fun x x' hx => by simp only [Pipe.step, hx]; rfl) h1 (fun x hx => by simp only [Pipe.step, hx]; rfl), h2⟩
  | filter f a ih =>
    obtain ⟨a', h1, h2⟩ := ih h
    exact ⟨.filter f a', inner_ret (F := .filter f) (F' := .filter f) (fun x x' hx => by simp only [Pipe.step, hx]; rfl) h1 (fun x hx => by simp only [Pipe.step, hx]; rfl), h2⟩
  | skipWhile f st a ih =>
    obtain ⟨a', h1, h2⟩ := ih h
    exact ⟨.skipWhile f st a', inner_ret (F := .skipWhile f st) (F' := .skipWhile f st) (fun x x' hx => by simp only [Pipe.step, hx]; rfl) h1 (fun x hx => by simp only [Pipe.step, hx]; rfl), h2⟩
  | takeWhile f over a ih =>
    cases over with
    | true => exact ⟨.takeWhile f true a, .ret (by simp only [Pipe.step, if_true]), Or.inl rfl⟩
    | false =>
      obtain ⟨a', h1, h2⟩ := ih (h.resolve_left (by decide))
      exact ⟨.takeWhile f false a', inner_ret (F := .takeWhile f false) (F' := .takeWhile f false) (fun x x' hx => by simp only [Pipe.step, hx]; rfl) h1 (fun x hx => by simp only [Pipe.step, hx]; rfl), Or.inr h2⟩
  | skip n a ih =>
    obtain ⟨a', h1, h2⟩ := ih h
    exact ⟨.skip 0 a', inner_ret (F := .skip n) (F' := .skip 0) (fun x x' hx => by simp only [Pipe.step, hx]; rfl) h1 (fun x hx => by simp only [Pipe.step, hx]; rfl), h2⟩
  | take n a ih =>
    cases n with
    | zero => exact ⟨.take 0 a, .ret (by simp only [Pipe.step]), Or.inl rfl⟩
    | succ n =>
      obtain ⟨a', h1, h2⟩ := ih (h.resolve_left (by omega))
      exact ⟨.take n a', inner_ret (F := .take (n + 1)) (F' := .take n) (take_loop n) h1 (fun x hx => by simp only [Pipe.step, hx]; rfl), Or.inr h2⟩
  | stepBy k r a ih =>
    obtain ⟨a', h1, h2⟩ := ih h
    exact ⟨.stepBy k k a', inner_ret (F := .stepBy k r) (F' := .stepBy k k) (fun x x' hx => by simp only [Pipe.step, hx]; rfl) h1 (fun x hx => by simp only [Pipe.step, hx]; rfl), h2⟩
  | same a ih =>
    obtain ⟨a', h1, h2⟩ := ih h
    exact ⟨.same a', inner_ret (F := .same) (F' := .same) (fun x x' hx => by simp only [Pipe.step, hx]; rfl) h1 (fun x hx => by simp only [Pipe.step, hx]; rfl), h2⟩

theorem rest_quiet (dbg : Bool) (n : Nat) : ∀ p : Pipe, p.AtRest → Quiet dbg n p := by
  induction n with
  | zero => intro p _; trivial
  | succ n ih =>
    intro p h
    obtain ⟨p', h1, h2⟩ := rest_next dbg p h
    exact ⟨p', h1, ih p' h2⟩

/-- a translation of a debug build returns no empty interval -/
theorem addTv_debug {i x : Iv} {d : Int} (h : i.addTv true d = .ok x) : x.isEmpty = false := by
  simp only [Iv.addTv] at h
  obtain ⟨l, -, h⟩ := bind_ok h
  obtain ⟨u, -, h⟩ := bind_ok h
  simp only [Iv.debugNonEmpty, Bool.true_and] at h
  split at h
  · cases h
  · next c => cases h; simpa using c

theorem mul_full {i x : Iv} {ty : Iv.ScaleTy} {n : Int} (h : i.mul ty n = .ok x) : x.isEmpty = false := by
  simp only [Iv.mul] at h
  split at h <;> (repeat' split at h) <;> cases h <;> simp_all [Iv.isEmpty]

/-- a turn keeps what is true at any turn, and leaves the pipeline at rest if `next` returns `None` -/
theorem kept_step {dbg : Bool} (p : Pipe) : ∀ {t : Turn} {p' : Pipe}, p.Kept dbg → p.step dbg = .ok (t, p') →
    p'.Kept dbg ∧ (t = .ret none → p'.AtRest) := by
  induction p with
  | items l =>
    intro t p' hk h
    cases l with
    | nil => simp only [Pipe.step] at h; cases h; exact ⟨trivial, fun _ => rfl⟩
    | cons x l => simp only [Pipe.step] at h; cases h; exact ⟨trivial, nofun⟩
  | union i ei bi j ej bj st tmp =>
    intro t p' hk h
    obtain ⟨k1, k2⟩ := hk
    simp only [Pipe.step] at h
    split at h
    · split at h
      · next c => cases h; exact ⟨⟨fun _ => c, k2⟩, nofun⟩
      · obtain ⟨⟨u, a'⟩, -, h⟩ := bind_ok h
        cases u with
        | loop => cases h; exact ⟨⟨k1, k2⟩, nofun⟩
        | ret o =>
          cases h
          exact ⟨⟨fun e => by cases e; rfl, k2⟩, nofun⟩
    · split at h
      · split at h
        · next c => cases h; exact ⟨⟨k1, fun _ => c⟩, nofun⟩
        · obtain ⟨⟨u, a'⟩, -, h⟩ := bind_ok h
          cases u with
          | loop => cases h; exact ⟨⟨k1, k2⟩, nofun⟩
          | ret o =>
            cases h
            exact ⟨⟨k1, fun e => by cases e; rfl⟩, nofun⟩
      · next c1 c2 =>
        cases h
        refine ⟨⟨nofun, nofun⟩, fun ht => ⟨rfl, rfl, ?_⟩⟩
        rcases bi with _ | _ | bi <;> rcases bj with _ | _ | bj <;> cases st <;>
          simp only [UnionIter.step, answer, Option.getD, Option.toList, UState.asksI, UState.asksJ, Option.isNone, Bool.and_true,
            Bool.and_self, Bool.and_false, not_true_eq_false] at ht c1 c2 ⊢ <;>
          first
            | exact Or.inl trivial
            | exact Or.inl rfl
            | exact Or.inr (Or.inl ⟨by trivial, k1 rfl⟩)
            | exact Or.inr (Or.inr ⟨by trivial, k2 rfl⟩)
            | ((repeat' split at ht) <;> cases ht)
  | inter i ei bi j ej bj st tmp =>
    intro t p' hk h
    simp only [Pipe.step] at h
    split at h
    · split at h
      · cases h; exact ⟨trivial, nofun⟩
      · obtain ⟨⟨u, a'⟩, -, h⟩ := bind_ok h
        cases u <;> (cases h; exact ⟨trivial, nofun⟩)
    · split at h
      · split at h
        · cases h; exact ⟨trivial, nofun⟩
        · obtain ⟨⟨u, a'⟩, -, h⟩ := bind_ok h
          cases u <;> (cases h; exact ⟨trivial, nofun⟩)
      · next c1 c2 =>
        cases h
        refine ⟨trivial, fun ht => ⟨rfl, rfl, ?_⟩⟩
        rcases bi with _ | _ | bi <;> rcases bj with _ | _ | bj <;> cases st <;>
          simp only [InterIter.step, answer, Option.getD, Option.toList, NState.asksI, NState.asksJ, Option.isNone, Bool.and_true,
            Bool.and_self, Bool.and_false, not_true_eq_false] at ht c1 c2 ⊢ <;>
          first
            | rfl
            | ((repeat' split at ht) <;> cases ht)
  | compl a ea lower inFor =>
    intro t p' hk h
    simp only [Pipe.step] at h
    have key : ∀ o, (complTurn lower inFor o).1 = .ret none → o = none ∧ isFutureInfinite (complTurn lower inFor o).2.1 = true := by
      intro o ho
      cases o with
      | none =>
        simp only [complTurn] at ho ⊢
        split at ho
        · next c => rw [if_pos c]; exact ⟨by trivial, c⟩
        · cases ho
      | some x =>
        simp only [complTurn] at ho
        (repeat' split at ho) <;> cases ho
    split at h
    · next c => cases h; exact ⟨trivial, fun ht => ⟨c, (key none ht).2⟩⟩
    · obtain ⟨⟨u, a'⟩, -, h⟩ := bind_ok h
      cases u with
      | loop => cases h; exact ⟨trivial, nofun⟩
      | ret o =>
        cases h
        refine ⟨trivial, fun ht => ?_⟩
        obtain ⟨e, k⟩ := key o ht
        exact ⟨by rw [e]; rfl, k⟩
  | transl d a ih =>
    intro t p' hk h
    obtain ⟨rfl, hk⟩ := hk
    simp only [Pipe.step] at h
    obtain ⟨⟨u, a'⟩, e, h⟩ := bind_ok h
    obtain ⟨h1, h2⟩ := ih hk e
    cases u with
    | loop => cases h; exact ⟨⟨rfl, h1⟩, nofun⟩
    | ret o =>
      cases o with
      | none => cases h; exact ⟨⟨rfl, h1⟩, fun _ => h2 rfl⟩
      | some x =>
        obtain ⟨y, ey, h⟩ := bind_ok h
        cases h
        rw [addTv_debug ey]
        exact ⟨⟨rfl, h1⟩, nofun⟩
  | scale ty n a ih =>
    intro t p' hk h
    simp only [Pipe.step] at h
    obtain ⟨⟨u, a'⟩, e, h⟩ := bind_ok h
    obtain ⟨h1, h2⟩ := ih hk e
    cases u with
    | loop => cases h; exact ⟨h1, nofun⟩
    | ret o =>
      cases o with
      | none => cases h; exact ⟨h1, fun _ => h2 rfl⟩
      | some x =>
        obtain ⟨y, ey, h⟩ := bind_ok h
        cases h
        rw [mul_full ey]
        exact ⟨h1, nofun⟩
  | filter f a ih =>
    intro t p' hk h
    simp only [Pipe.step] at h
    obtain ⟨⟨u, a'⟩, e, h⟩ := bind_ok h
    obtain ⟨h1, h2⟩ := ih hk e
    cases u with
    | loop => cases h; exact ⟨h1, nofun⟩
    | ret o =>
      cases o with
      | none => cases h; exact ⟨h1, fun _ => h2 rfl⟩
      | some x => cases h; exact ⟨h1, fun ht => by split at ht <;> cases ht⟩
  | skipWhile f st a ih =>
    intro t p' hk h
    simp only [Pipe.step] at h
    obtain ⟨⟨u, a'⟩, e, h⟩ := bind_ok h
    obtain ⟨h1, h2⟩ := ih hk e
    cases u with
    | loop => cases h; exact ⟨h1, nofun⟩
    | ret o =>
      cases o with
      | none => cases h; exact ⟨h1, fun _ => h2 rfl⟩
      | some x => simp only at h; split at h <;> (cases h; exact ⟨h1, nofun⟩)
  | takeWhile f over a ih =>
    intro t p' hk h
    simp only [Pipe.step] at h
    split at h
    · next c => cases h; exact ⟨hk, fun _ => Or.inl c⟩
    · obtain ⟨⟨u, a'⟩, e, h⟩ := bind_ok h
      obtain ⟨h1, h2⟩ := ih hk e
      cases u with
      | loop => cases h; exact ⟨h1, nofun⟩
      | ret o =>
        cases o with
        | none => cases h; exact ⟨h1, fun _ => Or.inr (h2 rfl)⟩
        | some x =>
          simp only at h
          split at h
          · cases h; exact ⟨h1, nofun⟩
          · cases h; exact ⟨h1, fun _ => Or.inl rfl⟩
  | skip n a ih =>
    intro t p' hk h
    simp only [Pipe.step] at h
    obtain ⟨⟨u, a'⟩, e, h⟩ := bind_ok h
    obtain ⟨h1, h2⟩ := ih hk e
    cases u with
    | loop => cases h; exact ⟨h1, nofun⟩
    | ret o =>
      cases o with
      | none => cases h; exact ⟨h1, fun _ => h2 rfl⟩
      | some x => cases n <;> (cases h; exact ⟨h1, nofun⟩)
  | take n a ih =>
    intro t p' hk h
    cases n with
    | zero => simp only [Pipe.step] at h; cases h; exact ⟨hk, fun _ => Or.inl rfl⟩
    | succ n =>
      simp only [Pipe.step] at h
      obtain ⟨⟨u, a'⟩, e, h⟩ := bind_ok h
      obtain ⟨h1, h2⟩ := ih hk e
      cases u with
      | loop => cases h; exact ⟨h1, nofun⟩
      | ret o => cases h; exact ⟨h1, fun ht => Or.inr (h2 ht)⟩
  | stepBy k r a ih =>
    intro t p' hk h
    simp only [Pipe.step] at h
    obtain ⟨⟨u, a'⟩, e, h⟩ := bind_ok h
    obtain ⟨h1, h2⟩ := ih hk e
    cases u with
    | loop => cases h; exact ⟨h1, nofun⟩
    | ret o =>
      cases o with
      | none => cases h; exact ⟨h1, fun _ => h2 rfl⟩
      | some x => cases r <;> (cases h; exact ⟨h1, nofun⟩)
  | same a ih =>
    intro t p' hk h
    simp only [Pipe.step] at h
    obtain ⟨⟨u, a'⟩, e, h⟩ := bind_ok h
    obtain ⟨h1, h2⟩ := ih hk e
    cases h
    exact ⟨h1, h2⟩

theorem kept_next {dbg : Bool} {p p' : Pipe} {o : Option Iv} (hk : p.Kept dbg) (h : p.Next dbg (.ok (o, p'))) :
    p'.Kept dbg ∧ (o = none → p'.AtRest) := by
  generalize e : (Except.ok (o, p') : Res (Option Iv × Pipe)) = r at h
  induction h with
  | ret h =>
    cases e
    obtain ⟨h1, h2⟩ := kept_step _ hk h
    exact ⟨h1, fun c => h2 (by rw [c])⟩
  | loop h _ ih => exact ih (kept_step _ hk h).1 e
  | panic => cases e

theorem kept_start {dbg : Bool} (c : Chain) : ∀ {p : Pipe}, Muted dbg c → c.start = .ok p → p.Kept dbg := by
  induction c with
  | set s => intro p _ h; cases h; trivial
  | win w => intro p _ h; cases h; trivial
  | into w => intro p _ h; cases h; trivial
  | union a b =>
    intro p _ h
    obtain ⟨x, -, h⟩ := bind_ok h
    obtain ⟨y, -, h⟩ := bind_ok h
    cases h
    exact ⟨nofun, nofun⟩
  | inter a b =>
    intro p _ h
    obtain ⟨x, -, h⟩ := bind_ok h
    obtain ⟨y, -, h⟩ := bind_ok h
    cases h
    trivial
  | excl a b =>
    intro p _ h
    obtain ⟨x, -, h⟩ := bind_ok h
    obtain ⟨y, -, h⟩ := bind_ok h
    cases h
    trivial
  | compl a =>
    intro p _ h
    obtain ⟨x, -, h⟩ := bind_ok h
    cases h
    trivial
  | transl d a ih =>
    intro p hm h
    obtain ⟨x, e, h⟩ := bind_ok h
    cases h
    exact ⟨hm.1, ih hm.2 e⟩
  | scale ty n a ih => intro p hm h; obtain ⟨x, e, h⟩ := bind_ok h; cases h; exact (show Pipe.Kept dbg x from ih hm e)
  | filter f a ih => intro p hm h; obtain ⟨x, e, h⟩ := bind_ok h; cases h; exact (show Pipe.Kept dbg x from ih hm e)
  | skipWhile f a ih => intro p hm h; obtain ⟨x, e, h⟩ := bind_ok h; cases h; exact (show Pipe.Kept dbg x from ih hm e)
  | takeWhile f a ih => intro p hm h; obtain ⟨x, e, h⟩ := bind_ok h; cases h; exact (show Pipe.Kept dbg x from ih hm e)
  | skip n a ih => intro p hm h; obtain ⟨x, e, h⟩ := bind_ok h; cases h; exact (show Pipe.Kept dbg x from ih hm e)
  | take n a ih => intro p hm h; obtain ⟨x, e, h⟩ := bind_ok h; cases h; exact (show Pipe.Kept dbg x from ih hm e)
  | stepBy n a ih =>
    intro p hm h
    cases n with
    | zero => cases h
    | succ n => obtain ⟨x, e, h⟩ := bind_ok h; cases h; exact (show Pipe.Kept dbg x from ih hm e)
  | same a ih => intro p hm h; obtain ⟨x, e, h⟩ := bind_ok h; cases h; exact (show Pipe.Kept dbg x from ih hm e)

/-- C146, partial: once `next` of a pipeline, of any depth, has returned `None`, it returns `None` for ever, without a panic; in a debug
build, or if each translation is inside a union, an intersection, an exclusion or a complement. Missing: the other translations, in a release
build, see `C146_translation_violated`. -/
theorem C146_over_partial (dbg : Bool) (c : Chain) (hm : Muted dbg c) (p q q' : Pipe) (hp : c.start = .ok p) (l : List Iv)
    (hg : Gives dbg p l q) (hn : q.Next dbg (.ok (none, q'))) : ∀ n, Quiet dbg n q' := by
  have hk := kept_start c hm hp
  have hq : q.Kept dbg := by
    clear hp hn
    induction hg with
    | nil => exact hk
    | item h _ ih => exact ih (kept_next hk h).1
  exact fun n => rest_quiet dbg n q' ((kept_next hq hn).2 rfl)

/-- C146 is violated by the translations of a release build: at each interval which overflows as a whole `next` returns `None`, and goes on
afterwards. -/
theorem C146_translation_violated (x y : Iv) (d : Int) (hx : WF x) (hy : WF y) (hd : Date d) (s : TSet)
    (h1 : ¬ ∃ t, Date t ∧ InExt (t - d) x) (h2 : ∃ t, Date t ∧ InExt (t - d) y) :
    ∃ p p' p'' z, (Chain.transl d (.set (x :: y :: s))).start = .ok p ∧ p.Next false (.ok (none, p')) ∧
      p'.Next false (.ok (some z, p'')) ∧ y.addTv false d = .ok z := by
  obtain ⟨⟨j, a1, -, -, a2⟩, -, -⟩ := C109_translate x d hx hd
  obtain ⟨⟨z, b1, -, b2, -⟩, -, -⟩ := C109_translate y d hy hd
  obtain ⟨rfl, -⟩ := a2 h1
  obtain ⟨wz, -⟩ := b2 h2
  refine ⟨.transl d (.items (x :: y :: s)), .transl d (.items (y :: s)), .transl d (.items s), z, rfl, .ret ?_, .ret ?_, b1⟩
  · simp only [Pipe.step, ok_bind, a1]; rfl
  · have : z.isEmpty = false := wz.not_isEmpty
    simp only [Pipe.step, ok_bind, b1, this]; rfl

/-- C146. Once `next` of a sequence of dates, forward or backward, has returned `None`, it returns `None` for ever and the sequence does not
move any more. -/
theorem C146_sequences (f f' : FSeq) (b b' : BSeq) (hf : FState f) (hb : BState b) :
    (f.next = .ok (none, f') → f'.next = .ok (none, f')) ∧ (b.next = .ok (none, b') → b'.next = .ok (none, b')) := by
  constructor
  · intro h
    have hf' : f'.t = INF ∧ f'.step = f.step := by
      rw [FSeq.next_eq hf] at h
      have := hf.1
      split at h <;> cases h
      exact ⟨rfl, rfl⟩
    obtain ⟨t, st⟩ := f'
    obtain ⟨rfl, rfl⟩ := hf'
    obtain ⟨h1, h2, h3, h4⟩ := hf
    have k : FState ⟨INF, f.step⟩ := ⟨by simp only; ticks, by simp only; ticks, h3, h4⟩
    rw [FSeq.next_eq k]
    simp only [if_neg (show ¬ INF + f.step < INF by omega)]
  · intro h
    have hb' : b'.t = -INF ∧ b'.step = b.step := by
      rw [BSeq.next_eq hb] at h
      split at h <;> cases h
      exact ⟨rfl, rfl⟩
    obtain ⟨t, st⟩ := b'
    obtain ⟨rfl, rfl⟩ := hb'
    obtain ⟨h1, h2, h3, h4⟩ := hb
    have k : BState ⟨-INF, b.step⟩ := ⟨by simp only; ticks, by simp only; ticks, h3, h4⟩
    rw [BSeq.next_eq k]
    simp only [if_neg (show ¬ -INF < -INF - b.step by omega)]

/-- C146. Once an iterator over the constraints of a graph, or over those of an instant, has returned `None`, it returns `None` for ever. -/
theorem C146_constraints (g : Graph) (s s' : Nat × Nat) :
    (g.iterNext s = .ok (none, s') → g.iterNext s' = .ok (none, s')) ∧
    (g.fromNext s = .ok (none, s') → g.fromNext s' = .ok (none, s')) := by
  constructor
  · have key : ∀ i j, g.iterLoop i j = .ok (none, s') → s'.1 = g.size := by
      intro i j
      fun_induction Graph.iterLoop g i j <;> intro h <;> first | (cases h; done) | (cases h; assumption) | (rename_i ih; exact ih h)
    intro h
    have e : s'.1 = g.size := by
      unfold Graph.iterNext at h
      split at h
      · next c => cases h; exact c
      · exact key _ _ h
    unfold Graph.iterNext
    rw [if_pos e]
  · intro h
    unfold Graph.fromNext at h
    split at h
    · next c => cases h; unfold Graph.fromNext; rw [if_pos c]; rfl
    · obtain ⟨k, -, h⟩ := bind_ok h
      obtain ⟨t, -, h⟩ := bind_ok h
      cases h

/-- a forward sequence at its last date -/
example : FState ⟨INF - 3, 5⟩ ∧ FSeq.next ⟨INF - 3, 5⟩ = .ok (none, ⟨INF, 5⟩) := by decide

/-- a pipeline with a translation inside a union, in a release build; and any translation in a debug build -/
example : Muted false (.filter (fun x => decide (x.lower = 0)) (.union (.transl 5 (.set [⟨0, 9⟩])) (.compl (.set [⟨20, 30⟩])))) ∧
    Muted true (.transl 5 (.take 2 (.set [⟨0, 9⟩, ⟨20, 30⟩]))) := ⟨trivial, rfl, trivial⟩

/-- the first interval overflows as a whole, the second one does not -/
example : (¬ ∃ t, Date t ∧ InExt (t - (-(INF - 1))) ⟨-10, -5⟩) ∧ ∃ t, Date t ∧ InExt (t - (-(INF - 1))) ⟨5, 10⟩ := by
  constructor
  · rintro ⟨t, h1, h2⟩
    simp only [Date, InExt] at h1 h2
    omega
  · exact ⟨5 - (INF - 1), by simp only [Date]; ticks, by simp only [InExt]; omega⟩

end Chrono
