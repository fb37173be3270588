import Verif.Lemmas.Lazy
import Verif.Spec.Turns

/-!
# The work of a pipeline (C147)
-/

namespace Chrono
open Spec

/-- Proof-only measure: an interval waiting to be looked at -/
def answerI : Option (Option Iv) → Nat
  | some (some _) => 1
  | _ => 0
/-- Proof-only measure: a pending interval -/
def UState.held : UState → Nat
  | .waitI | .waitJ => 1
  | _ => 0
/-- Proof-only measure: a pending interval -/
def NState.held : NState → Nat
  | .waitI | .waitJ => 1
  | _ => 0

/-- Proof-only measure: a bound of the items to come -/
def Pipe.coming : Pipe → Nat
  | .items l => l.length
  | .union i ei bi j ej bj st _ => (if ei then 0 else i.coming) + (if ej then 0 else j.coming) + answerI bi + answerI bj + st.held
  | .inter i ei bi j ej bj st _ => (if ei then 0 else i.coming) + (if ej then 0 else j.coming) + answerI bi + answerI bj + st.held
  | .compl a ea lower _ => if ea then (if isFutureInfinite lower then 0 else 1) else a.coming + 1
  | .transl _ a => a.coming
  | .scale _ _ a => a.coming
  | .filter _ a => a.coming
  | .skipWhile _ _ a => a.coming
  | .takeWhile _ _ a => a.coming
  | .skip _ a => a.coming
  | .take _ a => a.coming
  | .stepBy _ _ a => a.coming
  | .same a => a.coming

/-- Proof-only measure: a bound of the turns to come before the last one -/
def Pipe.toil : Pipe → Nat
  | .items l => l.length
  | .union i ei bi j ej bj st _ => fuseW ei (i.toil + 2 * i.coming) + fuseW ej (j.toil + 2 * j.coming) + answerW bi + answerW bj + st.weight
  | .inter i ei bi j ej bj st _ => fuseW ei (i.toil + 2 * i.coming) + fuseW ej (j.toil + 2 * j.coming) + answerW bi + answerW bj + st.weight
  | .compl a ea lower _ => if ea then (if isFutureInfinite lower then 0 else 1) else a.toil + 1
  | .transl _ a => a.toil
  | .scale _ _ a => a.toil
  | .filter _ a => a.toil
  | .skipWhile _ _ a => a.toil
  | .takeWhile _ _ a => a.toil
  | .skip _ a => a.toil
  | .take _ a => a.toil
  | .stepBy _ _ a => a.toil
  | .same a => a.toil

theorem union_coming {bi bj : Option (Option Iv)} {st : UState} {tmp : Iv} {t : Turn} {u : UnionIter}
    (h : UnionIter.step ⟨answer bi, answer bj, st, tmp⟩ = (t, u)) (ht : t ≠ .ret none)
    (hi : (st.asksI && bi.isNone) = false) (hj : (st.asksJ && bj.isNone) = false) :
    u.state.held + (if t = .loop then 0 else 1) ≤ answerI bi + answerI bj + st.held := by
  rcases bi with _ | _ | bi <;> rcases bj with _ | _ | bj <;> cases st <;>
    simp only [UnionIter.step, answer, Option.getD, Option.toList, UState.asksI, UState.asksJ, Option.isNone, Bool.and_true,
      Bool.and_self, Bool.and_false, Bool.true_eq_false] at h hi hj <;> (repeat' split at h) <;> cases h <;>
    first | exact absurd rfl ht | (simp only [answerI, UState.held]; omega) | (simp [answerI, UState.held])

theorem inter_coming {bi bj : Option (Option Iv)} {st : NState} {tmp : Iv} {t : Turn} {u : InterIter}
    (h : InterIter.step ⟨answer bi, answer bj, st, tmp⟩ = (t, u)) (ht : t ≠ .ret none)
    (hi : (st.asksI && bi.isNone) = false) (hj : (st.asksJ && bj.isNone) = false) :
    u.state.held + (if t = .loop then 0 else 1) ≤ answerI bi + answerI bj + st.held := by
  rcases bi with _ | _ | bi <;> rcases bj with _ | _ | bj <;> cases st <;>
    simp only [InterIter.step, answer, Option.getD, Option.toList, NState.asksI, NState.asksJ, Option.isNone, Bool.and_true,
      Bool.and_self, Bool.and_false, Bool.true_eq_false] at h hi hj <;> (repeat' split at h) <;> cases h <;>
    first | exact absurd rfl ht | (simp only [answerI, NState.held]; omega) | (simp [answerI, NState.held])

theorem union_coming' {bi bj : Option (Option Iv)} {st : UState} {tmp : Iv}
    (ht : (UnionIter.step ⟨answer bi, answer bj, st, tmp⟩).1 ≠ .ret none)
    (hi : (st.asksI && bi.isNone) = false) (hj : (st.asksJ && bj.isNone) = false) :
    (UnionIter.step ⟨answer bi, answer bj, st, tmp⟩).2.state.held +
      (if (UnionIter.step ⟨answer bi, answer bj, st, tmp⟩).1 = .loop then 0 else 1) ≤ answerI bi + answerI bj + st.held := by
  generalize h : UnionIter.step ⟨answer bi, answer bj, st, tmp⟩ = r at ht
  exact union_coming h ht hi hj

theorem inter_coming' {bi bj : Option (Option Iv)} {st : NState} {tmp : Iv}
    (ht : (InterIter.step ⟨answer bi, answer bj, st, tmp⟩).1 ≠ .ret none)
    (hi : (st.asksI && bi.isNone) = false) (hj : (st.asksJ && bj.isNone) = false) :
    (InterIter.step ⟨answer bi, answer bj, st, tmp⟩).2.state.held +
      (if (InterIter.step ⟨answer bi, answer bj, st, tmp⟩).1 = .loop then 0 else 1) ≤ answerI bi + answerI bj + st.held := by
  generalize h : InterIter.step ⟨answer bi, answer bj, st, tmp⟩ = r at ht
  exact inter_coming h ht hi hj

theorem compl_final {lower : Int} {inFor : Bool} (ht : (complTurn lower inFor none).1 ≠ .ret none) :
    (complTurn lower inFor none).2.1 = INF ∧ isFutureInfinite lower = false := by
  rw [complTurn] at ht ⊢
  split
  · next c => rw [if_pos c] at ht; exact absurd rfl ht
  · next c => exact ⟨rfl, Bool.eq_false_iff.2 c⟩

theorem handed {x y c d : Nat} {t t1 : Turn} (w : x < y ∧ c + (if t1 = .loop then 0 else 1) ≤ d)
    (e : t1 ≠ .loop ∨ t = .loop) : x < y ∧ c + (if t = .loop then 0 else 1) ≤ d := by
  refine ⟨w.1, ?_⟩
  have w2 := w.2
  rcases e with e | e
  · rw [if_neg e] at w2
    have : (if t = .loop then 0 else 1) ≤ 1 := by split <;> omega
    omega
  · rw [if_pos e]; omega

theorem step_toil {dbg : Bool} {p p' : Pipe} {t : Turn} (h : p.step dbg = .ok (t, p')) (ht : t ≠ .ret none) :
    p'.toil < p.toil ∧ p'.coming + (if t = .loop then 0 else 1) ≤ p.coming := by
  induction p generalizing t p' with
  | items l =>
    cases l with
    | nil => cases h; exact absurd rfl ht
    | cons x l => cases h; exact ⟨Nat.lt_succ_self _, Nat.le_refl _⟩
  | union i ei bi j ej bj st tmp ihi ihj =>
    rw [Pipe.step] at h
    split at h
    · next ci =>
      have hb : bi = none := by cases bi with | none => rfl | some _ => simp at ci
      subst hb
      split at h
      · cases h
        simp only [Pipe.toil, Pipe.coming, answerW, answerI, if_true]; omega
      · next ce =>
        have ce : ei = false := by simpa using ce
        subst ce
        obtain ⟨⟨t1, i1⟩, e1, h⟩ := bind_ok h
        cases t1 with
        | loop =>
          have w := ihi e1 nofun
          cases h
          simp only [if_true] at w
          simp only [Pipe.toil, Pipe.coming, fuseW, if_true, Bool.false_eq_true, if_false]; omega
        | ret o =>
          cases h
          cases o with
          | none =>
            simp only [Pipe.toil, Pipe.coming, fuseW, answerW, answerI, Option.isNone, if_true, Bool.false_eq_true, if_false]; omega
          | some x =>
            have w := ihi e1 nofun
            rw [if_neg nofun] at w
            simp only [Pipe.toil, Pipe.coming, fuseW, answerW, answerI, Option.isNone, if_true, Bool.false_eq_true, if_false]; omega
    · next ci =>
      split at h
      · next cj =>
        have hb : bj = none := by cases bj with | none => rfl | some _ => simp at cj
        subst hb
        split at h
        · cases h
          simp only [Pipe.toil, Pipe.coming, answerW, answerI, if_true]; omega
        · next ce =>
          have ce : ej = false := by simpa using ce
          subst ce
          obtain ⟨⟨t1, i1⟩, e1, h⟩ := bind_ok h
          cases t1 with
          | loop =>
            have w := ihj e1 nofun
            cases h
            simp only [if_true] at w
            simp only [Pipe.toil, Pipe.coming, fuseW, if_true, Bool.false_eq_true, if_false]; omega
          | ret o =>
            cases h
            cases o with
            | none =>
              simp only [Pipe.toil, Pipe.coming, fuseW, answerW, answerI, Option.isNone, if_true, Bool.false_eq_true, if_false]; omega
            | some x =>
              have w := ihj e1 nofun
              rw [if_neg nofun] at w
              simp only [Pipe.toil, Pipe.coming, fuseW, answerW, answerI, Option.isNone, if_true, Bool.false_eq_true, if_false]; omega
      · next cj =>
        cases h
        have v := union_own' ht (Bool.eq_false_iff.2 ci) (Bool.eq_false_iff.2 cj)
        have w := union_coming' ht (Bool.eq_false_iff.2 ci) (Bool.eq_false_iff.2 cj)
        have a0 : answerI none = 0 := rfl
        simp only [Pipe.toil, Pipe.coming, a0]
        omega
  | inter i ei bi j ej bj st tmp ihi ihj =>
    rw [Pipe.step] at h
    split at h
    · next ci =>
      have hb : bi = none := by cases bi with | none => rfl | some _ => simp at ci
      subst hb
      split at h
      · cases h
        simp only [Pipe.toil, Pipe.coming, answerW, answerI, if_true]; omega
      · next ce =>
        have ce : ei = false := by simpa using ce
        subst ce
        obtain ⟨⟨t1, i1⟩, e1, h⟩ := bind_ok h
        cases t1 with
        | loop =>
          have w := ihi e1 nofun
          cases h
          simp only [if_true] at w
          simp only [Pipe.toil, Pipe.coming, fuseW, if_true, Bool.false_eq_true, if_false]; omega
        | ret o =>
          cases h
          cases o with
          | none =>
            simp only [Pipe.toil, Pipe.coming, fuseW, answerW, answerI, Option.isNone, if_true, Bool.false_eq_true, if_false]; omega
          | some x =>
            have w := ihi e1 nofun
            rw [if_neg nofun] at w
            simp only [Pipe.toil, Pipe.coming, fuseW, answerW, answerI, Option.isNone, if_true, Bool.false_eq_true, if_false]; omega
    · next ci =>
      split at h
      · next cj =>
        have hb : bj = none := by cases bj with | none => rfl | some _ => simp at cj
        subst hb
        split at h
        · cases h
          simp only [Pipe.toil, Pipe.coming, answerW, answerI, if_true]; omega
        · next ce =>
          have ce : ej = false := by simpa using ce
          subst ce
          obtain ⟨⟨t1, i1⟩, e1, h⟩ := bind_ok h
          cases t1 with
          | loop =>
            have w := ihj e1 nofun
            cases h
            simp only [if_true] at w
            simp only [Pipe.toil, Pipe.coming, fuseW, if_true, Bool.false_eq_true, if_false]; omega
          | ret o =>
            cases h
            cases o with
            | none =>
              simp only [Pipe.toil, Pipe.coming, fuseW, answerW, answerI, Option.isNone, if_true, Bool.false_eq_true, if_false]; omega
            | some x =>
              have w := ihj e1 nofun
              rw [if_neg nofun] at w
              simp only [Pipe.toil, Pipe.coming, fuseW, answerW, answerI, Option.isNone, if_true, Bool.false_eq_true, if_false]; omega
      · next cj =>
        cases h
        have v := inter_own' ht (Bool.eq_false_iff.2 ci) (Bool.eq_false_iff.2 cj)
        have w := inter_coming' ht (Bool.eq_false_iff.2 ci) (Bool.eq_false_iff.2 cj)
        have a0 : answerI none = 0 := rfl
        simp only [Pipe.toil, Pipe.coming, a0]
        omega
  | compl a ea lower inFor iha =>
    rw [Pipe.step] at h
    split at h
    · next ce =>
      subst ce
      cases h
      obtain ⟨w1, w2⟩ := compl_final ht
      simp only [Pipe.toil, Pipe.coming, if_true, w1, w2]
      have : isFutureInfinite INF = true := rfl
      rw [this]
      have : (if (complTurn lower inFor none).1 = .loop then 0 else 1) ≤ 1 := by split <;> omega
      simp only [if_true, Bool.false_eq_true, if_false]
      omega
    · next ce =>
      have ce : ea = false := by simpa using ce
      subst ce
      obtain ⟨⟨t1, i1⟩, e1, h⟩ := bind_ok h
      cases t1 with
      | loop =>
        have w := iha e1 nofun
        cases h
        simp only [if_true] at w
        simp only [Pipe.toil, Pipe.coming, if_true, Bool.false_eq_true, if_false]; omega
      | ret o =>
        cases h
        cases o with
        | none =>
          obtain ⟨w1, w2⟩ := compl_final ht
          have : isFutureInfinite INF = true := rfl
          simp only [Pipe.toil, Pipe.coming, Option.isNone, if_true, w1, this, Bool.false_eq_true, if_false]
          have : (if (complTurn lower inFor none).1 = .loop then 0 else 1) ≤ 1 := by split <;> omega
          omega
        | some x =>
          have w := iha e1 nofun
          rw [if_neg nofun] at w
          have : (if (complTurn lower inFor (some x)).1 = .loop then 0 else 1) ≤ 1 := by split <;> omega
          simp only [Pipe.toil, Pipe.coming, Option.isNone, Bool.false_eq_true, if_false]
          omega
  | transl d a iha =>
    obtain ⟨⟨t1, a1⟩, e1, h⟩ := bind_ok h
    rcases t1 with (_ | x) | _
    · cases h; exact absurd rfl ht
    · obtain ⟨y, _, h⟩ := bind_ok h
      cases h; (have w := iha e1 nofun; exact handed w (.inl nofun))
    · cases h; (have w := iha e1 nofun; exact handed w (.inr rfl))
  | scale ty n a iha =>
    obtain ⟨⟨t1, a1⟩, e1, h⟩ := bind_ok h
    rcases t1 with (_ | x) | _
    · cases h; exact absurd rfl ht
    · obtain ⟨y, _, h⟩ := bind_ok h
      cases h; (have w := iha e1 nofun; exact handed w (.inl nofun))
    · cases h; (have w := iha e1 nofun; exact handed w (.inr rfl))
  | filter f a iha =>
    obtain ⟨⟨t1, a1⟩, e1, h⟩ := bind_ok h
    rcases t1 with (_ | x) | _
    · cases h; exact absurd rfl ht
    · cases h; (have w := iha e1 nofun; exact handed w (.inl nofun))
    · cases h; (have w := iha e1 nofun; exact handed w (.inr rfl))
  | skipWhile f st a iha =>
    obtain ⟨⟨t1, a1⟩, e1, h⟩ := bind_ok h
    rcases t1 with (_ | x) | _
    · cases h; exact absurd rfl ht
    · simp only at h
      split at h <;> cases h <;> (have w := iha e1 nofun; exact handed w (.inl nofun))
    · cases h; (have w := iha e1 nofun; exact handed w (.inr rfl))
  | takeWhile f over a iha =>
    rw [Pipe.step] at h
    split at h
    · cases h; exact absurd rfl ht
    · obtain ⟨⟨t1, a1⟩, e1, h⟩ := bind_ok h
      rcases t1 with (_ | x) | _
      · cases h; exact absurd rfl ht
      · simp only at h
        split at h
        · cases h; (have w := iha e1 nofun; exact handed w (.inl nofun))
        · cases h; exact absurd rfl ht
      · cases h; (have w := iha e1 nofun; exact handed w (.inr rfl))
  | skip n a iha =>
    obtain ⟨⟨t1, a1⟩, e1, h⟩ := bind_ok h
    rcases t1 with (_ | x) | _
    · cases h; exact absurd rfl ht
    · cases n <;> cases h <;> (have w := iha e1 nofun; exact handed w (.inl nofun))
    · cases h; (have w := iha e1 nofun; exact handed w (.inr rfl))
  | take n a iha =>
    cases n with
    | zero => cases h; exact absurd rfl ht
    | succ n =>
      obtain ⟨⟨t1, a1⟩, e1, h⟩ := bind_ok h
      rcases t1 with o | _
      · cases h; (have w := iha e1 ht; exact handed w (.inl nofun))
      · cases h; (have w := iha e1 nofun; exact handed w (.inr rfl))
  | stepBy k r a iha =>
    obtain ⟨⟨t1, a1⟩, e1, h⟩ := bind_ok h
    rcases t1 with (_ | x) | _
    · cases h; exact absurd rfl ht
    · cases r <;> cases h <;> (have w := iha e1 nofun; exact handed w (.inl nofun))
    · cases h; (have w := iha e1 nofun; exact handed w (.inr rfl))
  | same a iha =>
    obtain ⟨⟨t1, a1⟩, e1, h⟩ := bind_ok h
    cases h
    have w := iha e1 ht
    exact w

theorem ends_toil (dbg : Bool) (p : Pipe) : ∃ n, Ends dbg p n ∧ n ≤ p.toil + 1 := by
  generalize hn : p.toil = k
  induction k using Nat.strongRecOn generalizing p with
  | ind k ih =>
    cases e : p.step dbg with
    | error x => exact ⟨1, .panic e, by omega⟩
    | ok r =>
      obtain ⟨t, p'⟩ := r
      by_cases ht : t = .ret none
      · subst ht; exact ⟨1, .over e, by omega⟩
      · have w := (step_toil e ht).1
        obtain ⟨n, h1, h2⟩ := ih p'.toil (by omega) p' rfl
        exact ⟨n + 1, .turn e ht h1, by omega⟩

theorem ends_det {dbg : Bool} {p : Pipe} {m n : Nat} (h : Ends dbg p m) (h' : Ends dbg p n) : m = n := by
  induction h generalizing n with
  | over e => cases h' with
    | over _ => rfl
    | panic _ => rfl
    | turn e' ht _ => rw [e] at e'; cases e'; exact absurd rfl ht
  | panic e => cases h' with
    | over _ => rfl
    | panic _ => rfl
    | turn e' _ _ => rw [e] at e'; cases e'
  | turn e ht _ ih => cases h' with
    | over e' => rw [e] at e'; cases e'; exact absurd rfl ht
    | panic e' => rw [e] at e'; cases e'
    | turn e' _ h' => rw [e] at e'; cases e'; rw [ih h']

theorem gives_coming {dbg : Bool} {p q : Pipe} {l : List Iv} (h : Gives dbg p l q) : l.length + q.coming ≤ p.coming := by
  induction h with
  | nil => simp
  | item h _ ih =>
    have key : ∀ {p : Pipe} {r}, p.Next dbg r → ∀ {x p'}, r = .ok (some x, p') → p'.coming + 1 ≤ p.coming := by
      intro p r h
      induction h with
      | ret e => intro x p' hr; cases hr; exact (step_toil e nofun).2
      | loop e _ ih => intro x p' hr; have := ih hr; have := (step_toil e nofun).2; rw [if_pos rfl] at this; omega
      | panic e => intro x p' hr; cases hr
    have := key h rfl
    simp only [List.length_cons]; omega

/-! The arithmetic of one level -/

theorem level {d e wa wb ra rb sa sb ka kb : Nat} (ha : wa ≤ (2 * d + 1) * (sa + 3 * ka)) (hb : wb ≤ (2 * e + 1) * (sb + 3 * kb))
    (ra' : ra ≤ sa + ka) (rb' : rb ≤ sb + kb) :
    wa + wb + 2 * (ra + rb) + 9 ≤ (2 * (max d e + 1) + 1) * (sa + sb + 3 * (ka + kb + 1)) := by
  have h1 : (2 * d + 1) * (sa + 3 * ka) ≤ (2 * max d e + 1) * (sa + 3 * ka) := Nat.mul_le_mul_right _ (by omega)
  have h2 : (2 * e + 1) * (sb + 3 * kb) ≤ (2 * max d e + 1) * (sb + 3 * kb) := Nat.mul_le_mul_right _ (by omega)
  generalize max d e = m at *
  have e1 : (2 * (m + 1) + 1) * (sa + sb + 3 * (ka + kb + 1)) =
      (2 * m + 1) * (sa + 3 * ka) + (2 * m + 1) * (sb + 3 * kb) + (2 * m + 1) * 3 + 2 * (sa + sb + 3 * (ka + kb + 1)) := by
    rw [show sa + sb + 3 * (ka + kb + 1) = (sa + 3 * ka) + (sb + 3 * kb) + 3 by omega,
      show 2 * (m + 1) + 1 = (2 * m + 1) + 2 by omega, Nat.add_mul, Nat.mul_add (2 * m + 1), Nat.mul_add (2 * m + 1)]
  rw [e1]
  omega

theorem start_toil {c : Chain} {p : Pipe} (h : c.start = .ok p) :
    p.coming ≤ sources c + operators c ∧ p.toil ≤ (2 * depth c + 1) * (sources c + 3 * operators c) := by
  induction c generalizing p with
  | set s => cases h; simp only [Pipe.coming, Pipe.toil, sources, operators, depth]; omega
  | win w => cases h; simp only [Pipe.coming, Pipe.toil, sources, operators, depth]; omega
  | into w => cases h; simp only [Pipe.coming, Pipe.toil, sources, operators, depth]; omega
  | union a b iha ihb =>
    obtain ⟨x, e1, h⟩ := bind_ok h
    obtain ⟨y, e2, h⟩ := bind_ok h
    cases h
    have := level (iha e1).2 (ihb e2).2 (iha e1).1 (ihb e2).1
    have := (iha e1).1
    have := (ihb e2).1
    simp only [Pipe.coming, Pipe.toil, sources, operators, depth, fuseW, answerW, answerI, UState.weight, UState.held,
      Bool.false_eq_true, if_false]
    omega
  | inter a b iha ihb =>
    obtain ⟨x, e1, h⟩ := bind_ok h
    obtain ⟨y, e2, h⟩ := bind_ok h
    cases h
    have := level (iha e1).2 (ihb e2).2 (iha e1).1 (ihb e2).1
    have := (iha e1).1
    have := (ihb e2).1
    simp only [Pipe.coming, Pipe.toil, sources, operators, depth, fuseW, answerW, answerI, NState.weight, NState.held,
      Bool.false_eq_true, if_false]
    omega
  | excl a b iha ihb =>
    obtain ⟨x, e1, h⟩ := bind_ok h
    obtain ⟨y, e2, h⟩ := bind_ok h
    cases h
    have := level (iha e1).2 (ihb e2).2 (iha e1).1 (ihb e2).1
    have := (iha e1).1
    have := (ihb e2).1
    simp only [Pipe.coming, Pipe.toil, sources, operators, depth, fuseW, answerW, answerI, NState.weight, NState.held,
      Bool.false_eq_true, if_false]
    omega
  | compl a iha =>
    obtain ⟨x, e1, h⟩ := bind_ok h
    cases h
    obtain ⟨h1, h2⟩ := iha e1
    simp only [Pipe.coming, Pipe.toil, sources, operators, depth, Bool.false_eq_true, if_false]
    rw [show sources a + 3 * (operators a + 1) = (sources a + 3 * operators a) + 3 by omega, Nat.mul_add]
    omega
  | transl d a iha => obtain ⟨x, e1, h⟩ := bind_ok h; cases h; have w := iha e1; exact w
  | scale ty n a iha => obtain ⟨x, e1, h⟩ := bind_ok h; cases h; have w := iha e1; exact w
  | filter f a iha => obtain ⟨x, e1, h⟩ := bind_ok h; cases h; have w := iha e1; exact w
  | skipWhile f a iha => obtain ⟨x, e1, h⟩ := bind_ok h; cases h; have w := iha e1; exact w
  | takeWhile f a iha => obtain ⟨x, e1, h⟩ := bind_ok h; cases h; have w := iha e1; exact w
  | skip n a iha => obtain ⟨x, e1, h⟩ := bind_ok h; cases h; have w := iha e1; exact w
  | take n a iha => obtain ⟨x, e1, h⟩ := bind_ok h; cases h; have w := iha e1; exact w
  | stepBy n a iha =>
    cases n with
    | zero => cases h
    | succ n => obtain ⟨x, e1, h⟩ := bind_ok h; cases h; have w := iha e1; exact w
  | same a iha => obtain ⟨x, e1, h⟩ := bind_ok h; cases h; have w := iha e1; exact w

/-! ## Properties -/

/-- **C147.** The iteration of every pipeline is over after a number of turns proportional to the number of intervals it reads, at
each level of the pipeline: no reading twice, whatever the intervals are, ordered or not. -/
theorem C147_turns {c : Chain} {p : Pipe} (dbg : Bool) (h : c.start = .ok p) :
    ∃ n, Ends dbg p n ∧ n ≤ (2 * depth c + 1) * (sources c + 3 * operators c) + 1 := by
  obtain ⟨n, h1, h2⟩ := ends_toil dbg p
  have := (start_toil h).2
  exact ⟨n, h1, by omega⟩

/-- **C147.** There is one such number. -/
theorem C147_once {dbg : Bool} {p : Pipe} {m n : Nat} (h : Ends dbg p m) (h' : Ends dbg p n) : m = n :=
  ends_det h h'

/-- **C147.** A pipeline never gives more items than the intervals it reads, and one for each operation. -/
theorem C147_items {dbg : Bool} {c : Chain} {p q : Pipe} {l : List Iv} (h : c.start = .ok p) (hg : Gives dbg p l q) :
    l.length ≤ sources c + operators c := by
  have := (start_toil h).1
  have := gives_coming hg
  omega

/-! ## Examples -/

/-- A union of two slots, and one of its complement. -/
example : ∃ p, (Chain.compl (.union (.set [⟨0, 5⟩]) (.set [⟨20, 30⟩]))).start = .ok p ∧
    ∃ n, Ends true p n ∧ n ≤ 25 := by
  refine ⟨_, rfl, ?_⟩
  exact C147_turns true (c := .compl (.union (.set [⟨0, 5⟩]) (.set [⟨20, 30⟩]))) rfl

/-- The bound of the number of items is met: the complement of two slots has three pieces. -/
example : ∃ p q, (Chain.compl (.set [⟨0, 5⟩, ⟨20, 30⟩])).start = .ok p ∧
    Gives true p [⟨-INF, -1⟩, ⟨6, 19⟩, ⟨31, INF⟩] q ∧ sources (.compl (.set [⟨0, 5⟩, ⟨20, 30⟩])) + operators (.compl (.set [⟨0, 5⟩, ⟨20, 30⟩])) = 3 :=
  ⟨_, _, rfl, .item (.ret rfl) (.item (.ret rfl) (.item (.ret rfl) .nil)), rfl⟩

end Chrono
