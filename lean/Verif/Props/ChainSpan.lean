import Verif.Props.Chain
import Verif.Props.Overflow

/-!
# Translation of a chain by a span (C104)
-/

namespace Chrono
open Spec

/-- C104. `c.translation(&span)`, for any chain used properly and any span. The result is a chain used properly, on which more stages
can be put; it yields what the operators compute step by step, `s + span`; its dates are exactly those of the form `a + b`, `a` in the chain
and `b` in the span. It panics only in a debug build, and exactly when an interval of the chain overflows as a whole. -/
theorem C104_translate_span (dbg : Bool) (c : Chain) (sp : Iv) (h : Used dbg c) (hsp : WF sp) :
    ∃ l T, c.items dbg = .ok l ∧ TSet.addSpan false l sp = .ok T ∧ Used dbg (.set T) ∧
      (∀ t, Date t → (InSet t T ↔ ∃ a b, InExtSet a l ∧ InExt b sp ∧ t = a + b)) ∧
      (dbg = false ∨ (∀ i ∈ l, HasSum i sp) →
        c.translSpan dbg sp = .ok (.set T) ∧ (do TSet.addSpan dbg (← c.operators dbg) sp) = .ok T) ∧
      (dbg = true → (∃ i ∈ l, ¬ HasSum i sp) → c.translSpan dbg sp = .error .debugAssert) := by
  obtain ⟨l, h1, h2, h3⟩ := chain_spec h
  obtain ⟨T, e1, e2, e3, e4, e5⟩ := C110_add_span l sp h2 hsp
  refine ⟨l, T, h1, e1, e2, e3, fun c => ?_, fun c hx => ?_⟩
  · have : TSet.addSpan dbg l sp = .ok T := by
      rcases c with rfl | c
      · exact e1
      · cases dbg
        · exact e1
        · exact e4 c
    rw [Chain.translSpan, h1, h3]
    simp only [ok_bind, this]
    exact ⟨rfl, trivial⟩
  · subst c
    rw [Chain.translSpan, h1, ok_bind, e5 hx]
    rfl

example : ∃ T, (Chain.compl (.set [⟨0, 9⟩])).translSpan true ⟨-1, 2⟩ = .ok (.set T) ∧ ¬ InSet 5 T ∧ InSet 1 T ∧ Used true (.set T) := by
  have hu : Used true (.compl (.set [⟨0, 9⟩])) := (by decide : Canon [⟨0, 9⟩])
  obtain ⟨l, T, h1, -, h3, h4, h5, -⟩ := C104_translate_span true _ ⟨-1, 2⟩ hu (by decide)
  have el : (Chain.compl (.set [⟨0, 9⟩])).items true = .ok [⟨-INF, -1⟩, ⟨10, INF⟩] := by decide +kernel
  rw [el] at h1
  cases h1
  have hs : ∀ i ∈ [(⟨-INF, -1⟩ : Iv), ⟨10, INF⟩], HasSum i ⟨-1, 2⟩ := by
    intro i hi
    rcases List.mem_cons.1 hi with rfl | hi
    · exact ⟨0, by decide, -1, 1, by decide, by decide, by decide⟩
    · rcases List.mem_cons.1 hi with rfl | hi
      · exact ⟨11, by decide, 10, 1, by decide, by decide, by decide⟩
      · cases hi
  refine ⟨T, (h5 (.inr hs)).1, fun h => ?_, ?_, h3⟩
  · obtain ⟨a, b, ⟨i, hi, ha⟩, hb, e⟩ := (h4 5 (by decide)).1 h
    simp only [InExt] at hb ha
    rcases List.mem_cons.1 hi with rfl | hi
    · simp only [INF] at *; omega
    · rcases List.mem_cons.1 hi with rfl | hi
      · simp only [INF] at *; omega
      · cases hi
  · exact (h4 1 (by decide)).2 ⟨-1, 2, ⟨⟨-INF, -1⟩, by simp, by decide⟩, by decide, by decide⟩

end Chrono
