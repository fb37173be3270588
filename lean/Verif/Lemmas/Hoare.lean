import Verif.Model.Graph

/-!
# Reasoning on the results of programs which may panic
-/

namespace Chrono

theorem bind_ok {α β : Type} {x : Res α} {f : α → Res β} {r : β} (h : (x >>= f) = .ok r) :
    ∃ a, x = .ok a ∧ f a = .ok r := by
  cases x with
  | error e => cases h
  | ok a => exact ⟨a, rfl, h⟩

/-- an invariant of all the states of a loop which does not panic -/
theorem foldlM_ok {α β : Type} {f : α → β → Res α} (P : α → Prop) : ∀ {l : List β} {a a' : α},
    l.foldlM f a = .ok a' → P a → (∀ x b x', P x → f x b = .ok x' → P x') → P a'
  | [], a, a', h, ha, _ => by cases h; exact ha
  | b :: l, a, a', h, ha, st => by
    rw [List.foldlM_cons] at h
    obtain ⟨x, h1, h2⟩ := bind_ok h
    exact foldlM_ok P h2 (st a b x ha h1) st

/-- `Safe P E r`: `r` is a result which satisfies `P`, or a panic allowed by `E` -/
inductive Safe {α : Type} (P : α → Prop) (E : Panic → Prop) : Res α → Prop
  | ok {a : α} : P a → Safe P E (.ok a)
  | error {e : Panic} : E e → Safe P E (.error e)

theorem Safe.bind {α β : Type} {P : α → Prop} {Q : β → Prop} {E : Panic → Prop} {x : Res α} {f : α → Res β}
    (h : Safe P E x) (hf : ∀ a, P a → Safe Q E (f a)) : Safe Q E (x >>= f) := by
  cases h with
  | error h => exact .error h
  | ok h => exact hf _ h

theorem Safe.mono {α : Type} {P Q : α → Prop} {E : Panic → Prop} {x : Res α} (h : Safe P E x)
    (hf : ∀ a, P a → Q a) : Safe Q E x := by
  cases h with
  | error h => exact .error h
  | ok h => exact .ok (hf _ h)

theorem Safe.of_eq {α : Type} {P : α → Prop} {E : Panic → Prop} {x : Res α} {a : α} (e : x = .ok a) (h : P a) :
    Safe P E x := by
  rw [e]; exact .ok h

theorem Safe.cases {α : Type} {P : α → Prop} {E : Panic → Prop} {x : Res α} (h : Safe P E x) :
    (∃ a, x = .ok a ∧ P a) ∨ (∃ e, x = .error e ∧ E e) := by
  cases h with
  | error h => exact Or.inr ⟨_, rfl, h⟩
  | ok h => exact Or.inl ⟨_, rfl, h⟩

theorem Safe.foldlM {α β : Type} {f : α → β → Res α} {P : α → Prop} {E : Panic → Prop} : ∀ {l : List β} {a : α},
    P a → (∀ x b, b ∈ l → P x → Safe P E (f x b)) → Safe P E (l.foldlM f a)
  | [], _, ha, _ => .ok ha
  | b :: l, a, ha, st => by
    rw [List.foldlM_cons]
    exact (st a b (by simp) ha).bind (fun x hx => Safe.foldlM hx (fun x b hb => st x b (by simp [hb])))

end Chrono
