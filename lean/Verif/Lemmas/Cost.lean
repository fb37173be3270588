import Verif.Lemmas.Crash
import Verif.Lemmas.GraphSize
import Verif.Spec.Crash

/-!
# Counting the writes of a call
-/

set_option linter.unusedSimpArgs false

namespace Chrono
open Spec

/-- at most `n` writes, and the result satisfies `P` -/
structure Costs {S α : Type} (n : Nat) (P : α → Prop) (t : Run S α) : Prop where
  le : t.steps.length ≤ n
  post : ∀ a, t.res = .ok a → P a

namespace Costs
variable {S α β : Type}

theorem pure {n : Nat} {P : α → Prop} {a : α} (h : P a) : Costs n P (pure a : Run S α) :=
  ⟨Nat.zero_le _, fun b e => by cases e; exact h⟩

theorem lift {x : Res α} : Costs 0 (fun a => x = .ok a) (Run.lift x : Run S α) := ⟨Nat.zero_le _, fun _ e => e⟩

theorem put {P : S → Prop} {x : Res S} (h : ∀ y, x = .ok y → P y) : Costs 1 P (Run.put x) := by
  cases x with
  | error e => exact ⟨Nat.zero_le _, fun _ e => nomatch e⟩
  | ok y => exact ⟨Nat.le_refl _, fun a e => by cases e; exact h _ rfl⟩

theorem bind {n m : Nat} {P : α → Prop} {Q : β → Prop} {x : Run S α} {f : α → Run S β} (h : Costs n P x)
    (hf : ∀ a, P a → Costs m Q (f a)) : Costs (n + m) Q (x >>= f) := by
  obtain ⟨h1, h2⟩ := h
  rw [Run.bind_def]
  unfold Run.bind
  cases e : x.res with
  | ok a =>
    obtain ⟨k1, k2⟩ := hf a (h2 a e)
    refine ⟨?_, k2⟩
    simp only [List.length_append]
    omega
  | error e' =>
    refine ⟨?_, fun _ e => nomatch e⟩
    simp only
    omega

theorem given {m : Nat} {Q : β → Prop} {x : Res α} {f : α → Run S β} (hf : ∀ a, x = .ok a → Costs m Q (f a)) :
    Costs m Q ((Run.lift x : Run S α) >>= f) := by
  have := Costs.bind (S := S) (lift (x := x)) hf
  rwa [Nat.zero_add] at this

theorem free {m : Nat} {Q : β → Prop} {x : Res α} {f : α → Run S β} (hf : ∀ a, Costs m Q (f a)) :
    Costs m Q ((Run.lift x : Run S α) >>= f) := given (fun a _ => hf a)

theorem foldlM {f : α → β → Run S α} {P : α → Prop} {c : Nat} : ∀ {l : List β} {a : α}, P a →
    (∀ a, P a → ∀ b, b ∈ l → Costs c P (f a b)) → Costs (l.length * c) P (l.foldlM f a)
  | [], a, h, _ => by rw [List.foldlM_nil]; exact .pure h
  | b :: l, a, h, hf => by
    rw [List.foldlM_cons, List.length_cons, Nat.succ_mul, Nat.add_comm]
    exact (hf a h b (by simp)).bind (fun a' h' => foldlM h' (fun x hx y hy => hf x hx y (by simp [hy])))

theorem mono {n m : Nat} {P Q : α → Prop} {t : Run S α} (h : Costs n P t) (hn : n ≤ m) (hq : ∀ a, P a → Q a) : Costs m Q t :=
  ⟨Nat.le_trans h.le hn, fun a e => hq a (h.post a e)⟩

end Costs

theorem setLower_size {g g' : Graph} {i j : Nat} {v : Int} (h : g.setLower i j v = .ok g') : g'.size = g.size := by
  unfold Graph.setLower at h
  obtain ⟨c, -, h⟩ := bind_ok h
  obtain ⟨d, -, h⟩ := bind_ok h
  cases h
  rfl

theorem resize_size {g g' : Graph} {n : Nat} (h : g.resize n = .ok g') : g'.size = n := by
  unfold Graph.resize at h
  obtain ⟨c, -, h⟩ := bind_ok h
  obtain ⟨d, -, h⟩ := bind_ok h
  cases h
  rfl

theorem cost_set {g : Graph} {n i j : Nat} {v : Int} (hg : g.size = n) : Costs 1 (fun g : Graph => g.size = n) (Run.put (g.setLower i j v)) :=
  .put (fun _ e => (setLower_size e).trans hg)

theorem cost_relax {g : Graph} {n i j : Nat} {v : Int} (hg : g.size = n) : Costs 1 (fun g : Graph => g.size = n) (g.relaxT i j v) := by
  unfold Graph.relaxT
  refine .free (fun k => ?_)
  split
  · exact cost_set hg
  · exact .pure hg

theorem cost_plb {g : Graph} {n i j : Nat} (hg : g.size = n) :
    Costs (n * n + n) (fun g : Graph => g.size = n) (g.propagateLowerBoundT i j) := by
  unfold Graph.propagateLowerBoundT
  refine .free (fun v => ?_)
  rw [Nat.add_comm]
  refine Costs.bind (n := n) (P := fun g : Graph => g.size = n) ?_ (fun g1 h1 => ?_)
  · refine (Costs.foldlM (c := 1) (P := fun g : Graph => g.size = n) hg (fun a ha b _ => .free (fun _ => .free (fun _ => cost_relax ha)))).mono
      ?_ (fun _ h => h)
    rw [List.length_range, hg]; omega
  · refine (Costs.foldlM (c := n) (P := fun g : Graph => g.size = n) h1 (fun a ha b _ => .free (fun w => ?_))).mono ?_ (fun _ h => h)
    · refine (Costs.foldlM (c := 1) (P := fun g : Graph => g.size = n) ha
        (fun a ha b _ => .free (fun _ => .free (fun _ => cost_relax ha)))).mono ?_ (fun _ h => h)
      rw [List.length_range, ha]; omega
    · rw [List.length_range, h1]; exact Nat.le_refl _

theorem cost_row {g : Graph} {n k i : Nat} (hg : g.size = n) : Costs n (fun g : Graph => g.size = n) (g.gpRowT k i) := by
  unfold Graph.gpRowT
  refine (Costs.foldlM (c := 1) (P := fun g : Graph => g.size = n) hg
    (fun a ha b _ => .free (fun _ => .free (fun _ => .free (fun _ => cost_relax ha))))).mono ?_ (fun _ h => h)
  rw [List.length_range, hg]; omega

theorem cost_gp {g : Graph} {n : Nat} (hg : g.size ≤ n) : Costs (n * (n * n)) (fun _ => True) g.globalPropagationT := by
  have key : Costs (g.size * (g.size * g.size)) (fun _ => True) g.globalPropagationT := by
    unfold Graph.globalPropagationT
    rw [← Nat.add_zero (g.size * (g.size * g.size))]
    refine Costs.bind (P := fun (p : Graph × Bool) => p.2 = false → p.1.size = g.size) ?_ (fun p _ => .pure trivial)
    refine (Costs.foldlM (c := g.size * g.size) (P := fun (p : Graph × Bool) => p.2 = false → p.1.size = g.size)
      (fun _ => rfl) (fun p hp k _ => ?_)).mono ?_ (fun _ h => h)
    · refine (Costs.foldlM (c := g.size) (P := fun (p : Graph × Bool) => p.2 = false → p.1.size = g.size) hp (fun p hp i _ => ?_)).mono ?_
        (fun _ h => h)
      · split
        · exact .pure hp
        · next c =>
          rw [← Nat.add_zero g.size]
          refine (cost_row (hp (by simpa using c))).bind (fun z hz => .free (fun d => ?_))
          split
          · exact .pure (fun e => by cases e)
          · exact .pure (fun _ => by simpa using hz)
      · rw [List.length_range]; exact Nat.le_refl _
    · rw [List.length_range]; exact Nat.le_refl _
  exact key.mono (Nat.mul_le_mul hg (Nat.mul_le_mul hg hg)) (fun _ h => h)

theorem cost_insert {g : Graph} {N : Nat} {k : Constr} (hg : g.size ≤ N) (h1 : k.src < N) (h2 : k.dst < N) :
    Costs 3 (fun g : Graph => g.size ≤ N) (g.insertT k) := by
  have cell : ∀ (g : Graph) (i j : Nat) (v : Int), g.size ≤ N → Costs 1 (fun g : Graph => g.size ≤ N) (Run.put (g.setLower i j v)) :=
    fun g i j v h => .put (fun _ e => by rw [setLower_size e]; exact h)
  have t2 : ∀ z : Graph, z.size ≤ N → Costs 1 (fun g : Graph => g.size ≤ N) (do
      let u ← Run.lift (z.lower k.dst k.src)
      if u < tvNeg k.upper then Run.put (z.setLower k.dst k.src (tvNeg k.upper)) else return z) := by
    intro z hz
    refine .free (fun v => ?_)
    split
    · exact cell _ _ _ _ hz
    · exact .pure hz
  have t1 : ∀ y : Graph, y.size ≤ N → Costs (1 + 1) (fun g : Graph => g.size ≤ N) (do
      let l ← Run.lift (y.lower k.src k.dst)
      let g ← if l < k.lower then Run.put (y.setLower k.src k.dst k.lower) else pure y
      let u ← Run.lift (g.lower k.dst k.src)
      if u < tvNeg k.upper then Run.put (g.setLower k.dst k.src (tvNeg k.upper)) else return g) := by
    intro z hz
    refine .free (fun v => ?_)
    split
    · exact (cell _ _ _ _ hz).bind (fun g1 hy => t2 _ hy)
    · exact Costs.bind (P := fun g : Graph => g.size ≤ N) (.pure hz) (fun g1 hy => t2 _ hy)
  unfold Graph.insertT
  dsimp only
  split
  · refine .given (fun m hm => ?_)
    refine Costs.bind (n := 1) (m := 1 + 1) (P := fun g : Graph => g.size ≤ N) (.put (fun y e => ?_)) (fun g1 hy => t1 _ hy)
    rw [resize_size e]
    unfold chkU32 at hm
    split at hm
    · cases hm; omega
    · cases hm
  · exact (Costs.bind (n := 0) (P := fun g : Graph => g.size ≤ N) (.pure hg) (fun g1 hy => t1 _ hy)).mono (by omega) (fun _ h => h)

end Chrono
