import Verif.Props.GraphGreedy
import Verif.Spec.Gossip

/-!
# C134: replicas which exchange their graphs converge
-/

namespace Chrono
open Spec

theorem gossip_inv {Inv : Graph → ((Nat → Int) → Prop) → Prop}
    (step : ∀ {g h : Graph} {P Q : (Nat → Int) → Prop} {x : Graph} {o : Outcome}, Inv g P → Inv h Q → g.merge h = .ok (x, o) → o ≠ .fatal →
      Inv x (fun τ => P τ ∧ Q τ)) {P : Nat → (Nat → Int) → Prop} :
    ∀ (l : List (Nat × Nat)) (rs : List Graph) (K : Nat → Nat → Prop),
      (∀ r g, rs[r]? = some g → Inv g (fun τ => ∀ q, K r q → P q τ)) →
      ∀ rs' os, gossip rs l = .ok (rs', os) → (∀ o ∈ os, o ≠ .fatal) →
        rs'.length = rs.length ∧ ∀ r g, rs'[r]? = some g → Inv g (fun τ => ∀ q, heard l K r q → P q τ) := by
  intro l
  induction l with
  | nil =>
    intro rs K h rs' os e _
    cases e
    exact ⟨rfl, h⟩
  | cons p l ih =>
    obtain ⟨a, b⟩ := p
    intro rs K h rs' os e ho
    unfold gossip at e
    cases ea : rs[a]? with
    | none => simp [ea] at e
    | some g =>
      cases eb : rs[b]? with
      | none => simp [ea, eb] at e
      | some g' =>
        simp only [ea, eb] at e
        cases em : g.merge g' with
        | error => rw [em] at e; cases e
        | ok r =>
          obtain ⟨x, o⟩ := r
          rw [em, ok_bind] at e
          simp only at e
          cases eg : gossip (rs.set a x) l with
          | error => rw [eg] at e; cases e
          | ok r =>
            obtain ⟨rs1, os1⟩ := r
            rw [eg, ok_bind] at e
            cases e
            have start : ∀ r y, (rs.set a x)[r]? = some y → Inv y (fun τ => ∀ q, (K r q ∨ (r = a ∧ K b q)) → P q τ) := by
              intro r y hy
              rw [List.getElem?_set] at hy
              by_cases c : a = r
              · subst c
                rw [if_pos rfl, if_pos (List.getElem?_eq_some_iff.1 ea).1] at hy
                cases hy
                have := step (h _ _ ea) (h _ _ eb) em (ho _ List.mem_cons_self)
                refine cast (congrArg (Inv x) (funext fun τ => propext ?_)) this
                constructor
                · rintro ⟨h1, h2⟩ q (k | ⟨-, k⟩)
                  · exact h1 q k
                  · exact h2 q k
                · exact fun k => ⟨fun q z => k q (Or.inl z), fun q z => k q (Or.inr ⟨rfl, z⟩)⟩
              · rw [if_neg c] at hy
                refine cast (congrArg (Inv y) (funext fun τ => propext ?_)) (h r y hy)
                constructor
                · rintro h1 q (k | ⟨k, -⟩)
                  · exact h1 q k
                  · exact absurd k.symm c
                · exact fun k q z => k q (Or.inl z)
            obtain ⟨k1, k2⟩ := ih _ _ start _ _ eg (fun o h => ho o (List.mem_cons_of_mem _ h))
            exact ⟨by rw [k1, List.length_set], k2⟩

theorem gossip_ok {Inv : Graph → ((Nat → Int) → Prop) → Prop}
    (step : ∀ {g h : Graph} {P Q : (Nat → Int) → Prop} {x : Graph} {o : Outcome}, Inv g P → Inv h Q → g.merge h = .ok (x, o) → o ≠ .fatal →
      Inv x (fun τ => P τ ∧ Q τ)) {σ : Nat → Int}
    (next : ∀ {g h : Graph} {P Q : (Nat → Int) → Prop}, Inv g P → Inv h Q → P σ → Q σ →
      ∃ x o, g.merge h = .ok (x, o) ∧ (o = .unchanged ∨ o = .propagated)) :
    ∀ (l : List (Nat × Nat)) (rs : List Graph), (∀ p ∈ l, p.1 < rs.length ∧ p.2 < rs.length) →
      (∀ (r : Nat) g, rs[r]? = some g → ∃ P : (Nat → Int) → Prop, Inv g P ∧ P σ) →
      ∃ rs' os, gossip rs l = .ok (rs', os) ∧ ∀ o ∈ os, o = .unchanged ∨ o = .propagated := by
  intro l
  induction l with
  | nil => exact fun rs _ _ => ⟨rs, [], rfl, by simp⟩
  | cons p l ih =>
    obtain ⟨a, b⟩ := p
    intro rs hl h
    obtain ⟨ha, hb⟩ := hl _ List.mem_cons_self
    have ea := List.getElem?_eq_getElem ha
    have eb := List.getElem?_eq_getElem hb
    obtain ⟨P, i1, p1⟩ := h _ _ ea
    obtain ⟨Q, i2, p2⟩ := h _ _ eb
    obtain ⟨x, o, e, ho⟩ := next i1 i2 p1 p2
    obtain ⟨rs', os, k1, k2⟩ := ih (rs.set a x) (fun p hp => by rw [List.length_set]; exact hl p (List.mem_cons_of_mem _ hp)) (fun r y hy => by
      rw [List.getElem?_set] at hy
      by_cases c : a = r
      · subst c
        rw [if_pos rfl, if_pos ha] at hy
        cases hy
        exact ⟨_, step i1 i2 e (by rcases ho with rfl | rfl <;> decide), p1, p2⟩
      · rw [if_neg c] at hy
        exact h r y hy)
    refine ⟨rs', o :: os, ?_, List.forall_mem_cons.2 ⟨ho, k2⟩⟩
    unfold gossip
    simp only [ea, eb, e, ok_bind, k1]
    rfl

/-- C134: replicas with any histories exchange their graphs in any order, any number of times. If what they know is consistent no exchange fails;
and as long as no exchange fails, the solutions of each replica are exactly those of all the replicas of which it has heard, directly or not. -/
theorem C134_solutions {N : Nat} (hN : N ≤ 65535) {rs : List Graph} {P : Nat → (Nat → Int) → Prop}
    (h : ∀ r g, rs[r]? = some g → Built N g (P r)) {l : List (Nat × Nat)} (hl : ∀ p ∈ l, p.1 < rs.length ∧ p.2 < rs.length) :
    ((∃ τ, Representable N τ ∧ ∀ r, r < rs.length → P r τ) →
      ∃ rs' os, gossip rs l = .ok (rs', os) ∧ ∀ o ∈ os, o = .unchanged ∨ o = .propagated) ∧
    (∀ rs' os, gossip rs l = .ok (rs', os) → (∀ o ∈ os, o ≠ .fatal) → rs'.length = rs.length ∧
      ∀ r g, rs'[r]? = some g → ∀ τ, Representable N τ → (Sat τ g ↔ ∀ q, Heard l r q → P q τ)) := by
  have step : ∀ {g h : Graph} {P Q : (Nat → Int) → Prop} {x : Graph} {o : Outcome}, HInv N g P → HInv N h Q → g.merge h = .ok (x, o) →
      o ≠ .fatal → HInv N x (fun τ => P τ ∧ Q τ) := by
    intro g h P Q x o i1 i2 e ho
    rcases (hinv_merge i1 i2).1 x o e with ⟨-, -, a⟩ | ⟨a, -⟩
    · exact a
    · exact absurd a ho
  constructor
  · rintro ⟨σ, hσ, hp⟩
    refine gossip_ok step (σ := σ) (fun i1 i2 p1 p2 => (hinv_merge i1 i2).2 ⟨σ, hσ, p1, p2⟩) l rs hl fun r g e => ?_
    exact ⟨P r, built_inv hN (h r g e), hp r (List.getElem?_eq_some_iff.1 e).1⟩
  · intro rs' os e ho
    obtain ⟨k1, k2⟩ := gossip_inv step (P := P) l rs (fun r q => r = q) (fun r g e => by
      have := built_inv hN (h r g e)
      refine cast (congrArg (HInv N g) (funext fun τ => propext ?_)) this
      exact ⟨fun a q e => e ▸ a, fun a => a r rfl⟩) rs' os e ho
    exact ⟨k1, fun r g e τ hτ => (k2 r g e).sat τ hτ⟩

/-- after exchanges none of which has failed, each replica has the history of those of which it has heard -/
theorem gossip_steady {N : Nat} {W : Int} {rs : List Graph} {P : Nat → (Nat → Int) → Prop}
    (h : ∀ r g, rs[r]? = some g → Steady N W g (P r)) {l : List (Nat × Nat)} {rs1 : List Graph} {os : List Outcome}
    (e : gossip rs l = .ok (rs1, os)) (ho : ∀ o ∈ os, o ≠ .fatal) {r : Nat} {g : Graph} (hr : rs1[r]? = some g) :
    Steady N W g (fun τ => ∀ q, Heard l r q → P q τ) := by
  have start : ∀ r g, rs[r]? = some g → Steady N W g (fun τ => ∀ q, r = q → P q τ) := fun r g e => by
    refine cast (congrArg (Steady N W g) (funext fun τ => propext ?_)) (h r g e)
    exact ⟨fun a q e => e ▸ a, fun a => a r rfl⟩
  exact (gossip_inv (fun i1 i2 e ho => .merged i1 i2 e ho) (P := P) l rs _ start _ _ e ho).2 r g hr

/-- C134: and two replicas, in the same network or in two networks of the same replicas, which have heard of the same ones announce the same
delays, if the graphs were minimal in the beginning. -/
theorem C134_converge_partial {N : Nat} (hN : 0 < N) (hN' : N ≤ 65535) {W : Int} (hW : 0 ≤ W) (hB : 3 * (N : Int) * (N * W) < INF)
    {rs : List Graph} {P : Nat → (Nat → Int) → Prop} (h : ∀ r g, rs[r]? = some g → Steady N W g (P r)) {l l' : List (Nat × Nat)}
    {rs1 rs2 : List Graph} {os os' : List Outcome} (e1 : gossip rs l = .ok (rs1, os)) (e2 : gossip rs l' = .ok (rs2, os'))
    (ho : ∀ o ∈ os, o ≠ .fatal) (ho' : ∀ o ∈ os', o ≠ .fatal) {r r' : Nat} {g g' : Graph} (hr : rs1[r]? = some g) (hr' : rs2[r']? = some g')
    (hh : ∀ q, Heard l r q ↔ Heard l' r' q) {i j : Nat} (hij : i ≠ j) : g.timespan i j = g'.timespan i j :=
  (C129_graph_partial hN hN' hW hB (gossip_steady h e1 ho hr) (gossip_steady h e2 ho' hr')).1
    (fun _ => ⟨fun a q e => a q ((hh q).2 e), fun a q e => a q ((hh q).1 e)⟩) i j hij

/-- C134: an exchange fails exactly when what the two replicas have heard is inconsistent, so that none can hold an inconsistent graph; and if the
second one has heard of nothing of which the first one has not, it changes no delay. -/
theorem C134_exchange_partial {N : Nat} (hN : 0 < N) (hN' : N ≤ 65535) {W : Int} (hW : 0 ≤ W) (hB : 3 * (N : Int) * (N * W) < INF)
    {rs : List Graph} {P : Nat → (Nat → Int) → Prop} (h : ∀ r g, rs[r]? = some g → Steady N W g (P r)) {l : List (Nat × Nat)}
    {rs1 : List Graph} {os : List Outcome} (e : gossip rs l = .ok (rs1, os)) (ho : ∀ o ∈ os, o ≠ .fatal) {a b : Nat} {g g' : Graph}
    (ha : rs1[a]? = some g) (hb : rs1[b]? = some g') :
    (∃ τ, ∀ q, Heard l a q → P q τ) ∧
    ∃ x o, g.merge g' = .ok (x, o) ∧ o ≠ .recovered ∧ (o = .fatal ↔ ¬ ∃ τ, ∀ q, Heard l a q ∨ Heard l b q → P q τ) ∧
      ((∀ q, Heard l b q → Heard l a q) → o ≠ .fatal ∧ ∀ i j, i ≠ j → x.timespan i j = g.timespan i j) := by
  have s1 := gossip_steady h e ho ha
  have s2 := gossip_steady h e ho hb
  have i1 := steady_inv hN' hN hW hB s1
  obtain ⟨σ, hσ⟩ := i1.closed.sat
  have hσ := (i1.sat σ).1 hσ
  obtain ⟨x, o, em, nr, f, -⟩ := sinv_merge hW hN hB i1 (steady_inv hN' hN hW hB s2)
  have join : ∀ τ, ((∀ q, Heard l a q → P q τ) ∧ ∀ q, Heard l b q → P q τ) ↔ ∀ q, Heard l a q ∨ Heard l b q → P q τ := fun τ =>
    ⟨fun ⟨x, y⟩ q z => z.elim (x q) (y q), fun x => ⟨fun q z => x q (Or.inl z), fun q z => x q (Or.inr z)⟩⟩
  refine ⟨⟨σ, hσ⟩, x, o, em, nr, ?_, fun k => ?_⟩
  · rw [f]
    exact ⟨fun c ⟨τ, t⟩ => c ⟨τ, (join τ).2 t⟩, fun c ⟨τ, t⟩ => c ⟨τ, (join τ).1 t⟩⟩
  · have nf : o ≠ .fatal := fun c => f.1 c ⟨σ, hσ, fun q z => hσ q (k q z)⟩
    refine ⟨nf, (C129_graph_partial hN hN' hW hB (Steady.merged s1 s2 em nf) s1).1 fun _ => ?_⟩
    exact ⟨And.left, fun t => ⟨t, fun q z => t q (k q z)⟩⟩

/-- C134 is violated when a replica has been given a constraint from an old instant to a new one: two replicas which have both heard of the two of
them (the second one knows nothing) do not announce the same delay. -/
theorem C134_growth_violated : ∃ g g' x x' : Graph, Graph.default.propagate ⟨0, 1, false, 10, 20⟩ = .ok (g, .propagated) ∧
    g.propagate ⟨1, 2, false, 5, 6⟩ = .ok (g', .propagated) ∧ Graph.withSize 3 = .ok x ∧
    gossip [g', x] [(0, 1), (1, 0)] = .ok ([g', x'], [.unchanged, .propagated]) ∧
    (∀ q, Heard [(0, 1), (1, 0)] 0 q ↔ Heard [(0, 1), (1, 0)] 1 q) ∧
    g'.timespan 0 2 = .ok ⟨-INF, INF⟩ ∧ x'.timespan 0 2 = .ok ⟨15, 26⟩ := by
  refine ⟨⟨2, [0, -20, 0, 10]⟩, ⟨3, [0, -20, 0, 10, -INF, -6, 0, 5, -INF]⟩, ⟨3, [0, -INF, 0, -INF, -INF, -INF, 0, -INF, -INF]⟩,
    ⟨3, [0, -20, 0, 10, -26, -6, 0, 5, 15]⟩, by decide +kernel, by decide +kernel, by decide +kernel, by decide +kernel, fun q => ?_,
    by decide +kernel, by decide +kernel⟩
  simp [Heard, heard]
  omega

/-! ## Examples -/

/-- three replicas: a constraint each; 0 hears of 1, 2 of 0, then 1 of 2 and 0 of 2: all of them have heard of all -/
example : ∃ P : Nat → (Nat → Int) → Prop,
    (∀ r g, [Graph.mk 3 [0, -20, 0, 10, -INF, -INF, 0, -INF, -INF], ⟨3, [0, -INF, 0, -INF, -INF, -6, 0, 5, -INF]⟩, ⟨1, [0]⟩][r]? = some g →
      Steady 3 20 g (P r)) ∧
    gossip [⟨3, [0, -20, 0, 10, -INF, -INF, 0, -INF, -INF]⟩, ⟨3, [0, -INF, 0, -INF, -INF, -6, 0, 5, -INF]⟩, ⟨1, [0]⟩]
        [(0, 1), (2, 0), (1, 2), (0, 2)] =
      .ok ([⟨3, [0, -20, 0, 10, -26, -6, 0, 5, 15]⟩, ⟨3, [0, -20, 0, 10, -26, -6, 0, 5, 15]⟩, ⟨3, [0, -20, 0, 10, -26, -6, 0, 5, 15]⟩],
        [.propagated, .propagated, .propagated, .unchanged]) ∧
    ∀ q r, q < 3 → r < 3 → Heard [(0, 1), (2, 0), (1, 2), (0, 2)] r q := by
  have a0 : Steady 3 20 ⟨3, [0, -INF, 0, -INF, -INF, -INF, 0, -INF, -INF]⟩ _ := .new (n := 3) (by decide) (by decide +kernel)
  have a1 : Steady 3 20 ⟨3, [0, -20, 0, 10, -INF, -INF, 0, -INF, -INF]⟩ _ := a0.accepted (k := ⟨0, 1, false, 10, 20⟩) (o := .propagated)
    (by unfold Usable WithinK; decide) (by decide +kernel) (Or.inr rfl)
  have a2 : Steady 3 20 ⟨3, [0, -INF, 0, -INF, -INF, -6, 0, 5, -INF]⟩ _ := a0.accepted (k := ⟨1, 2, false, 5, 6⟩) (o := .propagated)
    (by unfold Usable WithinK; decide) (by decide +kernel) (Or.inr rfl)
  have a3 : Steady 3 20 ⟨1, [0]⟩ _ := .new (n := 1) (by decide) (by decide +kernel)
  refine ⟨fun r τ => match r with | 0 => True ∧ Holds τ ⟨0, 1, false, 10, 20⟩ | 1 => True ∧ Holds τ ⟨1, 2, false, 5, 6⟩ | _ => True, fun r g e => ?_, by decide +kernel, fun q r hq hr => ?_⟩
  · match r, e with
    | 0, e => cases e; exact a1
    | 1, e => cases e; exact a2
    | 2, e => cases e; exact a3
    | r + 3, e => cases e
  · simp [Heard, heard]
    omega

end Chrono
