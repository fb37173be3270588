import Verif.Props.GraphBatch

/-!
# C103: building graphs with the standard traits
-/

set_option linter.unusedSimpArgs false

namespace Chrono
open Spec

theorem extendTrait_ok {g g' : Graph} {hint : Option Nat} {ks : List Constr} :
    g.extendTrait hint ks = .ok g' ↔ g.extend hint ks = .ok (g', .unchanged) ∨ g.extend hint ks = .ok (g', .propagated) := by
  unfold Graph.extendTrait
  cases g.extend hint ks with
  | error e => exact ⟨fun h => (by cases h), fun h => by rcases h with h | h <;> cases h⟩
  | ok p =>
    obtain ⟨x, o⟩ := p
    show (match (x, o) with
      | (g, .unchanged) => (pure g : Res Graph)
      | (g, .propagated) => pure g
      | _ => .error .unwrapNone) = _ ↔ _
    cases o <;> simp [pure, Except.pure]

/-- C103, the trait `Extend` with several constraints (the iterator does not announce at most one item): it returns if
and only if some assignment satisfies the graph and all of them, and the graph is then minimal with exactly these
solutions; otherwise it panics. -/
theorem C103_extend {g : Graph} (hv : Valid g) (hc : Clean g) (hz : ZeroDiag g) {W : Int} (hW : 0 ≤ W)
    (hg : Within W g) {n : Nat} (hn0 : 0 < n) (hn : g.size ≤ n) (hn2 : n ≤ 65535) (hB : 3 * (n : Int) * W < INF)
    {ks : List Constr} (hks : ∀ k ∈ ks, Batchable n W k) {hint : Option Nat} (h0 : hint ≠ some 0)
    (h1 : hint ≠ some 1) :
    ((∃ g', g.extendTrait hint ks = .ok g') ↔ ∃ τ, Sat τ g ∧ ∀ k ∈ ks, Holds τ k) ∧
    ∀ g', g.extendTrait hint ks = .ok g' → Valid g' ∧ Clean g' ∧ Minimal g' ∧
      ∀ τ, Sat τ g' ↔ Sat τ g ∧ ∀ k ∈ ks, Holds τ k := by
  obtain ⟨g1, o, e, e1, e2, e3, -⟩ := C65_extend hv hc hz hW hg hn0 hn hn2 hB hks h0 h1
  simp only [extendTrait_ok, e]
  rcases e1 with rfl | rfl
  · obtain ⟨a1, a2, a3, a4, -⟩ := e3 rfl
    refine ⟨⟨fun _ => e2.1 rfl, fun _ => ⟨g1, Or.inr rfl⟩⟩, fun g' h => ?_⟩
    rcases h with h | h <;> cases h
    exact ⟨a1, a2, a3, a4⟩
  · refine ⟨⟨fun ⟨g', h⟩ => by (rcases h with h | h <;> cases h), fun h => absurd (e2.2 h) (by decide)⟩, fun g' h => ?_⟩
    rcases h with h | h <;> cases h

/-- collecting is extending the empty graph -/
theorem fromConstraints_eq (hint : Option Nat) (ks : List Constr) :
    Graph.fromConstraints hint ks = Graph.default.extendTrait hint ks := rfl

/-- the empty graph, for every assignment -/
theorem sat_default (τ : Nat → Int) : Sat τ Graph.default := fun i _ hi => absurd hi (Nat.not_lt_zero i)

/-- C103, partial: collecting the constraints of an iterator (which announces at least as many as it yields) returns if
and only if some assignment satisfies all of them; the graph is then minimal with exactly these solutions. Otherwise it
panics. Missing: an iterator which announces one constraint from an instant to itself (next theorem). -/
theorem C103_collect_partial {W : Int} (hW : 0 ≤ W) {n : Nat} (hn0 : 0 < n) (hn2 : n ≤ 65535)
    (hB : 3 * (n : Int) * W < INF) {ks : List Constr} (hks : ∀ k ∈ ks, Batchable n W k ∧ Usable n W k)
    {hint : Option Nat} (hh : ∀ m, hint = some m → ks.length ≤ m)
    (hself : hint = some 1 → ∀ k ∈ ks, k.src ≠ k.dst) :
    ((∃ g, Graph.fromConstraints hint ks = .ok g) ↔ ∃ τ, ∀ k ∈ ks, Holds τ k) ∧
    ∀ g, Graph.fromConstraints hint ks = .ok g → Valid g ∧ Clean g ∧ Minimal g ∧ ∀ τ, Sat τ g ↔ ∀ k ∈ ks, Holds τ k := by
  have dmin : Minimal Graph.default := (minimal_iff default_valid).2 ⟨fun i hi => absurd hi (Nat.not_lt_zero i),
    fun i hi => absurd hi (Nat.not_lt_zero i)⟩
  have nil : Graph.default.extend hint [] = .ok (Graph.default, .unchanged) → ks = [] →
      ((∃ g, Graph.fromConstraints hint ks = .ok g) ↔ ∃ τ, ∀ k ∈ ks, Holds τ k) ∧
      ∀ g, Graph.fromConstraints hint ks = .ok g → Valid g ∧ Clean g ∧ Minimal g ∧ ∀ τ, Sat τ g ↔ ∀ k ∈ ks, Holds τ k := by
    intro h e
    subst e
    have e : Graph.fromConstraints hint [] = .ok Graph.default := by
      rw [fromConstraints_eq, extendTrait_ok]
      exact Or.inl h
    rw [e]
    refine ⟨⟨fun _ => ⟨fun _ => 0, fun _ h => (nomatch h)⟩, fun _ => ⟨_, rfl⟩⟩, fun g h => ?_⟩
    cases h
    exact ⟨default_valid, clean_iff.2 default_clean, dmin, fun τ => ⟨fun _ _ h => (nomatch h), fun _ => sat_default τ⟩⟩
  by_cases c0 : hint = some 0
  · have := hh 0 c0
    have e : ks = [] := List.eq_nil_of_length_eq_zero (by omega)
    subst c0
    exact nil (C65_single Graph.default ⟨0, 0, true, 0, 0⟩).2.2 e
  · by_cases c1 : hint = some 1
    · have l1 := hh 1 c1
      subst c1
      cases ks with
      | nil => exact nil (C65_single Graph.default ⟨0, 0, true, 0, 0⟩).2.1 rfl
      | cons k l =>
        have e : l = [] := List.eq_nil_of_length_eq_zero (by simp only [List.length_cons] at l1; omega)
        subst e
        obtain ⟨⟨b1, b2, b3, b4⟩, ⟨-, -, u3⟩⟩ := hks k (by simp)
        have hne := hself rfl k (by simp)
        have red : ∀ g, Graph.fromConstraints (some 1) [k] = .ok g ↔
            Graph.default.propagate k = .ok (g, .unchanged) ∨ Graph.default.propagate k = .ok (g, .propagated) := by
          intro g
          rw [fromConstraints_eq, extendTrait_ok, (C65_single Graph.default k).1]
        simp only [red, List.mem_singleton, forall_eq]
        cases he : k.isEmpty with
        | true =>
          rw [C61_empty_rejected Graph.default he]
          refine ⟨⟨fun ⟨g, h⟩ => by (rcases h with h | h <;> cases h), fun ⟨τ, h⟩ => ?_⟩,
            fun g h => by (rcases h with h | h <;> cases h)⟩
          have := h.1
          rw [he] at this
          cases this
        | false =>
          have hz : Graph.default.size ≤ max k.src k.dst := Nat.zero_le _
          have hlt : max k.src k.dst < 65535 := by clear hself red nil hB; omega
          obtain ⟨g', e, hs, hex, hmin⟩ := C64_growth_partial default_valid (clean_iff.2 default_clean) dmin he (u3 he).1
            hz hlt hne
          obtain ⟨g'', e', -, v, cl, -⟩ := C62_solutions_growth default_valid (clean_iff.2 default_clean) he hz hlt hne
          rw [e] at e'
          cases e'
          rw [e]
          have hs' : ∀ τ, Sat τ g' ↔ Holds τ k := fun τ => by
            rw [hs]
            exact ⟨fun h => h.2, fun h => ⟨sat_default τ, h⟩⟩
          refine ⟨⟨fun _ => ?_, fun _ => ⟨g', Or.inr rfl⟩⟩, fun g h => ?_⟩
          · obtain ⟨τ, t⟩ := hex
            exact ⟨τ, (hs' τ).1 t⟩
          · rcases h with h | h <;> cases h
            exact ⟨v, cl, hmin (Nat.zero_le _) (Nat.zero_le _), hs'⟩
    · have z : ZeroDiag Graph.default := fun i hi => absurd hi (Nat.not_lt_zero i)
      have w : Within W Graph.default := fun i _ hi => absurd hi (Nat.not_lt_zero i)
      obtain ⟨a, b⟩ := C103_extend default_valid (clean_iff.2 default_clean) z hW w hn0 (Nat.zero_le n) hn2 hB
        (fun k hk => (hks k hk).1) c0 c1
      have hs : ∀ τ, (Sat τ Graph.default ∧ ∀ k ∈ ks, Holds τ k) ↔ ∀ k ∈ ks, Holds τ k :=
        fun τ => ⟨fun h => h.2, fun h => ⟨sat_default τ, h⟩⟩
      simp only [hs] at a b
      rw [fromConstraints_eq]
      exact ⟨a, b⟩

/-- C103 is violated: collecting a single constraint from an instant to itself which no assignment satisfies (its time span is not
empty, but 0 is not in it) returns a graph. -/
theorem C103_self_violated {k : Constr} (hk : k.isEmpty = false) (hw : WF k.span) (he : k.src = k.dst) (hm : k.src < 65535)
    (h0 : 0 < k.lower ∨ k.upper < 0) :
    (∃ g, Graph.fromConstraints (some 1) [k] = .ok g) ∧ ∀ τ, ¬ Holds τ k := by
  obtain ⟨g', h1, h2, -⟩ := C62_self_violated default_valid (clean_iff.2 default_clean) hk hw he (Nat.zero_le _) hm h0
  refine ⟨⟨g', ?_⟩, h2⟩
  rw [fromConstraints_eq, extendTrait_ok, (C65_single Graph.default k).1]
  exact Or.inr h1

example : WF (Constr.span ⟨0, 0, false, 5, 10⟩) ∧ Graph.fromConstraints (some 1) [⟨0, 0, false, 5, 10⟩] = .ok ⟨1, [-10]⟩ := by
  decide

example : Batchable 3 20 ⟨0, 1, false, 10, 20⟩ ∧ Usable 3 20 ⟨1, 2, false, 5, 6⟩ ∧ 3 * (3 : Int) * 20 < INF ∧
    Graph.fromConstraints (some 2) [⟨0, 1, false, 10, 20⟩, ⟨1, 2, false, 5, 6⟩] = .ok exGraph ∧
    Graph.fromConstraints none [⟨0, 1, false, 10, 20⟩, ⟨1, 0, false, -9, 6⟩] = .error .unwrapNone ∧
    exGraph.extendTrait (some 2) [⟨0, 1, false, 10, 20⟩, ⟨1, 0, false, -9, 6⟩] = .error .unwrapNone ∧
    exGraph.extendTrait (some 2) [⟨0, 1, false, 10, 20⟩, ⟨1, 2, false, 5, 6⟩] = .ok exGraph := by
  decide

end Chrono
