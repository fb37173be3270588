import Verif.Spec.History
import Verif.Props.GraphAny
import Verif.Props.GraphSafe
import Verif.Props.GraphBatch

/-!
# Graphs after any history (C114)
-/

namespace Chrono
open Spec

/-- what every history maintains -/
structure HInv (N : Nat) (g : Graph) (P : (Nat → Int) → Prop) : Prop where
  valid : Valid g
  tidy : Tidy g
  within : Within INF g
  size : g.size ≤ N
  diag : ∀ i, i < g.size → 0 ≤ mat g i i
  sat : ∀ τ, Representable N τ → (Sat τ g ↔ P τ)

theorem HInv.clean {N : Nat} {g : Graph} {P : (Nat → Int) → Prop} (h : HInv N g P) : Clean g :=
  clean_iff.2 (tidy_clean h.tidy)

theorem HInv.zero {N : Nat} {g : Graph} {P : (Nat → Int) → Prop} (h : HInv N g P) (hs : ∃ τ, Representable N τ ∧ P τ) :
    ∀ i, i < g.size → mat g i i = 0 := by
  intro i hi
  obtain ⟨τ, r, p⟩ := hs
  have := (sat_iff h.valid τ).1 ((h.sat τ r).2 p) i hi i hi
  have := h.diag i hi
  have : (0 : Int) < INF := by decide
  omega

theorem rep_le {m n : Nat} (h : m ≤ n) {τ : Nat → Int} (r : Representable n τ) : Representable m τ :=
  fun i j hi hj => r i j (by omega) (by omega)

/-- a graph without constraints -/
theorem hinv_free {N : Nat} {g : Graph} (hv : Valid g) (ht : Tidy g) (hs : g.size ≤ N)
    (hm : ∀ a b, a < g.size → b < g.size → mat g a b = if a = b then 0 else -INF) : HInv N g (fun _ => True) := by
  have INF0 : (0 : Int) < INF := by decide
  refine ⟨hv, ht, (within_iff hv).2 fun i hi j hj => ?_, hs, fun i hi => ?_, fun τ _ => ⟨fun _ => trivial, fun _ => ?_⟩⟩
  · rw [hm i j hi hj]; unfold Small; split <;> omega
  · rw [hm i i hi hi, if_pos rfl]; exact Int.le_refl 0
  · rw [sat_iff hv]
    intro i hi j hj
    rw [hm i j hi hj]
    split
    · next c => subst c; right; omega
    · exact Or.inl rfl

theorem hinv_new {N n : Nat} (hN : N ≤ 65535) (hn : n ≤ N) {g : Graph} (h : Graph.withSize n = .ok g) : HInv N g (fun _ => True) := by
  obtain ⟨x, h1, h2, h3, -, h4⟩ := withSize_eq (n := n) (by omega)
  rw [h] at h1
  cases h1
  obtain ⟨y, k1, -, -, -, k2⟩ := resize_next Graph.default (n := n) (by omega)
  rw [show Graph.default.resize n = Graph.withSize n from rfl, h] at k1
  cases k1
  exact hinv_free h3 k2 (by omega) (by rw [h2]; exact h4)

theorem hinv_reset {N : Nat} {g g' : Graph} (hv : Valid g) (hs : g.size ≤ N) (h : g.reset = .ok g') : HInv N g' (fun _ => True) := by
  obtain ⟨x, h1, h2, h3⟩ := reset_eq hv
  rw [h] at h1
  cases h1
  refine hinv_free (h2.valid hv) ?_ (by rw [h2.size]; exact hs) (fun a b ha hb => ?_)
  · rw [tidy_iff]
    intro i j hij
    rw [h2.size] at hij
    rw [h3, if_neg (by omega)]
    exact Or.inl rfl
  · rw [h3]
    rw [h2.size] at ha
    by_cases c : a = b
    · rw [if_pos ⟨c, ha⟩, if_pos c]
    · rw [if_neg (by omega), if_neg c]

theorem hinv_propagate {N : Nat} (hN : N ≤ 65535) {g : Graph} {P : (Nat → Int) → Prop} (h : HInv N g P) {k : Constr} (hk : Ordinary N k) :
    (∀ g' o, g.propagate k = .ok (g', o) →
      ((o = .unchanged ∨ o = .propagated) ∧ HInv N g' (fun τ => P τ ∧ Holds τ k)) ∨
      (o = .recovered ∧ g' = g ∧ ¬ ∃ τ, Representable N τ ∧ P τ ∧ Holds τ k)) ∧
    ((∃ τ, Representable N τ ∧ P τ ∧ Holds τ k) → ∃ g' o, g.propagate k = .ok (g', o) ∧ (o = .unchanged ∨ o = .propagated)) := by
  have INF0 : (0 : Int) < INF := by decide
  obtain ⟨k3, k1, k2, k4, -⟩ := hk
  cases he : k.isEmpty with
  | true =>
    rw [C61_empty_rejected g he]
    have no : ¬ ∃ τ, Representable N τ ∧ P τ ∧ Holds τ k := by
      rintro ⟨τ, -, -, h⟩
      have := h.1
      rw [he] at this
      cases this
    exact ⟨fun g' o e => by cases e; exact Or.inr ⟨rfl, rfl, no⟩, fun h => absurd h no⟩
  | false =>
    by_cases c : g.size ≤ max k.src k.dst
    · obtain ⟨g', h1, h2, h3, h4, h5⟩ := propagate_grow (tidy_clean h.tidy) he c (by omega) k3
      rw [h1]
      refine ⟨fun g'' o e => ?_, fun _ => ⟨g', _, rfl, Or.inr rfl⟩⟩
      have ht := C59_tidy h.valid (op := .propagate k) ⟨by omega, by omega⟩ h1 (by decide) h.tidy (fun _ h => nomatch h) (fun h => nomatch h)
      cases e
      refine Or.inl ⟨Or.inr rfl, h3, ht, (within_iff h3).2 fun i hi j hj => ?_, by omega, fun i hi => ?_, fun τ hτ => ?_⟩
      · rw [h5 i j hi hj]
        have b1 := k4.1
        have b2 := k4.2
        unfold Small
        split
        · omega
        · split
          · omega
          · split
            · next c => exact small_of_within h.valid h.within i c.1 j c.2
            · split <;> omega
      · rw [h5 i i hi hi, if_neg (by omega), if_neg (by omega)]
        split
        · next c => exact h.diag i c.1
        · rw [if_pos rfl]; exact Int.le_refl 0
      · rw [sat_iff h3, grow_step_sat he c k3 h2 h5 τ, ← sat_iff h.valid, h.sat τ hτ]
    · have hs : k.src < g.size := by omega
      have hd : k.dst < g.size := by omega
      have R : ∀ τ, Representable N τ → Representable g.size τ := fun τ r => rep_le h.size r
      have S : ∀ τ, Representable N τ → (MSat g.size (mat g) τ ↔ P τ) := fun τ r => by rw [← sat_iff h.valid, h.sat τ r]
      rcases (propagate_any h.valid (small_of_within h.valid h.within) hs hd k4).cases with ⟨⟨g1, o1⟩, e, p⟩ | ⟨e', e, p⟩
      · rw [e]
        have sz := p.frame.shape.size
        have v := p.frame.valid h.valid
        simp only at sz v
        by_cases ho : o1 = .recovered
        · have no : ¬ ∃ τ, Representable N τ ∧ P τ ∧ Holds τ k := by
            rintro ⟨τ, r, t, u⟩
            exact p.bad ho τ (R τ r) ⟨(S τ r).2 t, u⟩
          refine ⟨fun g' o e => ?_, fun h => absurd h no⟩
          cases e
          exact Or.inr ⟨ho, p.same (Or.inr ho), no⟩
        · have oo : o1 = .unchanged ∨ o1 = .propagated := by
            have := p.fatal
            cases o1 <;> simp_all
          refine ⟨fun g' o e => ?_, fun _ => ⟨g1, o1, rfl, oo⟩⟩
          cases e
          refine Or.inl ⟨oo, v, p.frame.tidy h.tidy, (within_iff v).2 (by rw [sz]; exact p.range), by rw [sz]; exact h.size,
            fun i hi => ?_, fun τ hτ => ?_⟩
          · rw [sz] at hi
            exact Int.le_trans (h.diag i hi) (p.mono i i hi hi)
          · rw [sat_iff v, sz]
            have q := p.sat ho τ (R τ hτ)
            simp only at q
            rw [q, S τ hτ]
      · rw [e]
        exact ⟨fun _ _ h => (nomatch h), fun ⟨τ, r, t, u⟩ => absurd ⟨τ, R τ r, (S τ r).2 t, u⟩ p⟩

theorem hinv_extend {N : Nat} (hN : N ≤ 65535) {g : Graph} {P : (Nat → Int) → Prop} (h : HInv N g P) {ks : List Constr}
    (hk : ∀ k ∈ ks, Ordinary N k) {hint : Option Nat} (h0 : hint ≠ some 0) (h1 : hint ≠ some 1) :
    (∀ g' o, g.extend hint ks = .ok (g', o) →
      (o = .propagated ∧ HInv N g' (fun τ => P τ ∧ ∀ k ∈ ks, Holds τ k)) ∨
      (o = .fatal ∧ g'.size = 0 ∧ ¬ ∃ τ, Representable N τ ∧ P τ ∧ ∀ k ∈ ks, Holds τ k)) ∧
    ((∃ τ, Representable N τ ∧ P τ ∧ ∀ k ∈ ks, Holds τ k) → ∃ g', g.extend hint ks = .ok (g', .propagated)) := by
  have hle := needed_le (n := N) (ks := ks) (fun k h' => ⟨(hk k h').2.1, (hk k h').2.2.1⟩)
  have hm : max g.size (needed ks) ≤ N := by have := h.size; omega
  have R : ∀ τ, Representable N τ → Representable (max g.size (needed ks)) τ := fun τ r => rep_le hm r
  have S : ∀ τ, Representable N τ → (MSat g.size (mat g) τ ↔ P τ) := fun τ r => by rw [← sat_iff h.valid, h.sat τ r]
  rcases (extend_any h.valid (tidy_clean h.tidy) (small_of_within h.valid h.within) hN (fun k h' => (hk k h').2) h0 h1).cases with
    ⟨⟨g1, o1⟩, e, p, q, -, z⟩ | ⟨e', e, p⟩
  · by_cases ho : o1 = .fatal
    · rw [e]
      have no : ¬ ∃ τ, Representable N τ ∧ P τ ∧ ∀ k ∈ ks, Holds τ k :=
        fun ⟨τ, r, t, u⟩ => (p.fatal ho).2 ⟨τ, R τ r, (S τ r).2 t, u⟩
      refine ⟨fun g' o e => ?_, fun h => absurd h no⟩
      cases e
      exact Or.inr ⟨ho, (p.fatal ho).1, no⟩
    · have hp : o1 = .propagated := q.resolve_right ho
      have ht := C59_tidy h.valid (op := .extend hint ks) (fun k h' => ⟨by have := (hk k h').2.1; omega, by have := (hk k h').2.2.1; omega⟩) e ho
        h.tidy (fun _ h => nomatch h) (fun h => nomatch h)
      rw [e]
      subst hp
      have v := p.valid
      have sz := p.size ho
      simp only at v sz
      refine ⟨fun g' o e => ?_, fun _ => ⟨g1, rfl⟩⟩
      cases e
      refine Or.inl ⟨rfl, v, ht, (within_iff v).2 (by rw [sz]; exact p.range ho), by omega, z rfl h.diag, fun τ hτ => ?_⟩
      rw [sat_iff v, sz]
      have q := p.sat ho τ (R τ hτ)
      simp only at q
      rw [q, S τ hτ]
  · rw [e]
    exact ⟨fun _ _ h => (nomatch h), fun ⟨τ, r, t, u⟩ => absurd ⟨τ, R τ r, (S τ r).2 t, u⟩ p⟩

theorem hinv_merge {N : Nat} {g h : Graph} {P Q : (Nat → Int) → Prop} (hg : HInv N g P) (hh : HInv N h Q) :
    (∀ g' o, g.merge h = .ok (g', o) →
      ((o = .unchanged ∨ o = .propagated) ∧ (o = .unchanged → g' = g) ∧ HInv N g' (fun τ => P τ ∧ Q τ)) ∨
      (o = .fatal ∧ g'.size = 0 ∧ ¬ ∃ τ, Representable N τ ∧ P τ ∧ Q τ)) ∧
    ((∃ τ, Representable N τ ∧ P τ ∧ Q τ) → ∃ g' o, g.merge h = .ok (g', o) ∧ (o = .unchanged ∨ o = .propagated)) := by
  obtain ⟨m1, m2⟩ := merge_any hg.valid hh.valid hg.tidy hh.tidy hg.diag hh.diag hg.within hh.within
  have hm : max g.size h.size ≤ N := by have := hg.size; have := hh.size; omega
  refine ⟨fun g' o e => ?_, fun ⟨τ, r, t, u⟩ => m2 ⟨τ, rep_le hm r, (hg.sat τ r).2 t, (hh.sat τ r).2 u⟩⟩
  rcases m1 g' o e with ⟨a1, a2, a3, a4, a5, a6, a7, a8⟩ | ⟨a1, a2, a3⟩
  · refine Or.inl ⟨a1, a2, a3, a4, a5, by omega, a7, fun τ r => ?_⟩
    rw [a8 τ (rep_le hm r), hg.sat τ r, hh.sat τ r]
  · exact Or.inr ⟨a1, a2, fun ⟨τ, r, t, u⟩ => a3 ⟨τ, rep_le hm r, (hg.sat τ r).2 t, (hh.sat τ r).2 u⟩⟩

theorem hinv_grow {N n : Nat} (hN : N ≤ 65535) {g g' : Graph} {P : (Nat → Int) → Prop} (h : HInv N g P) (hs : g.size ≤ n) (hn : n ≤ N)
    (e : g.resize n = .ok g') : HInv N g' P := by
  have INF0 : (0 : Int) < INF := by decide
  obtain ⟨x, h1, h2, h3, -, h5⟩ := grow (tidy_clean h.tidy) (n := n) (by omega)
  obtain ⟨y, k1, -, -, -, k2⟩ := resize_next g (n := n) (by omega)
  rw [e] at h1 k1
  cases h1
  cases k1
  refine ⟨h3, k2, (within_iff h3).2 fun i hi j hj => ?_, by omega, fun i hi => ?_, fun τ r => ?_⟩
  · rw [h5 i j (by omega) (by omega)]
    split
    · next c => exact small_of_within h.valid h.within i c.1 j c.2
    · unfold Small; split <;> omega
  · rw [h5 i i (by omega) (by omega)]
    split
    · next c => exact h.diag i c.1
    · rw [if_pos rfl]; exact Int.le_refl 0
  · rw [sat_iff h3, h2, grow_sat hs h5 τ, ← sat_iff h.valid, h.sat τ r]

theorem hinv_shrink {N : Nat} {g g' : Graph} {P : (Nat → Int) → Prop} (h : HInv N g P) (hs : ∃ τ, Representable N τ ∧ P τ)
    (e : g.shrinkToFit = .ok g') : HInv N g' P := by
  have z := h.zero hs
  obtain ⟨n, h1, h2, h3, -⟩ := shrunk_eq h.valid g.size (Nat.le_refl _)
  have ht := C59_tidy h.valid (op := .shrinkToFit) (g' := g') (o := .unchanged) trivial
    (by show (g.shrinkToFit >>= fun x => pure (x, Outcome.unchanged)) = _; rw [e]; rfl) (by decide) h.tidy (fun _ h => nomatch h)
    (fun _ => (zeroDiag_iff h.valid).2 z)
  unfold Graph.shrinkToFit at e
  rw [h1] at e
  cases e
  have hv : Valid { g with size := n } := by
    obtain ⟨a, b⟩ := h.valid
    refine ⟨by simp only; omega, ?_⟩
    simp only
    exact Nat.le_trans (Nat.mul_le_mul h2 h2) b
  have em : ∀ i j, mat { g with size := n } i j = mat g i j := fun _ _ => rfl
  have hz := h.size
  refine ⟨hv, ht, (within_iff hv).2 fun i hi j hj => ?_, by simp only; omega, fun i hi => ?_, fun τ r => ?_⟩
  · simp only at hi hj
    exact small_of_within h.valid h.within i (by omega) j (by omega)
  · simp only at hi
    exact h.diag i (by omega)
  · rw [← h.sat τ r, sat_iff hv, sat_iff h.valid]
    constructor
    · intro t i hi j hj
      by_cases c : i < n ∧ j < n
      · exact t i c.1 j c.2
      · by_cases d : i = j
        · subst d; rw [z i hi]; right; omega
        · left; exact h3 i j d (by omega) hi hj
    · intro t i hi j hj
      simp only at hi hj
      exact t i (by omega) j (by omega)

theorem built_inv {N : Nat} (hN : N ≤ 65535) {g : Graph} {P : (Nat → Int) → Prop} (h : Built N g P) : HInv N g P := by
  have zero : ∀ {x y : Graph}, x.size = 0 → x.reset = .ok y → HInv N y (fun _ => True) :=
    fun s e => hinv_reset (valid_zero s) (by omega) e
  induction h with
  | new hn e => exact hinv_new hN hn e
  | accepted _ hk e ho ih =>
    rcases (hinv_propagate hN ih hk).1 _ _ e with a | a
    · exact a.2
    · rw [a.1] at ho; rcases ho with ho | ho <;> cases ho
  | rejected _ hk e ho ih =>
    rcases (hinv_propagate hN ih hk).1 _ _ e with a | a
    · rcases a.1 with b | b <;> rw [b] at ho <;> rcases ho with ho | ho <;> cases ho
    · rw [a.2.1]; exact ih
  | extended _ hk h0 h1 e ho ih =>
    rcases (hinv_extend hN ih hk h0 h1).1 _ _ e with a | a
    · exact a.2
    · exact absurd a.1 ho
  | merged _ _ e ho ih1 ih2 =>
    rcases (hinv_merge ih1 ih2).1 _ _ e with a | a
    · exact a.2.2
    · exact absurd a.1 ho
  | reset _ e ih => exact hinv_reset ih.valid ih.size e
  | resetExtend _ _ e e' _ => exact zero (extend_fatal_size e) e'
  | resetMerge _ _ e e' _ _ => exact zero (merge_fatal_size e) e'
  | grown _ hs hn e ih => exact hinv_grow hN ih hs hn e
  | shrunk _ hs e ih => exact hinv_shrink ih hs e

/-! ## C114 -/

/-- C114. After any history of calls, mixing single constraints, batches, merges with other graphs, growth, shrinking and resets, the
representable assignments which respect all the time spans the graph announces are exactly those which satisfy everything accepted since
the last reset. No constraint is forgotten, none comes back, whatever the bounds are. -/
theorem C114_solutions {N : Nat} (hN : N ≤ 65535) {g : Graph} {P : (Nat → Int) → Prop} (h : Built N g P) (τ : Nat → Int)
    (hτ : Representable N τ) :
    (∀ i j, i < g.size → j < g.size → ∃ s, g.timespan i j = .ok s ∧ InExt (τ j - τ i) s) ↔ P τ :=
  (built_inv hN h).sat τ hτ

/-- a history with a constraint, a batch with a wider instant, a rejected constraint and a merge with another graph -/
example : ∃ g P, Built 4 g P ∧ (∃ τ, Representable 4 τ ∧ P τ) ∧ ¬ P (fun _ => 0) ∧ g.size = 4 := by
  have a0 : Built 4 ⟨2, [0, -INF, 0, -INF]⟩ _ := .new (n := 2) (by decide) (by decide +kernel)
  have a1 : Built 4 ⟨2, [0, -5, 0, 2]⟩ _ := a0.accepted (k := ⟨0, 1, false, 2, 5⟩) (o := .propagated) (by unfold Ordinary Batchable WithinK; decide) (by decide +kernel)
    (Or.inr rfl)
  have a2 : Built 4 ⟨2, [0, -5, 0, 2]⟩ _ := a1.rejected (k := ⟨1, 0, false, 0, 9⟩) (o := .recovered) (by unfold Ordinary Batchable WithinK; decide) (by decide +kernel)
    (Or.inl rfl)
  have a3 : Built 4 ⟨4, [0, -5, 0, 2, -INF, -INF, 0, -INF, -INF, -12, -10, -INF, 0, -INF, 4, 6]⟩ _ :=
    a2.extended (hint := none) (ks := [⟨1, 3, false, 4, INF⟩, ⟨0, 3, false, -INF, 12⟩]) (o := .propagated) (by unfold Ordinary Batchable WithinK; decide) (by decide) (by decide)
      (by decide +kernel) (by decide)
  have b0 : Built 4 ⟨3, [0, -INF, 0, -INF, -INF, -INF, 0, -INF, -INF]⟩ _ := .new (n := 3) (by decide) (by decide +kernel)
  have b1 : Built 4 ⟨3, [0, -INF, 0, -INF, -INF, 1, 0, -3, -INF]⟩ _ :=
    b0.accepted (k := ⟨2, 1, false, 1, 3⟩) (o := .propagated) (by unfold Ordinary Batchable WithinK; decide) (by decide +kernel) (Or.inr rfl)
  have c : Built 4 ⟨4, [0, -5, 0, 2, -4, 1, 0, -3, -1, -12, -10, -13, 0, 5, 4, 6]⟩ _ := a3.merged b1 (o := .propagated) (by decide +kernel) (by decide)
  refine ⟨_, _, c, ⟨fun i => match i with | 0 => 0 | 1 => 3 | 2 => 1 | _ => 10, ?_, ?_⟩, ?_, rfl⟩
  · have : ∀ i j : Fin 4, -INF < _ ∧ _ := (by decide : ∀ i j : Fin 4,
      -INF < (fun i : Nat => match i with | 0 => (0 : Int) | 1 => 3 | 2 => 1 | _ => 10) j -
        (fun i : Nat => match i with | 0 => (0 : Int) | 1 => 3 | 2 => 1 | _ => 10) i ∧
      (fun i : Nat => match i with | 0 => (0 : Int) | 1 => 3 | 2 => 1 | _ => 10) j -
        (fun i : Nat => match i with | 0 => (0 : Int) | 1 => 3 | 2 => 1 | _ => 10) i < INF)
    exact fun i j hi hj => this ⟨i, hi⟩ ⟨j, hj⟩
  · simp only [Holds]; decide
  · simp only [Holds]; decide

/-- C114. After any history, a constraint, a batch or a merge compatible with what was accepted is accepted, without a panic; and what is
refused is incompatible with it. -/
theorem C114_next {N : Nat} (hN : N ≤ 65535) {g : Graph} {P : (Nat → Int) → Prop} (h : Built N g P) :
    (∀ k, Ordinary N k →
      ((∃ τ, Representable N τ ∧ P τ ∧ Holds τ k) → ∃ g' o, g.propagate k = .ok (g', o) ∧ (o = .unchanged ∨ o = .propagated)) ∧
      (∀ g' o, g.propagate k = .ok (g', o) → o = .recovered ∨ o = .fatal →
        g' = g ∧ ¬ ∃ τ, Representable N τ ∧ P τ ∧ Holds τ k)) ∧
    (∀ ks hint, (∀ k ∈ ks, Ordinary N k) → hint ≠ some 0 → hint ≠ some 1 →
      ((∃ τ, Representable N τ ∧ P τ ∧ ∀ k ∈ ks, Holds τ k) → ∃ g', g.extend hint ks = .ok (g', .propagated)) ∧
      (∀ g', g.extend hint ks = .ok (g', .fatal) → ¬ ∃ τ, Representable N τ ∧ P τ ∧ ∀ k ∈ ks, Holds τ k)) ∧
    (∀ x Q, Built N x Q →
      ((∃ τ, Representable N τ ∧ P τ ∧ Q τ) → ∃ g' o, g.merge x = .ok (g', o) ∧ (o = .unchanged ∨ o = .propagated)) ∧
      (∀ g', g.merge x = .ok (g', .fatal) → ¬ ∃ τ, Representable N τ ∧ P τ ∧ Q τ) ∧
      (∀ g', g.merge x = .ok (g', .unchanged) → g' = g)) := by
  have I := built_inv hN h
  refine ⟨fun k hk => ?_, fun ks hint hk h0 h1 => ?_, fun x Q hx => ?_⟩
  · obtain ⟨a, b⟩ := hinv_propagate hN I hk
    refine ⟨b, fun g' o e ho => ?_⟩
    rcases a g' o e with c | c
    · rcases c.1 with d | d <;> rw [d] at ho <;> rcases ho with ho | ho <;> cases ho
    · exact c.2
  · obtain ⟨a, b⟩ := hinv_extend hN I hk h0 h1
    refine ⟨b, fun g' e => ?_⟩
    rcases a g' _ e with c | c
    · exact absurd c.1 (by decide)
    · exact c.2.2
  · obtain ⟨a, b⟩ := hinv_merge I (built_inv hN hx)
    refine ⟨b, fun g' e => ?_, fun g' e => ?_⟩
    · rcases a g' _ e with c | c
      · rcases c.1 with d | d <;> cases d
      · exact c.2.2
    · rcases a g' _ e with c | c
      · exact c.2.1 rfl
      · exact absurd c.1 (by decide)

end Chrono
