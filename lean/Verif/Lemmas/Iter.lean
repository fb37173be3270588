import Verif.Lemmas.Interval

set_option linter.unusedSimpArgs false

/-!
# The lazy iterators: unrolling, soundness, ordering
-/

namespace Chrono
open Spec

/-- successive intervals are separated by at least one missing tick -/
def Gap (s : List Iv) : Prop := s.Pairwise (fun a b => a.upper + 1 < b.lower)

theorem lt_justBefore {a b : Int} (ha : -INF < a) (hb : b < INF) :
    a < justBefore b ↔ a + 1 < b := by
  rw [justBefore_eq]; split <;> ticks

theorem Canon_nil : Canon [] := ⟨by simp, by simp⟩

theorem Canon_cons {x : Iv} {s : List Iv} :
    Canon (x :: s) ↔ WF x ∧ (∀ y ∈ s, x.upper + 1 < y.lower) ∧ Canon s := by
  constructor
  · rintro ⟨h1, h2⟩
    rw [List.pairwise_cons] at h2
    exact ⟨h1 x (by simp), h2.1, fun i hi => h1 i (by simp [hi]), h2.2⟩
  · rintro ⟨h1, h2, h3⟩
    refine ⟨?_, List.pairwise_cons.2 ⟨h2, h3.gap⟩⟩
    intro i hi
    rcases List.mem_cons.1 hi with h | h
    · exact h ▸ h1
    · exact h3.wf i h

theorem InSet_nil {t : Int} : ¬ InSet t [] := by simp [InSet]
theorem InSet_cons {t : Int} {x : Iv} {s : List Iv} : InSet t (x :: s) ↔ InIv t x ∨ InSet t s := by
  simp [InSet]
theorem InSet_append {t : Int} {a b : List Iv} : InSet t (a ++ b) ↔ InSet t a ∨ InSet t b := by
  simp [InSet, or_and_right, exists_or]
theorem InSet_singleton {t : Int} {x : Iv} : InSet t [x] ↔ InIv t x := by simp [InSet]

/-! ## Union -/
namespace UnionIter

theorem next_eq (s : UnionIter) : s.next = match s.step with
    | (.ret o, s') => (o, s')
    | (.loop, s') => next s' := by
  rw [next]; split <;> simp_all

theorem drain_next (s : UnionIter) : s.drain = match s.next with
    | (none, _) => []
    | (some x, s') => x :: s'.drain := by
  rw [drain]; split <;> simp_all

theorem drain_eq (s : UnionIter) : s.drain = match s.step with
    | (.ret none, _) => []
    | (.ret (some x), s') => x :: s'.drain
    | (.loop, s') => s'.drain := by
  rw [drain_next, next_eq]
  rcases s.step with ⟨t, s'⟩
  cases t with
  | ret o => cases o <;> rfl
  | loop => exact (drain_next s').symm

theorem drain_onlyI (i j : List Iv) (tmp : Iv) : drain ⟨i, j, .onlyI, tmp⟩ = i := by
  induction i with
  | nil => rw [drain_eq]; rfl
  | cons x xs ih => rw [drain_eq]; simp only [step]; rw [ih]

theorem drain_onlyJ (i j : List Iv) (tmp : Iv) : drain ⟨i, j, .onlyJ, tmp⟩ = j := by
  induction j with
  | nil => rw [drain_eq]; rfl
  | cons x xs ih => rw [drain_eq]; simp only [step]; rw [ih]

/-- invariant of the iteration over canonical inputs -/
def Inv (s : UnionIter) : Prop :=
  match s.state with
  | .init => Canon s.i ∧ Canon s.j
  | .waitI => Canon s.i ∧ Canon (s.tmp :: s.j)
  | .waitJ => Canon (s.tmp :: s.i) ∧ Canon s.j
  | .onlyI => Canon s.i
  | .onlyJ => Canon s.j
  | .done => True

/-- the intervals which the iterator still holds -/
def pending (s : UnionIter) : List Iv :=
  match s.state with
  | .init => s.i ++ s.j
  | .waitI | .waitJ => s.tmp :: (s.i ++ s.j)
  | .onlyI => s.i
  | .onlyJ => s.j
  | .done => []

theorem merge_lower (a b : Int) : (if a > b then b else a) = min a b := by
  split <;> omega

theorem drain_waitI_nil (j : List Iv) (tmp : Iv) : drain ⟨[], j, .waitI, tmp⟩ = tmp :: j := by
  rw [drain_eq]; simp only [step]; rw [drain_onlyJ]

theorem drain_waitJ_nil (i : List Iv) (tmp : Iv) : drain ⟨i, [], .waitJ, tmp⟩ = [tmp] := by
  rw [drain_eq]; simp only [step]; rw [drain_onlyJ]

theorem drain_waitI_cons {i tmp : Iv} (is j : List Iv) (hi : WF i) (ht : WF tmp) :
    drain ⟨i :: is, j, .waitI, tmp⟩ =
      if i.upper + 1 < tmp.lower then i :: drain ⟨is, j, .waitI, tmp⟩
      else if tmp.upper + 1 < i.lower then tmp :: drain ⟨is, j, .waitJ, i⟩
      else if i.upper ≤ tmp.upper then drain ⟨is, j, .waitI, ⟨min tmp.lower i.lower, tmp.upper⟩⟩
      else drain ⟨is, j, .waitJ, ⟨min tmp.lower i.lower, i.upper⟩⟩ := by
  rw [drain_eq]
  simp only [step, lt_justBefore hi.lt_hi ht.lo_lt, lt_justBefore ht.lt_hi hi.lo_lt, merge_lower]
  repeat' split
  all_goals simp_all

theorem drain_waitJ_cons {j tmp : Iv} (i js : List Iv) (hj : WF j) (ht : WF tmp) :
    drain ⟨i, j :: js, .waitJ, tmp⟩ =
      if j.upper + 1 < tmp.lower then j :: drain ⟨i, js, .waitJ, tmp⟩
      else if tmp.upper + 1 < j.lower then tmp :: drain ⟨i, js, .waitI, j⟩
      else if j.upper ≤ tmp.upper then drain ⟨i, js, .waitJ, ⟨min tmp.lower j.lower, tmp.upper⟩⟩
      else drain ⟨i, js, .waitI, ⟨min tmp.lower j.lower, j.upper⟩⟩ := by
  rw [drain_eq]
  simp only [step, lt_justBefore hj.lt_hi ht.lo_lt, lt_justBefore ht.lt_hi hj.lo_lt, merge_lower]
  repeat' split
  all_goals simp_all

theorem drain_init_nilI (j : List Iv) (tmp : Iv) : drain ⟨[], j, .init, tmp⟩ = j := by
  cases j with
  | nil => rw [drain_eq]; rfl
  | cons x xs => rw [drain_eq]; simp only [step]; rw [drain_onlyJ]

theorem drain_init_nilJ (i : List Iv) (tmp : Iv) : drain ⟨i, [], .init, tmp⟩ = i := by
  cases i with
  | nil => rw [drain_eq]; rfl
  | cons x xs => rw [drain_eq]; simp only [step]; rw [drain_onlyI]

theorem drain_init_cons {i j : Iv} (is js : List Iv) (tmp : Iv) (hi : WF i) (hj : WF j) :
    drain ⟨i :: is, j :: js, .init, tmp⟩ =
      if i.upper + 1 < j.lower then i :: drain ⟨is, js, .waitI, j⟩
      else if j.upper + 1 < i.lower then j :: drain ⟨is, js, .waitJ, i⟩
      else if i.upper ≤ j.upper then drain ⟨is, js, .waitI, ⟨min i.lower j.lower, j.upper⟩⟩
      else drain ⟨is, js, .waitJ, ⟨min i.lower j.lower, i.upper⟩⟩ := by
  rw [drain_eq]
  simp only [step, lt_justBefore hi.lt_hi hj.lo_lt, lt_justBefore hj.lt_hi hi.lo_lt]
  repeat' split
  all_goals simp_all

/-- the `Init` state on two non-empty inputs behaves as if it had been waiting for `I` with the
first interval of `J` pending, when that interval does not end strictly before the first of `I` does
(otherwise as if waiting for `J`) -/
theorem drain_init_waitI {i j : Iv} (is js : List Iv) (tmp : Iv) (hi : WF i) (hj : WF j) :
    drain ⟨i :: is, j :: js, .init, tmp⟩ = drain ⟨i :: is, js, .waitI, j⟩ := by
  rw [drain_init_cons _ _ _ hi hj, drain_waitI_cons _ _ hi hj]
  simp only [Int.min_comm]

end UnionIter

/-- what is known of the intervals produced from some point on: canonical, all beyond `b`, and
within the points `P` -/
structure Good (b : Int) (P : Int → Prop) (d : List Iv) : Prop where
  canon : Canon d
  low : ∀ y ∈ d, b < y.lower
  sound : ∀ t, InSet t d → P t

theorem Good.cons {b : Int} {P : Int → Prop} {x : Iv} {d : List Iv} (hx : WF x) (hb : b < x.lower)
    (hp : ∀ t, InIv t x → P t) (h : Good (x.upper + 1) P d) : Good b P (x :: d) where
  canon := Canon_cons.2 ⟨hx, h.low, h.canon⟩
  low := by
    intro y hy
    rcases List.mem_cons.1 hy with e | e
    · exact e ▸ hb
    · have := h.low y e; have := hx.le; omega
  sound := by
    intro t ht
    rcases InSet_cons.1 ht with e | e
    · exact hp t e
    · exact h.sound t e

theorem Good.mono {b : Int} {P Q : Int → Prop} {d : List Iv} (h : Good b P d) (hpq : ∀ t, P t → Q t) :
    Good b Q d := ⟨h.canon, h.low, fun t ht => hpq t (h.sound t ht)⟩

theorem Good.of_canon {b : Int} {d : List Iv} (h : Canon d) (hb : ∀ y ∈ d, b < y.lower) :
    Good b (fun t => InSet t d) d := ⟨h, hb, fun _ ht => ht⟩

namespace UnionIter

theorem wf_merge {a b : Iv} (ha : WF a) (hb : WF b) (h : a.upper ≤ b.upper) :
    WF ⟨min b.lower a.lower, b.upper⟩ := by
  obtain ⟨h1, h2, h3, h4, h5⟩ := ha
  obtain ⟨g1, g2, g3, g4, g5⟩ := hb
  constructor <;> simp only <;> omega

/-- two intervals that overlap or touch: the points of the merged interval -/
theorem mem_merge {a b : Iv} (ha : WF a) (hb : WF b) (h : a.upper ≤ b.upper)
    (h1 : ¬ a.upper + 1 < b.lower) (t : Int) :
    InIv t ⟨min b.lower a.lower, b.upper⟩ ↔ InIv t a ∨ InIv t b := by
  have := ha.le; have := hb.le
  simp only [InIv]; omega

theorem good_wait (n : Nat) : ∀ (i j : List Iv) (tmp : Iv) (b : Int), i.length + j.length ≤ n →
    (∀ y ∈ tmp :: (i ++ j), b < y.lower) →
    (Canon i → Canon (tmp :: j) →
      Good b (fun t => InSet t (tmp :: (i ++ j))) (drain ⟨i, j, .waitI, tmp⟩)) ∧
    (Canon (tmp :: i) → Canon j →
      Good b (fun t => InSet t (tmp :: (i ++ j))) (drain ⟨i, j, .waitJ, tmp⟩)) := by
  induction n with
  | zero =>
    intro i j tmp b hn hb
    have hi : i = [] := List.length_eq_zero_iff.1 (by omega)
    have hj : j = [] := List.length_eq_zero_iff.1 (by omega)
    subst hi hj
    refine ⟨fun _ h => ?_, fun h _ => ?_⟩
    · rw [drain_waitI_nil]; exact Good.of_canon h hb
    · rw [drain_waitJ_nil]; exact Good.of_canon h hb
  | succ n ih =>
    intro i j tmp b hn hb
    constructor
    · intro hci hcj
      cases i with
      | nil => rw [drain_waitI_nil]; exact Good.of_canon hcj hb
      | cons x xs =>
        obtain ⟨hx, hxs, hcxs⟩ := Canon_cons.1 hci
        obtain ⟨ht, htj, hcj'⟩ := Canon_cons.1 hcj
        have hbx := hb x (by simp)
        have hbt := hb tmp (by simp)
        have hlen : xs.length + j.length ≤ n := by simp at hn; omega
        rw [drain_waitI_cons _ _ hx ht]
        split
        · rename_i hc
          refine Good.cons hx hbx (fun t h => by simp [InSet_cons, h]) (Good.mono
            ((ih xs j tmp _ hlen ?_).1 hcxs hcj) ?_)
          · intro y hy
            simp only [List.mem_cons, List.mem_append] at hy
            rcases hy with e | e | e
            · exact e ▸ hc
            · exact hxs y e
            · have := htj y e; have := ht.le; omega
          · simp only [InSet_cons, InSet_append]; grind
        · split
          · rename_i hc1 hc
            refine Good.cons ht hbt (fun t h => by simp [InSet_cons, h]) (Good.mono
              ((ih xs j x _ hlen ?_).2 hci hcj') ?_)
            · intro y hy
              simp only [List.mem_cons, List.mem_append] at hy
              rcases hy with e | e | e
              · exact e ▸ hc
              · have := hxs y e; have := hx.le; omega
              · exact htj y e
            · simp only [InSet_cons, InSet_append]; grind
          · split
            · rename_i hc1 hc2 hc
              have hw := wf_merge hx ht hc
              refine Good.mono ((ih xs j ⟨min tmp.lower x.lower, tmp.upper⟩ b hlen ?_).1 hcxs
                (Canon_cons.2 ⟨hw, htj, hcj'⟩)) ?_
              · intro y hy
                simp only [List.mem_cons, List.mem_append] at hy
                rcases hy with e | e | e
                · subst e; simp only; omega
                · exact hb y (by simp [e])
                · exact hb y (by simp [e])
              · intro t
                have := mem_merge hx ht hc hc1 t
                simp only [InSet_cons, InSet_append, List.cons_append] at *
                grind
            · rename_i hc1 hc2 hc
              have hw := wf_merge ht hx (by omega)
              rw [Int.min_comm]
              refine Good.mono ((ih xs j ⟨min x.lower tmp.lower, x.upper⟩ b hlen ?_).2
                (Canon_cons.2 ⟨hw, hxs, hcxs⟩) hcj') ?_
              · intro y hy
                simp only [List.mem_cons, List.mem_append] at hy
                rcases hy with e | e | e
                · subst e; simp only; omega
                · exact hb y (by simp [e])
                · exact hb y (by simp [e])
              · intro t
                have := mem_merge ht hx (by omega) hc2 t
                simp only [InSet_cons, InSet_append, List.cons_append] at *
                grind
    · intro hci hcj
      cases j with
      | nil => 
        rw [drain_waitJ_nil]
        obtain ⟨ht, htj, hcj'⟩ := Canon_cons.1 hci
        refine Good.mono (Good.of_canon (Canon_cons.2 ⟨ht, by simp, Canon_nil⟩) ?_) ?_
        · simp only [List.mem_singleton]; rintro y rfl; exact hb _ (by simp)
        · simp only [InSet_cons, InSet_append]; grind
      | cons x xs =>
        obtain ⟨hx, hxs, hcxs⟩ := Canon_cons.1 hcj
        obtain ⟨ht, htj, hcj'⟩ := Canon_cons.1 hci
        have hbx := hb x (by simp)
        have hbt := hb tmp (by simp)
        have hlen : i.length + xs.length ≤ n := by simp at hn; omega
        rw [drain_waitJ_cons _ _ hx ht]
        split
        · rename_i hc
          refine Good.cons hx hbx (fun t h => by simp [InSet_cons, InSet_append, h]) (Good.mono
            ((ih i xs tmp _ hlen ?_).2 hci hcxs) ?_)
          · intro y hy
            simp only [List.mem_cons, List.mem_append] at hy
            rcases hy with e | e | e
            · exact e ▸ hc
            · have := htj y e; have := ht.le; omega
            · exact hxs y e
          · simp only [InSet_cons, InSet_append]; grind
        · split
          · rename_i hc1 hc
            refine Good.cons ht hbt (fun t h => by simp [InSet_cons, h]) (Good.mono
              ((ih i xs x _ hlen ?_).1 hcj' hcj) ?_)
            · intro y hy
              simp only [List.mem_cons, List.mem_append] at hy
              rcases hy with e | e | e
              · exact e ▸ hc
              · exact htj y e
              · have := hxs y e; have := hx.le; omega
            · simp only [InSet_cons, InSet_append]; grind
          · split
            · rename_i hc1 hc2 hc
              have hw := wf_merge hx ht hc
              refine Good.mono ((ih i xs ⟨min tmp.lower x.lower, tmp.upper⟩ b hlen ?_).2
                (Canon_cons.2 ⟨hw, htj, hcj'⟩) hcxs) ?_
              · intro y hy
                simp only [List.mem_cons, List.mem_append] at hy
                rcases hy with e | e | e
                · subst e; simp only; omega
                · exact hb y (by simp [e])
                · exact hb y (by simp [e])
              · intro t
                have := mem_merge hx ht hc hc1 t
                simp only [InSet_cons, InSet_append, List.cons_append] at *
                grind
            · rename_i hc1 hc2 hc
              have hw := wf_merge ht hx (by omega)
              rw [Int.min_comm]
              refine Good.mono ((ih i xs ⟨min x.lower tmp.lower, x.upper⟩ b hlen ?_).1 hcj'
                (Canon_cons.2 ⟨hw, hxs, hcxs⟩)) ?_
              · intro y hy
                simp only [List.mem_cons, List.mem_append] at hy
                rcases hy with e | e | e
                · subst e; simp only; omega
                · exact hb y (by simp [e])
                · exact hb y (by simp [e])
              · intro t
                have := mem_merge ht hx (by omega) hc2 t
                simp only [InSet_cons, InSet_append, List.cons_append] at *
                grind

/-- the union iterator on canonical inputs: canonical output, no point invented -/
theorem good_new {i j : List Iv} (hi : Canon i) (hj : Canon j) :
    Canon (new i j).drain ∧ ∀ t, InSet t (new i j).drain → InSet t i ∨ InSet t j := by
  cases i with
  | nil => simp only [new, drain_init_nilI]; exact ⟨hj, fun t h => Or.inr h⟩
  | cons x xs =>
    cases j with
    | nil => simp only [new, drain_init_nilJ]; exact ⟨hi, fun t h => Or.inl h⟩
    | cons y ys =>
      have hx := (Canon_cons.1 hi).1
      have hy := (Canon_cons.1 hj).1
      simp only [new, drain_init_waitI _ _ _ hx hy]
      have hb : ∀ z ∈ y :: (x :: xs ++ ys), (min x.lower y.lower - 1) < z.lower := by
        intro z hz
        simp only [List.cons_append, List.mem_cons, List.mem_append] at hz
        have h1 := hx.le; have h2 := hy.le
        rcases hz with e | e | e | e
        · subst e; omega
        · subst e; omega
        · have := (Canon_cons.1 hi).2.1 z e; omega
        · have := (Canon_cons.1 hj).2.1 z e; omega
      have g := (good_wait _ (x :: xs) ys y _ (Nat.le_refl _) hb).1 hi hj
      refine ⟨g.canon, fun t ht => ?_⟩
      have := g.sound t ht
      simp only [List.cons_append, InSet_cons, InSet_append] at this ⊢
      grind

theorem mem_dropLast_cons {z x : Iv} {xs : List Iv} :
    z ∈ (x :: xs).dropLast ↔ xs ≠ [] ∧ (z = x ∨ z ∈ xs.dropLast) := by
  cases xs with
  | nil => simp
  | cons y ys => simp [List.dropLast]

theorem complete_wait (n : Nat) : ∀ (i j : List Iv) (tmp : Iv), i.length + j.length ≤ n →
    (Canon i → Canon (tmp :: j) → (∀ x ∈ i.dropLast, ∃ y ∈ tmp :: j, x.upper < y.upper) →
      ∀ t, InSet t (tmp :: (i ++ j)) → InSet t (drain ⟨i, j, .waitI, tmp⟩)) ∧
    (Canon (tmp :: i) → Canon j → (∀ x ∈ (tmp :: i).dropLast, ∃ y ∈ j, x.upper < y.upper) →
      ∀ t, InSet t (tmp :: (i ++ j)) → InSet t (drain ⟨i, j, .waitJ, tmp⟩)) := by
  induction n with
  | zero =>
    intro i j tmp hn
    have hi : i = [] := List.length_eq_zero_iff.1 (by omega)
    have hj : j = [] := List.length_eq_zero_iff.1 (by omega)
    subst hi hj
    refine ⟨fun _ _ _ t h => ?_, fun _ _ _ t h => ?_⟩
    · rw [drain_waitI_nil]; simpa using h
    · rw [drain_waitJ_nil]; simpa using h
  | succ n ih =>
    intro i j tmp hn
    constructor
    · intro hci hcj hr t hin
      cases i with
      | nil => rw [drain_waitI_nil]; simpa using hin
      | cons x xs =>
        obtain ⟨hx, hxs, hcxs⟩ := Canon_cons.1 hci
        obtain ⟨ht, htj, hcj'⟩ := Canon_cons.1 hcj
        have hlen : xs.length + j.length ≤ n := by simp at hn; omega
        have hsub : ∀ z ∈ xs.dropLast, z ∈ (x :: xs).dropLast := by
          intro z hz; rw [mem_dropLast_cons]; exact ⟨by rintro rfl; simp at hz, Or.inr hz⟩
        have hup : ∀ z ∈ (x :: xs).dropLast, x.upper ≤ z.upper := by
          intro z hz
          rcases List.mem_cons.1 ((List.dropLast_sublist _).subset hz) with e | e
          · exact e ▸ Int.le_refl _
          · have := hxs z e; have := (hcxs.wf z e).le; omega
        rw [drain_waitI_cons _ _ hx ht]
        simp only [List.cons_append, InSet_cons, InSet_append] at hin
        split
        · have := (ih xs j tmp hlen).1 hcxs hcj (fun z hz => hr z (hsub z hz)) t
          simp only [InSet_cons, InSet_append] at *
          grind
        · split
          · have := (ih xs j x hlen).2 hci hcj' (fun z hz => by
              obtain ⟨y, hy, hlt⟩ := hr z hz
              have := hup z hz
              rcases List.mem_cons.1 hy with e | e
              · subst e; have := hx.le; omega
              · exact ⟨y, e, hlt⟩) t
            simp only [InSet_cons, InSet_append] at *
            grind
          · split
            · rename_i hc1 hc2 hc
              have hw := wf_merge hx ht hc
              have hm := mem_merge hx ht hc hc1 t
              have := (ih xs j ⟨min tmp.lower x.lower, tmp.upper⟩ hlen).1 hcxs
                (Canon_cons.2 ⟨hw, htj, hcj'⟩) (fun z hz => by
                  obtain ⟨y, hy, hlt⟩ := hr z (hsub z hz)
                  rcases List.mem_cons.1 hy with e | e
                  · subst e; exact ⟨_, List.mem_cons_self, hlt⟩
                  · exact ⟨y, List.mem_cons_of_mem _ e, hlt⟩) t
              simp only [InSet_cons, InSet_append] at *
              grind
            · rename_i hc1 hc2 hc
              have hw := wf_merge ht hx (by omega)
              have hm := mem_merge ht hx (by omega) hc2 t
              rw [Int.min_comm]
              have := (ih xs j ⟨min x.lower tmp.lower, x.upper⟩ hlen).2
                (Canon_cons.2 ⟨hw, hxs, hcxs⟩) hcj' (fun z hz => by
                  have h' : ∃ z' ∈ (x :: xs).dropLast, z'.upper = z.upper := by
                    rw [mem_dropLast_cons] at hz
                    obtain ⟨h1, h2⟩ := hz
                    rcases h2 with h2 | h2
                    · subst h2; exact ⟨x, mem_dropLast_cons.2 ⟨h1, Or.inl rfl⟩, rfl⟩
                    · exact ⟨z, hsub z h2, rfl⟩
                  obtain ⟨z', hz', e'⟩ := h'
                  obtain ⟨y, hy, hlt⟩ := hr z' hz'
                  have := hup z' hz'
                  rcases List.mem_cons.1 hy with e | e
                  · subst e; omega
                  · exact ⟨y, e, by omega⟩) t
              simp only [InSet_cons, InSet_append] at *
              grind
    · intro hci hcj hr t hin
      obtain ⟨ht, htj, hcj'⟩ := Canon_cons.1 hci
      have hup : ∀ z ∈ (tmp :: i).dropLast, tmp.upper ≤ z.upper := by
        intro z hz
        rcases List.mem_cons.1 ((List.dropLast_sublist _).subset hz) with e | e
        · exact e ▸ Int.le_refl _
        · have := htj z e; have := (hcj'.wf z e).le; omega
      cases j with
      | nil =>
        rw [drain_waitJ_nil]
        cases i with
        | nil => simpa using hin
        | cons y ys =>
          obtain ⟨_, h, _⟩ := hr tmp (mem_dropLast_cons.2 ⟨by simp, Or.inl rfl⟩)
          simp at h
      | cons x xs =>
        obtain ⟨hx, hxs, hcxs⟩ := Canon_cons.1 hcj
        have hlen : i.length + xs.length ≤ n := by simp at hn; omega
        have hsub : ∀ z ∈ i.dropLast, z ∈ (tmp :: i).dropLast := by
          intro z hz; rw [mem_dropLast_cons]; exact ⟨by rintro rfl; simp at hz, Or.inr hz⟩
        rw [drain_waitJ_cons _ _ hx ht]
        simp only [InSet_cons, InSet_append] at hin
        split
        · have := (ih i xs tmp hlen).2 hci hcxs (fun z hz => by
              obtain ⟨y, hy, hlt⟩ := hr z hz
              have := hup z hz
              rcases List.mem_cons.1 hy with e | e
              · subst e; have := ht.le; omega
              · exact ⟨y, e, hlt⟩) t
          simp only [InSet_cons, InSet_append] at *
          grind
        · split
          · have := (ih i xs x hlen).1 hcj' hcj (fun z hz => hr z (hsub z hz)) t
            simp only [InSet_cons, InSet_append] at *
            grind
          · split
            · rename_i hc1 hc2 hc
              have hw := wf_merge hx ht hc
              have hm := mem_merge hx ht hc hc1 t
              have := (ih i xs ⟨min tmp.lower x.lower, tmp.upper⟩ hlen).2
                (Canon_cons.2 ⟨hw, htj, hcj'⟩) hcxs (fun z hz => by
                  have h' : ∃ z' ∈ (tmp :: i).dropLast, z'.upper = z.upper := by
                    rw [mem_dropLast_cons] at hz
                    obtain ⟨h1, h2⟩ := hz
                    rcases h2 with h2 | h2
                    · subst h2; exact ⟨tmp, mem_dropLast_cons.2 ⟨h1, Or.inl rfl⟩, rfl⟩
                    · exact ⟨z, hsub z h2, rfl⟩
                  obtain ⟨z', hz', e'⟩ := h'
                  obtain ⟨y, hy, hlt⟩ := hr z' hz'
                  have := hup z' hz'
                  rcases List.mem_cons.1 hy with e | e
                  · subst e; omega
                  · exact ⟨y, e, by omega⟩) t
              simp only [InSet_cons, InSet_append] at *
              grind
            · rename_i hc1 hc2 hc
              have hw := wf_merge ht hx (by omega)
              have hm := mem_merge ht hx (by omega) hc2 t
              rw [Int.min_comm]
              have := (ih i xs ⟨min x.lower tmp.lower, x.upper⟩ hlen).1 hcj'
                (Canon_cons.2 ⟨hw, hxs, hcxs⟩) (fun z hz => by
                  obtain ⟨y, hy, hlt⟩ := hr z (hsub z hz)
                  rcases List.mem_cons.1 hy with e | e
                  · subst e; exact ⟨_, List.mem_cons_self, hlt⟩
                  · exact ⟨y, List.mem_cons_of_mem _ e, hlt⟩) t
              simp only [InSet_cons, InSet_append] at *
              grind

/-- the union iterator loses nothing if every interval of `i` but the last ends before some interval
of `j` does -/
theorem complete_new {i j : List Iv} (hi : Canon i) (hj : Canon j)
    (h : j = [] ∨ ∀ x ∈ i.dropLast, ∃ y ∈ j, x.upper < y.upper) (t : Int)
    (ht : InSet t i ∨ InSet t j) : InSet t (new i j).drain := by
  cases i with
  | nil => simp only [new, drain_init_nilI]; simpa [InSet_nil] using ht
  | cons x xs =>
    cases j with
    | nil => simp only [new, drain_init_nilJ]; simpa [InSet_nil] using ht
    | cons y ys =>
      have hx := (Canon_cons.1 hi).1
      have hy := (Canon_cons.1 hj).1
      simp only [new, drain_init_waitI _ _ _ hx hy]
      refine (complete_wait _ (x :: xs) ys y (Nat.le_refl _)).1 hi hj (by simpa using h) t ?_
      simp only [List.cons_append, InSet_cons, InSet_append] at ht ⊢
      grind

/-- once an interval of `i` ends after all those of `j`, nothing beyond it is produced -/
theorem stop_wait (n : Nat) (m : Int) : ∀ (i j : List Iv) (tmp : Iv), i.length + j.length ≤ n →
    (Canon i → Canon (tmp :: j) → (∃ x ∈ i, x.upper = m) → (∀ y ∈ tmp :: j, y.upper < m) →
      ∀ z ∈ drain ⟨i, j, .waitI, tmp⟩, z.upper ≤ m) ∧
    (Canon (tmp :: i) → Canon j → (∃ x ∈ tmp :: i, x.upper = m) → (∀ y ∈ j, y.upper < m) →
      ∀ z ∈ drain ⟨i, j, .waitJ, tmp⟩, z.upper ≤ m) := by
  induction n with
  | zero =>
    intro i j tmp hn
    have hi : i = [] := List.length_eq_zero_iff.1 (by omega)
    have hj : j = [] := List.length_eq_zero_iff.1 (by omega)
    subst hi hj
    refine ⟨fun _ _ h => by simp at h, fun _ _ h _ => ?_⟩
    rw [drain_waitJ_nil]; simp at h ⊢; omega
  | succ n ih =>
    intro i j tmp hn
    constructor
    · intro hci hcj hr hm
      cases i with
      | nil => simp at hr
      | cons x xs =>
        obtain ⟨hx, hxs, hcxs⟩ := Canon_cons.1 hci
        obtain ⟨ht, htj, hcj'⟩ := Canon_cons.1 hcj
        have hlen : xs.length + j.length ≤ n := by simp at hn; omega
        have hxm : x.upper ≤ m := by
          obtain ⟨w, hw, rfl⟩ := hr
          rcases List.mem_cons.1 hw with e | e
          · exact e ▸ Int.le_refl _
          · have := hxs w e; have := (hcxs.wf w e).le; omega
        have hr' : x.upper < m → ∃ w ∈ xs, w.upper = m := by
          intro hlt
          obtain ⟨w, hw, rfl⟩ := hr
          rcases List.mem_cons.1 hw with e | e
          · subst e; omega
          · exact ⟨w, e, rfl⟩
        have htm := hm tmp (by simp)
        have hjm : ∀ y ∈ j, y.upper < m := fun y hy => hm y (by simp [hy])
        have htle := ht.le
        have hxle := hx.le
        rw [drain_waitI_cons _ _ hx ht]
        split
        · have := (ih xs j tmp hlen).1 hcxs hcj (hr' (by omega)) hm
          simp only [List.mem_cons]
          rintro z (e | e)
          · exact e ▸ hxm
          · exact this z e
        · split
          · have := (ih xs j x hlen).2 hci hcj' hr hjm
            simp only [List.mem_cons]
            rintro z (e | e)
            · exact e ▸ Int.le_of_lt htm
            · exact this z e
          · split
            · rename_i hc1 hc2 hc
              have hw := wf_merge hx ht hc
              exact (ih xs j ⟨min tmp.lower x.lower, tmp.upper⟩ hlen).1 hcxs
                (Canon_cons.2 ⟨hw, htj, hcj'⟩) (hr' (by omega)) (by simpa using ⟨htm, hjm⟩)
            · rename_i hc1 hc2 hc
              have hw := wf_merge ht hx (by omega)
              rw [Int.min_comm]
              exact (ih xs j ⟨min x.lower tmp.lower, x.upper⟩ hlen).2
                (Canon_cons.2 ⟨hw, hxs, hcxs⟩) hcj' (by simpa using hr) hjm
    · intro hci hcj hr hm
      obtain ⟨ht, htj, hcj'⟩ := Canon_cons.1 hci
      have htm : tmp.upper ≤ m := by
        obtain ⟨w, hw, rfl⟩ := hr
        rcases List.mem_cons.1 hw with e | e
        · exact e ▸ Int.le_refl _
        · have := htj w e; have := (hcj'.wf w e).le; omega
      have hr' : tmp.upper < m → ∃ w ∈ i, w.upper = m := by
        intro hlt
        obtain ⟨w, hw, rfl⟩ := hr
        rcases List.mem_cons.1 hw with e | e
        · subst e; omega
        · exact ⟨w, e, rfl⟩
      cases j with
      | nil => rw [drain_waitJ_nil]; simpa using htm
      | cons x xs =>
        obtain ⟨hx, hxs, hcxs⟩ := Canon_cons.1 hcj
        have hlen : i.length + xs.length ≤ n := by simp at hn; omega
        have hxm := hm x (by simp)
        have hjm : ∀ y ∈ xs, y.upper < m := fun y hy => hm y (by simp [hy])
        have htle := ht.le
        have hxle := hx.le
        rw [drain_waitJ_cons _ _ hx ht]
        split
        · have := (ih i xs tmp hlen).2 hci hcxs hr hjm
          simp only [List.mem_cons]
          rintro z (e | e)
          · exact e ▸ Int.le_of_lt hxm
          · exact this z e
        · split
          · have := (ih i xs x hlen).1 hcj' hcj (hr' (by omega)) hm
            simp only [List.mem_cons]
            rintro z (e | e)
            · exact e ▸ htm
            · exact this z e
          · split
            · rename_i hc1 hc2 hc
              have hw := wf_merge hx ht hc
              exact (ih i xs ⟨min tmp.lower x.lower, tmp.upper⟩ hlen).2
                (Canon_cons.2 ⟨hw, htj, hcj'⟩) hcxs (by simpa using hr) hjm
            · rename_i hc1 hc2 hc
              have hw := wf_merge ht hx (by omega)
              rw [Int.min_comm]
              exact (ih i xs ⟨min x.lower tmp.lower, x.upper⟩ hlen).1 hcj'
                (Canon_cons.2 ⟨hw, hxs, hcxs⟩) (hr' (by omega)) (by simpa using ⟨hxm, hjm⟩)

theorem stop_new {i j : List Iv} (hi : Canon i) (hj : Canon j) (hne : j ≠ []) {x : Iv} (hx : x ∈ i)
    (h : ∀ y ∈ j, y.upper < x.upper) : ∀ z ∈ (new i j).drain, z.upper ≤ x.upper := by
  cases i with
  | nil => simp at hx
  | cons a as =>
    cases j with
    | nil => simp at hne
    | cons y ys =>
      simp only [new, drain_init_waitI _ _ _ (Canon_cons.1 hi).1 (Canon_cons.1 hj).1]
      exact (stop_wait _ x.upper (a :: as) ys y (Nat.le_refl _)).1 hi hj ⟨x, hx, rfl⟩ h

end UnionIter
/-! ## Intersection -/

/-- A well-formed interval, or one with a lower bound which is one more than its upper bound: the junk which the
intersection of touching intervals leaves. -/
structure LooseIv (i : Iv) : Prop where
  le : i.lower ≤ i.upper + 1
  lo : -INF ≤ i.lower
  hi : i.upper ≤ INF
  lo_lt : i.lower < INF
  lt_hi : -INF < i.upper

/-- A list of such intervals, in chronological order and separated. -/
structure Loose (s : List Iv) : Prop where
  wf : ∀ i ∈ s, LooseIv i
  gap : s.Pairwise (fun a b => a.upper + 1 < b.lower)

theorem Spec.WF.loose {i : Iv} (h : WF i) : LooseIv i := ⟨by have := h.le; omega, h.lo, h.hi, h.lo_lt, h.lt_hi⟩
theorem Spec.Canon.loose {s : List Iv} (h : Canon s) : Loose s := ⟨fun i hi => (h.wf i hi).loose, h.gap⟩

theorem Loose_cons {x : Iv} {xs : List Iv} :
    Loose (x :: xs) ↔ LooseIv x ∧ (∀ y ∈ xs, x.upper + 1 < y.lower) ∧ Loose xs := by
  constructor
  · rintro ⟨h1, h2⟩
    rw [List.pairwise_cons] at h2
    exact ⟨h1 x (by simp), h2.1, fun i hi => h1 i (by simp [hi]), h2.2⟩
  · rintro ⟨h1, h2, h3⟩
    refine ⟨fun i hi => ?_, List.pairwise_cons.2 ⟨h2, h3.gap⟩⟩
    rcases List.mem_cons.1 hi with e | e
    · rw [e]; exact h1
    · exact h3.wf i e

namespace InterIter

theorem next_eq (s : InterIter) : s.next = match s.step with
    | (.ret o, s') => (o, s')
    | (.loop, s') => next s' := by
  rw [next]; split <;> simp_all

theorem drain_next (s : InterIter) : s.drain = match s.next with
    | (none, _) => []
    | (some x, s') => x :: s'.drain := by
  rw [drain]; split <;> simp_all

theorem drain_eq (s : InterIter) : s.drain = match s.step with
    | (.ret none, _) => []
    | (.ret (some x), s') => x :: s'.drain
    | (.loop, s') => s'.drain := by
  rw [drain_next, next_eq]
  rcases s.step with ⟨t, s'⟩
  cases t with
  | ret o => cases o <;> rfl
  | loop => exact (drain_next s').symm

theorem drain_waitI_nil (j : List Iv) (tmp : Iv) : drain ⟨[], j, .waitI, tmp⟩ = [] := by
  rw [drain_eq]; simp only [step]
theorem drain_waitJ_nil (i : List Iv) (tmp : Iv) : drain ⟨i, [], .waitJ, tmp⟩ = [] := by
  rw [drain_eq]; simp only [step]

/-- the interval produced from two overlapping (or touching) ones -/
def meet (a b : Iv) : Iv := ⟨max a.lower b.lower, min a.upper b.upper⟩

theorem drain_waitI_cons {i tmp : Iv} (is j : List Iv) (hi : LooseIv i) (ht : LooseIv tmp) :
    drain ⟨i :: is, j, .waitI, tmp⟩ =
      if i.upper + 1 < tmp.lower then drain ⟨is, j, .waitI, tmp⟩
      else if tmp.upper + 1 < i.lower then drain ⟨is, j, .waitJ, i⟩
      else if i.upper ≤ tmp.upper then meet i tmp :: drain ⟨is, j, .waitI, tmp⟩
      else meet i tmp :: drain ⟨is, j, .waitJ, i⟩ := by
  rw [drain_eq]
  simp only [step, lt_justBefore hi.lt_hi ht.lo_lt, lt_justBefore ht.lt_hi hi.lo_lt]
  by_cases h1 : i.upper + 1 < tmp.lower
  · simp only [h1, if_true]
  · by_cases h2 : tmp.upper + 1 < i.lower
    · simp only [h1, h2, if_true, if_false]
    · by_cases h3 : i.upper ≤ tmp.upper
      · simp only [h1, h2, h3, if_true, if_false, meet]
        congr 2 <;> (try split) <;> omega
      · simp only [h1, h2, h3, if_true, if_false, meet]
        congr 2 <;> (try split) <;> omega

theorem drain_waitJ_cons {j tmp : Iv} (i js : List Iv) (hj : LooseIv j) (ht : LooseIv tmp) :
    drain ⟨i, j :: js, .waitJ, tmp⟩ =
      if j.upper + 1 < tmp.lower then drain ⟨i, js, .waitJ, tmp⟩
      else if tmp.upper + 1 < j.lower then drain ⟨i, js, .waitI, j⟩
      else if j.upper ≤ tmp.upper then meet j tmp :: drain ⟨i, js, .waitJ, tmp⟩
      else meet j tmp :: drain ⟨i, js, .waitI, j⟩ := by
  rw [drain_eq]
  simp only [step, lt_justBefore hj.lt_hi ht.lo_lt, lt_justBefore ht.lt_hi hj.lo_lt]
  by_cases h1 : j.upper + 1 < tmp.lower
  · simp only [h1, if_true]
  · by_cases h2 : tmp.upper + 1 < j.lower
    · simp only [h1, h2, if_true, if_false]
    · by_cases h3 : j.upper ≤ tmp.upper
      · simp only [h1, h2, h3, if_true, if_false, meet]
        congr 2 <;> (try split) <;> omega
      · simp only [h1, h2, h3, if_true, if_false, meet]
        congr 2 <;> (try split) <;> omega

theorem drain_init_nilI (j : List Iv) (tmp : Iv) : drain ⟨[], j, .init, tmp⟩ = [] := by
  rw [drain_eq]; simp only [step]
theorem drain_init_nilJ (i : List Iv) (tmp : Iv) : drain ⟨i, [], .init, tmp⟩ = [] := by
  rw [drain_eq]; cases i <;> simp only [step]

theorem drain_init_waitI {i j : Iv} (is js : List Iv) (tmp : Iv) (hi : LooseIv i) (hj : LooseIv j) :
    drain ⟨i :: is, j :: js, .init, tmp⟩ = drain ⟨i :: is, js, .waitI, j⟩ := by
  rw [drain_waitI_cons _ _ hi hj, drain_eq]
  simp only [step, lt_justBefore hi.lt_hi hj.lo_lt, lt_justBefore hj.lt_hi hi.lo_lt]
  by_cases h1 : i.upper + 1 < j.lower
  · simp only [h1, if_true]
  · by_cases h2 : j.upper + 1 < i.lower
    · simp only [h1, h2, if_true, if_false]
    · by_cases h3 : i.upper ≤ j.upper
      · simp only [h1, h2, h3, if_true, if_false, meet]
        congr 2 <;> (try split) <;> omega
      · simp only [h1, h2, h3, if_true, if_false, meet]
        congr 2 <;> (try split) <;> omega

theorem mem_meet {a b : Iv} (t : Int) : InIv t (meet a b) ↔ InIv t a ∧ InIv t b := by
  simp only [InIv, meet]; omega

/-- Everything known about the produced intervals: exact points, gaps, lower bound, and each is the
meet of an interval of each side that overlap or touch. -/
structure Meets (b : Int) (A B : List Iv) (d : List Iv) : Prop where
  gap : Gap d
  low : ∀ y ∈ d, b < y.lower
  pts : ∀ t, InSet t d ↔ InSet t A ∧ InSet t B
  meets : ∀ y ∈ d, ∃ x ∈ A, ∃ z ∈ B, y = meet x z ∧ ¬ x.upper + 1 < z.lower ∧ ¬ z.upper + 1 < x.lower
  full : ∀ x ∈ A, ∀ z ∈ B, ¬ x.upper + 1 < z.lower → ¬ z.upper + 1 < x.lower → meet x z ∈ d

theorem low_of_loose {x : Iv} {xs : List Iv} (h : Loose (x :: xs)) {t : Int} (ht : InSet t xs) :
    x.upper + 1 < t := by
  obtain ⟨i, hi, h1, _⟩ := ht
  have := (Loose_cons.1 h).2.1 i hi
  omega

theorem low_of_canon {x : Iv} {xs : List Iv} (h : Canon (x :: xs)) {t : Int} (ht : InSet t xs) :
    x.upper + 1 < t := low_of_loose h.loose ht

theorem Meets.nil {b : Int} {A B : List Iv} (h : A = [] ∨ B = []) : Meets b A B [] where
  gap := List.Pairwise.nil
  low := by simp
  pts := by intro t; rcases h with rfl | rfl <;> simp [InSet]
  meets := by simp
  full := by rcases h with rfl | rfl <;> simp

/-- drop the first interval of `A`, which ends before `B` starts -/
theorem Meets.skip {b : Int} {x : Iv} {A B d : List Iv} (hd : Meets b A B d)
    (h : ∀ z ∈ B, x.upper + 1 < z.lower) : Meets b (x :: A) B d where
  gap := hd.gap
  low := hd.low
  pts := by
    intro t
    rw [hd.pts, InSet_cons]
    constructor
    · rintro ⟨h1, h2⟩; exact ⟨Or.inr h1, h2⟩
    · rintro ⟨h1 | h1, h2⟩
      · obtain ⟨z, hz, h3, _⟩ := h2; have := h z hz; have := h1.2; omega
      · exact ⟨h1, h2⟩
  meets := by
    intro y hy
    obtain ⟨a, ha, r⟩ := hd.meets y hy
    exact ⟨a, List.mem_cons_of_mem _ ha, r⟩
  full := by
    intro y hy z hz h1 h2
    rcases List.mem_cons.1 hy with e | e
    · subst e; exact absurd (h z hz) h1
    · exact hd.full y e z hz h1 h2

theorem meet_comm (a b : Iv) : meet a b = meet b a := by
  simp only [meet, Int.max_comm, Int.min_comm]

theorem Meets.symm {b : Int} {A B d : List Iv} (hd : Meets b A B d) : Meets b B A d where
  gap := hd.gap
  low := hd.low
  pts := by intro t; rw [hd.pts]; exact And.comm
  meets := by
    intro y hy
    obtain ⟨a, ha, c, hc, e, h1, h2⟩ := hd.meets y hy
    exact ⟨c, hc, a, ha, by rw [e, meet_comm], h2, h1⟩
  full := fun x hx z hz h1 h2 => by rw [meet_comm]; exact hd.full z hz x hx h2 h1

/-- emit the meet of the two first intervals, and drop the one which ends first -/
theorem Meets.emit {b : Int} {x z : Iv} {A B d : List Iv} (hA : Loose (x :: A)) (hB : Loose (z :: B))
    (hd : Meets (x.upper + 1) A (z :: B) d) (hle : x.upper ≤ z.upper)
    (h1 : ¬ x.upper + 1 < z.lower) (h2 : ¬ z.upper + 1 < x.lower)
    (hb : b < x.lower ∨ b < z.lower) : Meets b (x :: A) (z :: B) (meet x z :: d) where
  gap := by
    refine List.pairwise_cons.2 ⟨fun y hy => ?_, hd.gap⟩
    have := hd.low y hy
    simp only [meet]; omega
  low := by
    intro y hy
    have := (Loose_cons.1 hA).1.le
    rcases List.mem_cons.1 hy with e | e
    · subst e; simp only [meet]; omega
    · have := hd.low y e; omega
  pts := by
    intro t
    rw [InSet_cons, mem_meet, hd.pts, InSet_cons, InSet_cons]
    constructor
    · rintro (⟨h, h'⟩ | ⟨h, h'⟩)
      · exact ⟨Or.inl h, Or.inl h'⟩
      · exact ⟨Or.inr h, h'⟩
    · rintro ⟨h | h, h'⟩
      · rcases h' with h' | h'
        · exact Or.inl ⟨h, h'⟩
        · have := low_of_loose hB h'; have := h.2; omega
      · exact Or.inr ⟨h, h'⟩
  meets := by
    intro y hy
    rcases List.mem_cons.1 hy with e | e
    · exact ⟨x, by simp, z, by simp, e, h1, h2⟩
    · obtain ⟨a, ha, r⟩ := hd.meets y e
      exact ⟨a, List.mem_cons_of_mem _ ha, r⟩
  full := by
    intro y hy w hw g1 g2
    rcases List.mem_cons.1 hy with e | e
    · subst e
      rcases List.mem_cons.1 hw with e | e
      · subst e; simp
      · have := (Loose_cons.1 hB).2.1 w e; omega
    · exact List.mem_cons_of_mem _ (hd.full y e w hw g1 g2)

theorem meets_wait (n : Nat) : ∀ (i j : List Iv) (tmp : Iv) (b : Int), i.length + j.length ≤ n →
    (Loose i → Loose (tmp :: j) → ((∀ y ∈ i, b < y.lower) ∨ (∀ y ∈ tmp :: j, b < y.lower)) →
      Meets b i (tmp :: j) (drain ⟨i, j, .waitI, tmp⟩)) ∧
    (Loose (tmp :: i) → Loose j → ((∀ y ∈ tmp :: i, b < y.lower) ∨ (∀ y ∈ j, b < y.lower)) →
      Meets b (tmp :: i) j (drain ⟨i, j, .waitJ, tmp⟩)) := by
  induction n with
  | zero =>
    intro i j tmp b hn
    have hi : i = [] := List.length_eq_zero_iff.1 (by omega)
    have hj : j = [] := List.length_eq_zero_iff.1 (by omega)
    subst hi hj
    refine ⟨fun _ _ _ => ?_, fun _ _ _ => ?_⟩
    · rw [drain_waitI_nil]; exact Meets.nil (Or.inl rfl)
    · rw [drain_waitJ_nil]; exact Meets.nil (Or.inr rfl)
  | succ n ih =>
    intro i j tmp b hn
    constructor
    · intro hci hcj hb
      cases i with
      | nil => rw [drain_waitI_nil]; exact Meets.nil (Or.inl rfl)
      | cons x xs =>
        obtain ⟨hx, hxs, hcxs⟩ := Loose_cons.1 hci
        obtain ⟨ht, htj, hcj'⟩ := Loose_cons.1 hcj
        have hlen : xs.length + j.length ≤ n := by simp at hn; omega
        have hb' : (∀ y ∈ xs, b < y.lower) ∨ (∀ y ∈ tmp :: j, b < y.lower) := by
          rcases hb with h | h
          · exact Or.inl fun y hy => h y (by simp [hy])
          · exact Or.inr h
        have hb'' : (∀ y ∈ x :: xs, b < y.lower) ∨ (∀ y ∈ j, b < y.lower) := by
          rcases hb with h | h
          · exact Or.inl h
          · exact Or.inr fun y hy => h y (by simp [hy])
        have hb3 : b < x.lower ∨ b < tmp.lower := by
          rcases hb with h | h
          · exact Or.inl (h _ (by simp))
          · exact Or.inr (h _ (by simp))
        rw [drain_waitI_cons _ _ hx ht]
        split
        · rename_i hc
          refine Meets.skip ((ih xs j tmp b hlen).1 hcxs hcj hb') (fun z hz => ?_)
          rcases List.mem_cons.1 hz with e | e
          · subst e; omega
          · have := (Loose_cons.1 hcj).2.1 z e; have := ht.le; omega
        · split
          · rename_i hc1 hc
            refine Meets.symm (Meets.skip ((ih xs j x b hlen).2 hci hcj' hb'').symm (fun z hz => ?_))
            rcases List.mem_cons.1 hz with e | e
            · subst e; omega
            · have := (Loose_cons.1 hci).2.1 z e; have := hx.le; omega
          · rename_i hc1 hc2
            split
            · rename_i hc
              exact Meets.emit hci hcj ((ih xs j tmp _ hlen).1 hcxs hcj (Or.inl hxs)) hc hc1 hc2 hb3
            · rename_i hc
              rw [meet_comm]
              exact Meets.symm (Meets.emit hcj hci ((ih xs j x _ hlen).2 hci hcj' (Or.inr htj)).symm
                (by omega) hc2 hc1 hb3.symm)
    · intro hci hcj hb
      cases j with
      | nil => rw [drain_waitJ_nil]; exact Meets.nil (Or.inr rfl)
      | cons x xs =>
        obtain ⟨hx, hxs, hcxs⟩ := Loose_cons.1 hcj
        obtain ⟨ht, htj, hcj'⟩ := Loose_cons.1 hci
        have hlen : i.length + xs.length ≤ n := by simp at hn; omega
        have hb' : (∀ y ∈ tmp :: i, b < y.lower) ∨ (∀ y ∈ xs, b < y.lower) := by
          rcases hb with h | h
          · exact Or.inl h
          · exact Or.inr fun y hy => h y (by simp [hy])
        have hb'' : (∀ y ∈ i, b < y.lower) ∨ (∀ y ∈ x :: xs, b < y.lower) := by
          rcases hb with h | h
          · exact Or.inl fun y hy => h y (by simp [hy])
          · exact Or.inr h
        have hb3 : b < x.lower ∨ b < tmp.lower := by
          rcases hb with h | h
          · exact Or.inr (h _ (by simp))
          · exact Or.inl (h _ (by simp))
        rw [drain_waitJ_cons _ _ hx ht]
        split
        · rename_i hc
          refine Meets.symm (Meets.skip ((ih i xs tmp b hlen).2 hci hcxs hb').symm (fun z hz => ?_))
          rcases List.mem_cons.1 hz with e | e
          · subst e; omega
          · have := (Loose_cons.1 hci).2.1 z e; have := ht.le; omega
        · split
          · rename_i hc1 hc
            refine Meets.skip ((ih i xs x b hlen).1 hcj' hcj hb'') (fun z hz => ?_)
            rcases List.mem_cons.1 hz with e | e
            · subst e; omega
            · have := (Loose_cons.1 hcj).2.1 z e; have := hx.le; omega
          · rename_i hc1 hc2
            split
            · rename_i hc
              exact Meets.symm (Meets.emit hcj hci ((ih i xs tmp _ hlen).2 hci hcxs
                (Or.inr hxs)).symm hc hc1 hc2 hb3)
            · rename_i hc
              rw [meet_comm]
              exact Meets.emit hci hcj ((ih i xs x _ hlen).1 hcj' hcj (Or.inl htj))
                (by omega) hc2 hc1 hb3.symm

theorem meets_loose {i j : List Iv} (hi : Loose i) (hj : Loose j) :
    ∃ b, Meets b i j (new i j).drain := by
  cases i with
  | nil => exact ⟨0, by simp only [new, drain_init_nilI]; exact Meets.nil (Or.inl rfl)⟩
  | cons x xs =>
    cases j with
    | nil => exact ⟨0, by simp only [new, drain_init_nilJ]; exact Meets.nil (Or.inr rfl)⟩
    | cons y ys =>
      have hx := Loose_cons.1 hi
      have hy := (Loose_cons.1 hj).1
      refine ⟨x.lower - 1, ?_⟩
      simp only [new, drain_init_waitI _ _ _ hx.1 hy]
      refine (meets_wait _ (x :: xs) ys y _ (Nat.le_refl _)).1 hi hj (Or.inl ?_)
      intro z hz
      rcases List.mem_cons.1 hz with e | e
      · subst e; omega
      · have := hx.2.1 z e; have := hx.1.le; omega

theorem meets_new {i j : List Iv} (hi : Canon i) (hj : Canon j) :
    ∃ b, Meets b i j (new i j).drain := meets_loose hi.loose hj.loose

end InterIter
end Chrono
