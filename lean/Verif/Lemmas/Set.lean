import Verif.Lemmas.Iter
import Verif.Spec.Set

set_option linter.unusedSimpArgs false

/-!
# Sets: uniqueness of the canonical form, complement, collecting
-/

namespace Chrono
open Spec

theorem canon_ext {a b : List Iv} (ha : Canon a) (hb : Canon b)
    (h : ∀ t, InSet t a ↔ InSet t b) : a = b := by
  induction a generalizing b with
  | nil =>
    cases b with
    | nil => rfl
    | cons y ys =>
      have := (h y.lower).2 (InSet_cons.2 (Or.inl ⟨Int.le_refl _, (Canon_cons.1 hb).1.le⟩))
      exact absurd this InSet_nil
  | cons x xs ih =>
    cases b with
    | nil =>
      have := (h x.lower).1 (InSet_cons.2 (Or.inl ⟨Int.le_refl _, (Canon_cons.1 ha).1.le⟩))
      exact absurd this InSet_nil
    | cons y ys =>
      obtain ⟨hx, _, hcx⟩ := Canon_cons.1 ha
      obtain ⟨hy, _, hcy⟩ := Canon_cons.1 hb
      have hxl := hx.le
      have hyl := hy.le
      have lx : ∀ t, InSet t xs → x.upper + 1 < t := fun t => InterIter.low_of_canon ha
      have ly : ∀ t, InSet t ys → y.upper + 1 < t := fun t => InterIter.low_of_canon hb
      have h' : ∀ t, ((x.lower ≤ t ∧ t ≤ x.upper) ∨ InSet t xs) ↔
          ((y.lower ≤ t ∧ t ≤ y.upper) ∨ InSet t ys) := by
        intro t; have := h t; simpa only [InSet_cons, InIv] using this
      have e1 : x.lower = y.lower := by
        have a1 := h' x.lower
        have a2 := h' y.lower
        have b1 := ly x.lower
        have b2 := lx y.lower
        grind
      have e2 : x.upper = y.upper := by
        have a1 := h' (x.upper + 1)
        have a2 := h' (y.upper + 1)
        have b1 := lx (x.upper + 1)
        have b2 := ly (y.upper + 1)
        grind
      have e : x = y := by cases x; cases y; simp_all
      subst e
      congr 1
      refine ih hcx hcy (fun t => ?_)
      have a := h' t
      have b1 := lx t
      have b2 := ly t
      grind

/-- away from the extreme ticks, canonical sets with the same dates are equal -/
theorem canon_ext_dates {a b : List Iv} (ha : Canon a) (hb : Canon b) (ea : NoExtreme a)
    (eb : NoExtreme b) (h : ∀ t, Date t → (InSet t a ↔ InSet t b)) : a = b := by
  have pos : ∀ s : List Iv, Canon s → NoExtreme s → (InSet INF s ↔ InSet (INF - 1) s) := by
    intro s hs es
    constructor
    · rintro ⟨i, hi, h1, h2⟩
      have := hs.wf i hi
      exact ⟨i, hi, by have := this.lo_lt; constructor <;> omega⟩
    · rintro ⟨i, hi, h1, h2⟩
      have w := hs.wf i hi
      have := es i hi
      have := w.hi
      exact ⟨i, hi, by constructor <;> omega⟩
  have neg : ∀ s : List Iv, Canon s → NoExtreme s → (InSet (-INF) s ↔ InSet (-INF + 1) s) := by
    intro s hs es
    constructor
    · rintro ⟨i, hi, h1, h2⟩
      have := hs.wf i hi
      exact ⟨i, hi, by have := this.lt_hi; constructor <;> omega⟩
    · rintro ⟨i, hi, h1, h2⟩
      have w := hs.wf i hi
      have := es i hi
      have := w.lo
      exact ⟨i, hi, by constructor <;> omega⟩
  have out : ∀ s : List Iv, Canon s → ∀ t, InSet t s → Legal t := by
    rintro s hs t ⟨i, hi, h1, h2⟩
    have w := hs.wf i hi
    have := w.lo; have := w.hi
    exact ⟨by omega, by omega⟩
  refine canon_ext ha hb (fun t => ?_)
  by_cases c : Date t
  · exact h t c
  · by_cases c1 : t = INF
    · subst c1; rw [pos a ha ea, pos b hb eb]; exact h _ (by decide)
    · by_cases c2 : t = -INF
      · subst c2; rw [neg a ha ea, neg b hb eb]; exact h _ (by decide)
      · constructor
        · intro h'; have := out a ha t h'; exfalso; ticks
        · intro h'; have := out b hb t h'; exfalso; ticks

/-! ## Complement -/

theorem complTail_spec (rest : List Iv) : ∀ (u : Int), -INF < u → u ≤ INF → Canon rest →
    (∀ y ∈ rest, u + 1 < y.lower) →
    Canon (TSet.complTail (justAfter u) rest) ∧ (∀ y ∈ TSet.complTail (justAfter u) rest, u < y.lower) ∧
    NoExtreme (TSet.complTail (justAfter u) rest) ∧
    ∀ t, Date t → (InSet t (TSet.complTail (justAfter u) rest) ↔ u < t ∧ ¬ InSet t rest) := by
  induction rest with
  | nil =>
    intro u hu hu' _ _
    simp only [TSet.complTail]
    by_cases c : u = INF ∨ u = INF - 1
    · have e : justAfter u = INF := by rw [justAfter_eq]; split <;> ticks
      rw [e, if_pos (by decide)]
      refine ⟨Canon_nil, by simp, by simp [NoExtreme], fun t ht => ?_⟩
      simp only [InSet_nil, false_iff]; ticks
    · have e : justAfter u = u + 1 := by rw [justAfter_eq]; split <;> ticks
      rw [e, if_neg (by rw [isFutureInfinite_iff]; ticks)]
      simp only [Convex.into, Convex.lower, Convex.upper]
      refine ⟨Canon_cons.2 ⟨?_, by simp, Canon_nil⟩, by simp; omega, ?_, fun t ht => ?_⟩
      · constructor <;> simp only <;> ticks
      · simp only [NoExtreme, List.mem_singleton]; rintro i rfl; simp only; ticks
      · simp only [InSet_singleton, InSet_nil, InIv]; ticks
  | cons x xs ih =>
    intro u hu hu' hc hy
    obtain ⟨hx, hxs, hcx⟩ := Canon_cons.1 hc
    have hux := hy x (by simp)
    obtain ⟨a1, a2, a3, a4⟩ := ih x.upper hx.lt_hi hx.hi hcx hxs
    obtain ⟨g1, g2, g3, g4, g5⟩ := hx
    simp only [TSet.complTail]
    have e : justAfter u = u + 1 := by rw [justAfter_eq]; split <;> ticks
    have e' : justBefore x.lower = x.lower - 1 := by rw [justBefore_eq]; split <;> ticks
    rw [e, e']
    refine ⟨Canon_cons.2 ⟨?_, ?_, a1⟩, ?_, ?_, ?_⟩
    · constructor <;> simp only <;> ticks
    · intro y hy'; have := a2 y hy'; simp only; omega
    · intro y hy'
      rcases List.mem_cons.1 hy' with r | r
      · subst r; simp only; omega
      · have := a2 y r; omega
    · intro y hy'
      rcases List.mem_cons.1 hy' with r | r
      · subst r; simp only; ticks
      · exact a3 y r
    · intro t ht
      rw [InSet_cons, a4 t ht, InSet_cons]
      have := fun h => InterIter.low_of_canon hc (t := t) h
      simp only [InIv]
      grind

theorem compl_spec {s : List Iv} (hs : Canon s) :
    Canon (TSet.compl s) ∧ NoExtreme (TSet.compl s) ∧
    ∀ t, Date t → (InSet t (TSet.compl s) ↔ ¬ InSet t s) := by
  cases s with
  | nil =>
    refine ⟨by decide, ?_, fun t ht => ?_⟩
    · intro i hi
      simp only [TSet.compl, TSet.all, List.mem_singleton] at hi
      subst hi; decide
    · simp only [TSet.compl, TSet.all, Iv.all, InSet_singleton, InSet_nil, InIv]; ticks
  | cons x xs =>
    obtain ⟨hx, hxs, hcx⟩ := Canon_cons.1 hs
    obtain ⟨a1, a2, a3, a4⟩ := complTail_spec xs x.upper hx.lt_hi hx.hi hcx hxs
    have low := fun t h => InterIter.low_of_canon hs (t := t) h
    obtain ⟨g1, g2, g3, g4, g5⟩ := hx
    simp only [TSet.compl]
    by_cases c : x.lower = -INF ∨ x.lower = -INF + 1
    · have e : justBefore x.lower = -INF := by rw [justBefore_eq]; split <;> ticks
      rw [e, if_neg (by decide)]
      refine ⟨a1, a3, fun t ht => ?_⟩
      rw [a4 t ht, InSet_cons]
      have := low t
      simp only [InIv]
      have : x.lower ≤ t := by ticks
      grind
    · have e : justBefore x.lower = x.lower - 1 := by rw [justBefore_eq]; split <;> ticks
      rw [if_pos (by
        rw [e, Bool.not_eq_true', ← Bool.not_eq_true, isPastInfinite_iff]; ticks)]
      simp only [Convex.into, Convex.lower, Convex.upper, e]
      refine ⟨Canon_cons.2 ⟨?_, ?_, a1⟩, ?_, fun t ht => ?_⟩
      · constructor <;> simp only <;> ticks
      · intro y hy; have := a2 y hy; simp only; omega
      · intro y hy
        rcases List.mem_cons.1 hy with r | r
        · subst r; simp only; ticks
        · exact a3 y r
      · rw [InSet_cons, a4 t ht, InSet_cons]
        have := low t
        have : -INF ≤ t := by ticks
        simp only [InIv]
        grind

namespace ComplIter

theorem drain_next (s : ComplIter) : s.drain = match s.next with
    | (none, _) => []
    | (some x, s') => x :: s'.drain := by
  rw [drain]; split <;> simp_all

theorem drain_mid (rest : List Iv) : ∀ (u : Int), -INF < u → u ≤ INF → Canon rest →
    (∀ y ∈ rest, u + 1 < y.lower) →
    drain ⟨rest, justAfter u⟩ = TSet.complTail (justAfter u) rest := by
  induction rest with
  | nil =>
    intro u hu hu' _ _
    have hp : isPastInfinite (justAfter u) = false := by
      rw [← Bool.not_eq_true, isPastInfinite_iff, justAfter_eq]; split <;> ticks
    rw [drain_next]
    simp only [next, hp, Bool.false_eq_true, if_false, scan, TSet.complTail]
    by_cases c : isFutureInfinite (justAfter u) = true
    · simp only [c, if_true]
    · simp only [c, if_false, Bool.false_eq_true, Convex.into, Convex.lower, Convex.upper]
      rw [drain_next]
      have h1 : isPastInfinite INF = false := by decide
      have h2 : isFutureInfinite INF = true := by decide
      simp only [next, scan, h1, h2, if_true, Bool.false_eq_true, if_false]
  | cons x xs ih =>
    intro u hu hu' hc hy
    obtain ⟨hx, hxs, hcx⟩ := Canon_cons.1 hc
    have hp : isPastInfinite (justAfter u) = false := by
      rw [← Bool.not_eq_true, isPastInfinite_iff, justAfter_eq]; split <;> ticks
    have := hy x (by simp)
    have hlt : justAfter u < x.lower := by
      obtain ⟨g1, g2, g3, g4, g5⟩ := hx
      rw [justAfter_eq]; split <;> ticks
    rw [drain_next]
    simp only [next, hp, Bool.false_eq_true, if_false, scan, TSet.complTail, hlt, if_true]
    rw [ih x.upper hx.lt_hi hx.hi hcx hxs]

theorem drain_new {s : List Iv} (hs : Canon s) : (new s).drain = TSet.compl s := by
  cases s with
  | nil =>
    rw [drain_next]
    have h0 : isPastInfinite (-INF) = true := by decide
    have h3 : isFutureInfinite (-INF) = false := by decide
    have h1 : isPastInfinite INF = false := by decide
    have h2 : isFutureInfinite INF = true := by decide
    simp only [new, next, h0, scan, h3, if_true, Bool.false_eq_true, if_false, TSet.compl, TSet.all,
      Iv.all]
    rw [drain_next]
    simp only [next, scan, h1, h2, if_true, Bool.false_eq_true, if_false]
  | cons x xs =>
    obtain ⟨hx, hxs, hcx⟩ := Canon_cons.1 hs
    have hm := drain_mid xs x.upper hx.lt_hi hx.hi hcx hxs
    have h0 : isPastInfinite (-INF) = true := by decide
    have hp : isPastInfinite (justAfter x.upper) = false := by
      obtain ⟨g1, g2, g3, g4, g5⟩ := hx
      rw [← Bool.not_eq_true, isPastInfinite_iff, justAfter_eq]; split <;> ticks
    rw [drain_next]
    simp only [new, next, h0, if_true, TSet.compl]
    by_cases c : justBefore x.lower = -INF
    · simp only [c, beq_self_eq_true, if_true, h0, Bool.not_true, Bool.false_eq_true, if_false]
      rw [← hm, drain_next ⟨xs, _⟩]
      simp only [next, hp, Bool.false_eq_true, if_false]
    · have c' : isPastInfinite (justBefore x.lower) = false := by
        rw [← Bool.not_eq_true, isPastInfinite_iff]; exact c
      simp only [c', beq_iff_eq, c, if_false, Bool.not_false, if_true, hm, Convex.into, Convex.lower,
        Convex.upper]

end ComplIter

/-! ## Collecting -/
namespace TSet

theorem upperBound_append (r : List Iv) (x : Iv) : upperBound (r ++ [x]) = x.upper := by
  simp [upperBound]

theorem foldlM_push (k : Nat) (l : List Iv) : ∀ (r : List Iv), r ≠ [] → Gap (r ++ l) →
    l.foldlM (fun r i => if i.lower > justAfter (upperBound r) then (.ok (r ++ [i]) : Res TSet)
      else fromIterFuel k (UnionIter.new r (Convex.iv i).iter).drain) r = .ok (r ++ l) := by
  induction l with
  | nil => intro r _ _; simp; rfl
  | cons x xs ih =>
    intro r hr hg
    obtain ⟨r', y, rfl⟩ := (List.eq_nil_or_concat r).resolve_left hr
    rw [List.concat_eq_append] at hr hg ⊢
    have hlt : y.upper + 1 < x.lower := by
      have := (List.pairwise_append.1 hg).2.2 y (by simp) x (by simp)
      exact this
    have hp : x.lower > justAfter (upperBound (r' ++ [y])) := by
      rw [upperBound_append, justAfter_eq]; split <;> omega
    rw [List.foldlM_cons, if_pos hp]
    show List.foldlM _ ((r' ++ [y]) ++ [x]) xs = _
    rw [ih _ (by simp) (by simpa [List.append_assoc] using hg)]
    simp

theorem fromIterFuel_id {l : List Iv} (hg : Gap l) (hne : ∀ x ∈ l, x.lower ≠ INF) (k : Nat) :
    fromIterFuel (k + 1) l = .ok l := by
  cases l with
  | nil => rfl
  | cons x xs =>
    have : ofConvex (.iv x) = [x] := by
      have h : (Convex.iv x).isEmpty = false := by
        rw [← Bool.not_eq_true, Convex.isEmpty, Iv.isEmpty_iff]; exact hne x (by simp)
      rw [ofConvex, h]; rfl
    simp only [fromIterFuel, this]
    exact foldlM_push k xs [x] (by simp) hg

/-- collecting separated intervals gives them back -/
theorem fromIter_id {l : List Iv} (hg : Gap l) (hne : ∀ x ∈ l, x.lower ≠ INF) :
    fromIter l = .ok l := fromIterFuel_id hg hne _

theorem fromIter_canon {l : List Iv} (h : Canon l) : fromIter l = .ok l :=
  fromIter_id h.gap (fun x hx => by have := (h.wf x hx).lo_lt; omega)

theorem union_eq {a b : List Iv} (ha : Canon a) (hb : Canon b) :
    union a b = .ok (UnionIter.new a b).drain := fromIter_canon (UnionIter.good_new ha hb).1

theorem inter_eq {a b : List Iv} (ha : Canon a) (hb : Canon b) :
    inter a b = .ok (InterIter.new a b).drain := by
  obtain ⟨_, h⟩ := InterIter.meets_new ha hb
  refine fromIter_id h.gap (fun y hy => ?_)
  obtain ⟨x, hx, z, hz, e, _, _⟩ := h.meets y hy
  have := (ha.wf x hx).lo_lt
  have := (hb.wf z hz).lo_lt
  subst e
  simp only [InterIter.meet]; omega

/-- union with one more interval, when every interval but the last ends before it does -/
theorem union_one {r : List Iv} {i : Iv} (hr : Canon r) (hi : WF i)
    (h : ∀ z ∈ r.dropLast, z.upper < i.upper) :
    Canon (UnionIter.new r [i]).drain ∧
    ∀ t, InSet t (UnionIter.new r [i]).drain ↔ InSet t r ∨ InIv t i := by
  have hci : Canon [i] := Canon_cons.2 ⟨hi, by simp, Canon_nil⟩
  obtain ⟨h1, h2⟩ := UnionIter.good_new hr hci
  refine ⟨h1, fun t => ⟨fun ht => ?_, fun ht => ?_⟩⟩
  · simpa only [InSet_singleton] using h2 t ht
  · exact UnionIter.complete_new hr hci (Or.inr fun x hx => ⟨i, by simp, h x hx⟩) t
      (by simpa only [InSet_singleton] using ht)

theorem iter_wf {i : Iv} (hi : WF i) : (Convex.iv i).iter = [i] := by
  have : (Convex.iv i).isEmpty = false := hi.not_isEmpty
  rw [Convex.iter, this]; rfl

theorem canon_push {r : List Iv} {i : Iv} (hr : Canon r) (hi : WF i)
    (h : i.lower > justAfter (upperBound r)) : Canon (r ++ [i]) := by
  refine ⟨?_, ?_⟩
  · intro x hx
    rcases List.mem_append.1 hx with e | e
    · exact hr.wf x e
    · simp only [List.mem_singleton] at e; exact e ▸ hi
  · refine List.pairwise_append.2 ⟨hr.gap, by simp, ?_⟩
    intro x hx y hy
    simp only [List.mem_singleton] at hy
    subst hy
    obtain ⟨r', z, rfl⟩ := (List.eq_nil_or_concat r).resolve_left (by rintro rfl; simp at hx)
    rw [List.concat_eq_append] at hr hx h
    rw [upperBound_append] at h
    have hz := hr.wf z (by simp)
    have : z.upper + 1 < y.lower := by
      obtain ⟨g1, g2, g3, g4, g5⟩ := hz
      obtain ⟨k1, k2, k3, k4, k5⟩ := hi
      rw [justAfter_eq] at h; split at h <;> ticks
    rcases List.mem_append.1 hx with e | e
    · have := (List.pairwise_append.1 hr.gap).2.2 x e z (by simp)
      have := hz.le
      omega
    · simp only [List.mem_singleton] at e; subst e; exact this

/-- one step of the collecting fold -/
theorem collect_step (k : Nat) {r : List Iv} {i : Iv} (hr : Canon r) (hi : WF i)
    (h : ∀ z ∈ r.dropLast, z.upper < i.upper) :
    ∃ r', (if i.lower > justAfter (upperBound r) then (.ok (r ++ [i]) : Res TSet)
      else fromIterFuel (k + 1) (UnionIter.new r (Convex.iv i).iter).drain) = .ok r' ∧ Canon r' ∧
      ∀ t, InSet t r' ↔ InSet t r ∨ InIv t i := by
  split
  · rename_i hc
    exact ⟨_, rfl, canon_push hr hi hc, fun t => by rw [InSet_append, InSet_singleton]⟩
  · rw [iter_wf hi]
    obtain ⟨h1, h2⟩ := union_one hr hi h
    exact ⟨_, fromIterFuel_id h1.gap (fun x hx => by have := (h1.wf x hx).lo_lt; omega) k, h1, h2⟩

theorem unionConvex_step {r : List Iv} {i : Iv} (hr : Canon r) (hi : WF i)
    (h : ∀ z ∈ r.dropLast, z.upper < i.upper) :
    ∃ r', unionConvex r (.iv i) = .ok r' ∧ Canon r' ∧ ∀ t, InSet t r' ↔ InSet t r ∨ InIv t i := by
  have : (Convex.iv (Convex.iv i).into).iter = [i] := iter_wf hi
  rw [unionConvex, this]
  obtain ⟨h1, h2⟩ := union_one hr hi h
  exact ⟨_, fromIter_canon h1, h1, h2⟩

/-- the lower bounds of a canonical set are lower bounds of the intervals it was made from -/
theorem lower_of_pts {r P : List Iv} (hr : Canon r) (h : ∀ t, InSet t r ↔ InSet t P) {x : Iv}
    (hx : x ∈ r) : ∃ a ∈ P, a.lower = x.lower := by
  have hxle := (hr.wf x hx).le
  obtain ⟨a, ha, h1, h2⟩ := (h x.lower).1 ⟨x, hx, Int.le_refl _, hxle⟩
  refine ⟨a, ha, ?_⟩
  by_cases c : a.lower = x.lower
  · exact c
  · have hlt : a.lower < x.lower := by omega
    obtain ⟨y, hy, h3, h4⟩ := (h (x.lower - 1)).2 ⟨a, ha, by omega, by omega⟩
    have hg : x = y ∨ x.upper + 1 < y.lower ∨ y.upper + 1 < x.lower := by
      have hr' := hr.gap
      clear hr h
      induction r with
      | nil => simp at hx
      | cons z zs ih =>
        rw [List.pairwise_cons] at hr'
        rcases List.mem_cons.1 hx with e1 | e1 <;> rcases List.mem_cons.1 hy with e2 | e2
        · left; rw [e1, e2]
        · subst e1; right; left; exact hr'.1 y e2
        · subst e2; right; right; exact hr'.1 x e1
        · exact ih e1 e2 hr'.2
    rcases hg with e | e | e
    · subst e; omega
    · omega
    · omega

theorem dropLast_lt {r : List Iv} (hr : Canon r) {z : Iv} (hz : z ∈ r.dropLast) :
    ∃ l ∈ r, z.upper + 1 < l.lower := by
  obtain ⟨r', y, rfl⟩ := (List.eq_nil_or_concat r).resolve_left (by rintro rfl; simp at hz)
  rw [List.concat_eq_append] at hr hz ⊢
  rw [List.dropLast_concat] at hz
  exact ⟨y, by simp, (List.pairwise_append.1 hr.gap).2.2 z hz y (by simp)⟩

theorem foldlM_collect (f : List Iv → Iv → Res (List Iv))
    (hf : ∀ r i, Canon r → WF i → (∀ z ∈ r.dropLast, z.upper < i.upper) →
      ∃ r', f r i = .ok r' ∧ Canon r' ∧ ∀ t, InSet t r' ↔ InSet t r ∨ InIv t i) (l : List Iv) :
    ∀ (P r : List Iv), Canon r → (∀ t, InSet t r ↔ InSet t P) →
      (∀ a ∈ P, ∀ b ∈ l, a.lower ≤ b.upper) → l.Pairwise (fun a b => a.lower ≤ b.upper) →
      (∀ b ∈ l, WF b) →
      ∃ r', l.foldlM f r = .ok r' ∧ Canon r' ∧ ∀ t, InSet t r' ↔ InSet t P ∨ InSet t l := by
  induction l with
  | nil =>
    intro P r hr hp _ _ _
    exact ⟨r, rfl, hr, fun t => by rw [hp]; simp [InSet_nil]⟩
  | cons x xs ih =>
    intro P r hr hp ho hpw hwf
    rw [List.pairwise_cons] at hpw
    obtain ⟨r1, e1, c1, p1⟩ := hf r x hr (hwf x (by simp)) (fun z hz => by
      obtain ⟨l, hl, hlt⟩ := dropLast_lt hr hz
      obtain ⟨a, ha, e⟩ := lower_of_pts hr hp hl
      have := ho a ha x (by simp)
      omega)
    obtain ⟨r2, e2, c2, p2⟩ := ih (P ++ [x]) r1 c1
      (fun t => by rw [p1, hp, InSet_append, InSet_singleton])
      (fun a ha b hb => by
        rcases List.mem_append.1 ha with e | e
        · exact ho a e b (by simp [hb])
        · simp only [List.mem_singleton] at e; subst e; exact hpw.1 b hb)
      hpw.2 (fun b hb => hwf b (by simp [hb]))
    refine ⟨r2, ?_, c2, fun t => ?_⟩
    · rw [List.foldlM_cons, e1]; exact e2
    · rw [p2, InSet_append, InSet_singleton, InSet_cons, or_assoc]

/-- collecting well-formed intervals, none of which ends before an earlier one starts -/
theorem fromIter_collect {l : List Iv} (hwf : ∀ b ∈ l, WF b)
    (ho : l.Pairwise (fun a b => a.lower ≤ b.upper)) :
    ∃ r, fromIter l = .ok r ∧ Canon r ∧ ∀ t, InSet t r ↔ InSet t l := by
  cases l with
  | nil => exact ⟨[], rfl, Canon_nil, fun t => Iff.rfl⟩
  | cons x xs =>
    rw [List.pairwise_cons] at ho
    have hx := hwf x (by simp)
    have e : ofConvex (.iv x) = [x] := iter_wf hx
    have hc : Canon [x] := Canon_cons.2 ⟨hx, by simp, Canon_nil⟩
    obtain ⟨r, h1, h2, h3⟩ := foldlM_collect _ (fun r i hr hi h => collect_step (xs.length + 1) hr hi h) xs
      [x] [x] hc (fun t => Iff.rfl) (by simpa using ho.1) ho.2 (fun b hb => hwf b (by simp [hb]))
    refine ⟨r, ?_, h2, fun t => by rw [h3, InSet_singleton, InSet_cons]⟩
    simp only [fromIter, List.length_cons, fromIterFuel, e]
    exact h1

end TSet

theorem ok_bind {α β : Type} (a : α) (f : α → Res β) : ((.ok a : Res α) >>= f) = f a := rfl

theorem mapM_ok {α β : Type} {g : α → Res β} {h : α → β} {l : List α}
    (hg : ∀ i ∈ l, g i = .ok (h i)) : l.mapM g = .ok (l.map h) := by
  induction l with
  | nil => rfl
  | cons x xs ih =>
    rw [List.mapM_cons, hg x (by simp), ih (fun i hi => hg i (by simp [hi]))]
    rfl

theorem foldlM_map_ok {α β γ : Type} {g : α → Res β} {h : α → β} {F : γ → β → Res γ} {l : List α}
    (hg : ∀ i ∈ l, g i = .ok (h i)) (r : γ) :
    l.foldlM (fun r i => do F r (← g i)) r = (l.map h).foldlM F r := by
  induction l generalizing r with
  | nil => rfl
  | cons x xs ih =>
    rw [List.foldlM_cons, List.map_cons, List.foldlM_cons, hg x (by simp)]
    show (do let init ← F r (h x); List.foldlM _ init xs) = _
    congr 1
    funext r'
    exact ih (fun i hi => hg i (by simp [hi])) r'

end Chrono
