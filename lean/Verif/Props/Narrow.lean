import Verif.Spec.Narrow
import Verif.Props.SetLaws
import Verif.Props.Set
import Verif.Props.Interval
import Verif.Lemmas.MirrorSched
import Verif.Lemmas.SchedLoose
import Verif.Lemmas.SetRel

set_option linter.unusedSimpArgs false

/-!
# Expressions which narrow sets (C151)

The intersection of two sets which touch holds an interval without any date (see C33); these theorems say what can still be done with it.
-/

namespace Chrono
open Spec

/-! ## Helper lemmas -/

theorem loose_date {s : List Iv} (h : Loose s) {t : Int} (ht : Date t) : InExtSet t s ↔ InSet t s := by
  rw [loose_extSet h.wf t, if_neg (by have := ht.2; omega), if_neg (by have := ht.1; omega)]

theorem inter_dates {a b : List Iv} (ha : Loose a) (hb : Loose b) :
    ∃ r, TSet.inter a b = .ok r ∧ Loose r ∧ ∀ t, Date t → (InSet t r ↔ InSet t a ∧ InSet t b) := by
  obtain ⟨r, e, l, m, -⟩ := inter_loose ha hb
  refine ⟨r, e, l, fun t ht => ?_⟩
  rw [← loose_date l ht, ← loose_date ha ht, ← loose_date hb ht]
  exact m t

theorem interConvex_dates {a : List Iv} (ha : Loose a) {w : Convex} (hw : Spec.Proper w) :
    ∃ r, TSet.interConvex a w = .ok r ∧ Loose r ∧ ∀ t, Date t → (InSet t r ↔ InSet t a ∧ InConvex t w) := by
  rcases hw.cases with ⟨e1, e2, e3, e4, e5⟩ | ⟨e1, e2, e3, e4⟩
  · have : (Convex.iv w.into).iter = [] := by rw [e4]; decide
    rw [TSet.interConvex, this]
    obtain ⟨r, e, l, m⟩ := inter_dates ha Canon_nil.loose
    refine ⟨r, e, l, fun t ht => ?_⟩
    rw [m t ht]
    simp [InSet_nil, e5 t ht]
  · have : (Convex.iv w.into).iter = [⟨w.lower, w.upper⟩] := by rw [e3]; exact TSet.iter_wf e2
    have hc : Canon [⟨w.lower, w.upper⟩] := Canon_cons.2 ⟨e2, by simp, Canon_nil⟩
    rw [TSet.interConvex, this]
    obtain ⟨r, e, l, m⟩ := inter_dates ha hc.loose
    refine ⟨r, e, l, fun t ht => ?_⟩
    rw [m t ht, e4 t ht, InSet_singleton]; rfl

theorem interAssign_dates {a : List Iv} (ha : Loose a) {w : Convex} (hw : Spec.Proper w) :
    Loose (TSet.interAssignConvex a w) ∧ ∀ t, Date t → (InSet t (TSet.interAssignConvex a w) ↔ InSet t a ∧ InConvex t w) := by
  rcases hw.cases with ⟨e1, e2, e3, e4, e5⟩ | ⟨e1, e2, e3, e4⟩
  · rw [interAssign_empty ha e2 e3]
    exact ⟨Canon_nil.loose, fun t ht => by simp [InSet_nil, e5 t ht]⟩
  · have h1 := e2.lo
    have h2 := e2.hi
    have h3 := e2.lo_lt
    have h4 := e2.lt_hi
    simp only at h1 h2 h3 h4
    obtain ⟨l, m, -⟩ := truncateAfter_loose ha h4 h2
    obtain ⟨l', m', -⟩ := truncateBefore_loose l h1 h3
    refine ⟨l', fun t ht => ?_⟩
    rw [TSet.interAssignConvex, m', m, e4 t ht]
    constructor
    · rintro ⟨⟨p, q⟩, r⟩; exact ⟨p, r, q⟩
    · rintro ⟨p, r, q⟩; exact ⟨⟨p, q⟩, r⟩

/-- the value of an expression is sorted, with intervals which hold at least no less than nothing -/
theorem narrow_spec (e : Narrow) (h : e.Proper) :
    ∃ r, e.eval = .ok r ∧ Loose r ∧ ∀ t, Date t → (InSet t r ↔ e.Has t) := by
  induction e with
  | set s => exact ⟨s, rfl, Canon.loose h, fun t _ => Iff.rfl⟩
  | inter a b iha ihb =>
    obtain ⟨x, a1, a2, a3⟩ := iha h.1
    obtain ⟨y, b1, b2, b3⟩ := ihb h.2
    obtain ⟨r, e, l, m⟩ := inter_dates a2 b2
    refine ⟨r, ?_, l, fun t ht => ?_⟩
    · rw [Narrow.eval, a1, ok_bind, b1, ok_bind]; exact e
    · rw [m t ht, a3 t ht, b3 t ht]; rfl
  | interWith a w iha =>
    obtain ⟨x, a1, a2, a3⟩ := iha h.1
    obtain ⟨r, e, l, m⟩ := interConvex_dates a2 h.2
    refine ⟨r, ?_, l, fun t ht => ?_⟩
    · rw [Narrow.eval, a1, ok_bind]; exact e
    · rw [m t ht, a3 t ht]; rfl
  | assign a w iha =>
    obtain ⟨x, a1, a2, a3⟩ := iha h.1
    obtain ⟨l, m⟩ := interAssign_dates a2 h.2
    refine ⟨_, ?_, l, fun t ht => ?_⟩
    · rw [Narrow.eval, a1, ok_bind]; rfl
    · rw [m t ht, a3 t ht]; rfl
  | before a c iha =>
    obtain ⟨x, a1, a2, a3⟩ := iha h.1
    obtain ⟨l, m, -⟩ := truncateBefore_loose a2 h.2.1 h.2.2
    refine ⟨_, ?_, l, fun t ht => ?_⟩
    · rw [Narrow.eval, a1, ok_bind]; rfl
    · rw [m t, a3 t ht]; rfl
  | after a c iha =>
    obtain ⟨x, a1, a2, a3⟩ := iha h.1
    obtain ⟨l, m, -⟩ := truncateAfter_loose a2 h.2.1 h.2.2
    refine ⟨_, ?_, l, fun t ht => ?_⟩
    · rw [Narrow.eval, a1, ok_bind]; rfl
    · rw [m t, a3 t ht]; rfl
  | neg a iha =>
    obtain ⟨x, a1, a2, a3⟩ := iha h
    refine ⟨_, ?_, loose_neg a2, fun t ht => ?_⟩
    · rw [Narrow.eval, a1, ok_bind]; rfl
    · rw [inSet_neg, a3 (-t) ⟨by have := ht.2; omega, by have := ht.1; omega⟩]; rfl

/-- looking a window up in a sorted set -/
theorem contains_loose_iff {s : List Iv} (hs : Loose s) (w : Convex) :
    TSet.contains s w = true ↔ ∃ i ∈ s, i.upper ≥ w.lower ∧ i.lower ≤ w.lower ∧ w.upper ≤ i.upper := by
  induction s with
  | nil => simp [TSet.contains]
  | cons x xs ih =>
    obtain ⟨hx, hxs, hcx⟩ := Loose_cons.1 hs
    by_cases c : x.upper ≥ w.lower
    · have : TSet.contains (x :: xs) w = (Convex.iv x).contains w := by
        simp [TSet.contains, List.find?_cons, c]
      rw [this]
      have e : (Convex.iv x).contains w = true ↔ (x.lower ≤ w.lower ∧ w.upper ≤ x.upper) := by
        have e1 : (Convex.iv x).lower = x.lower := rfl
        have e2 : (Convex.iv x).upper = x.upper := rfl
        simp only [Convex.contains, Convex.containsBounds, Bool.and_eq_true, decide_eq_true_eq, e1, e2]
      rw [e]
      constructor
      · rintro ⟨h1, h2⟩; exact ⟨x, by simp, c, h1, h2⟩
      · rintro ⟨i, hi, h0, h1, h2⟩
        rcases List.mem_cons.1 hi with e | e
        · subst e; exact ⟨h1, h2⟩
        · have := hxs i e; omega
    · have : TSet.contains (x :: xs) w = TSet.contains xs w := by
        simp [TSet.contains, List.find?_cons, c]
      rw [this, ih hcx]
      constructor
      · rintro ⟨i, hi, h⟩; exact ⟨i, by simp [hi], h⟩
      · rintro ⟨i, hi, h⟩
        rcases List.mem_cons.1 hi with e | e
        · subst e; exact absurd h.1 c
        · exact ⟨i, e, h⟩

/-- dates in a row of a sorted set are in one interval -/
theorem row_in_one {s : List Iv} (hs : Loose s) {l : Int} : ∀ (n : Nat), (∀ t, l ≤ t → t ≤ l + n → InSet t s) →
    ∃ i ∈ s, i.lower ≤ l ∧ l + n ≤ i.upper
  | 0, h => by
    obtain ⟨i, hi, h1, h2⟩ := h l (by omega) (by omega)
    exact ⟨i, hi, h1, by omega⟩
  | n + 1, h => by
    obtain ⟨i, hi, h1, h2⟩ := row_in_one hs n (fun t a b => h t a (by omega))
    obtain ⟨j, hj, k1, k2⟩ := h (l + (n + 1 : Nat)) (by omega) (by omega)
    by_cases c : l + (n + 1 : Nat) ≤ i.upper
    · exact ⟨i, hi, h1, c⟩
    · exfalso
      have gap : i = j ∨ i.upper + 1 < j.lower ∨ j.upper + 1 < i.lower := by
        rcases List.getElem_of_mem hi with ⟨p, hp, rfl⟩
        rcases List.getElem_of_mem hj with ⟨q, hq, rfl⟩
        rcases Nat.lt_trichotomy p q with c | c | c
        · exact Or.inr (Or.inl (List.pairwise_iff_getElem.1 hs.gap p q hp hq c))
        · subst c; exact Or.inl rfl
        · exact Or.inr (Or.inr (List.pairwise_iff_getElem.1 hs.gap q p hq hp c))
      rcases gap with rfl | g | g <;> omega

/-! ## C151 -/

/-- C151. An expression which narrows sets (intersections, truncations and negations, to any depth) never panics and has exactly the dates
it is meant to have, even though sets which touch leave an interval without any date in the values on the way. -/
theorem C151_dates (e : Narrow) (h : e.Proper) : ∃ r, e.eval = .ok r ∧ ∀ t, Date t → (InSet t r ↔ e.Has t) := by
  obtain ⟨r, h1, -, h2⟩ := narrow_spec e h
  exact ⟨r, h1, h2⟩

/-- C151. Such a value is asked in vain for nothing: it contains a date iff the date is meant to be there, and it contains the dates from
`l` to `u` iff all of them are. -/
theorem C151_contains (e : Narrow) (h : e.Proper) {r : TSet} (hr : e.eval = .ok r) :
    (∀ t, Date t → (TSet.contains r (.point t) = true ↔ e.Has t)) ∧
    ∀ l u, Date l → Date u → l ≤ u → (TSet.contains r (.rangeIncl l u) = true ↔ ∀ t, l ≤ t → t ≤ u → e.Has t) := by
  obtain ⟨r', h1, h2, h3⟩ := narrow_spec e h
  rw [hr] at h1
  cases h1
  refine ⟨fun t ht => ?_, fun l u hl hu le => ?_⟩
  · rw [contains_loose_iff h2, ← h3 t ht]
    show (∃ i ∈ r, i.upper ≥ t ∧ i.lower ≤ t ∧ t ≤ i.upper) ↔ _
    constructor
    · rintro ⟨i, hi, a, b, c⟩; exact ⟨i, hi, b, c⟩
    · rintro ⟨i, hi, b, c⟩; exact ⟨i, hi, c, b, c⟩
  · rw [contains_loose_iff h2]
    have e1 : (Convex.rangeIncl l u).lower = l := by
      simp only [Convex.lower]; split <;> omega
    have e2 : (Convex.rangeIncl l u).upper = u := by
      simp only [Convex.upper]; split <;> omega
    rw [e1, e2]
    have hd : ∀ t, l ≤ t → t ≤ u → Date t := fun t a b => ⟨by have := hl.1; omega, by have := hu.2; omega⟩
    constructor
    · rintro ⟨i, hi, a, b, c⟩ t p q
      exact (h3 t (hd t p q)).1 ⟨i, hi, by omega, by omega⟩
    · intro w
      obtain ⟨i, hi, a, b⟩ := row_in_one h2 (l := l) (u - l).toNat fun t p q =>
        (h3 t (hd t p (by omega))).2 (w t p (by omega))
      exact ⟨i, hi, by omega, by omega, by omega⟩

/-! ### Order and grouping of intersections -/

/-- `y` is the common part of intervals taken from each of the sets -/
structure Common (L : List TSet) (f : TSet → Iv) (y : Iv) : Prop where
  mem : ∀ s ∈ L, f s ∈ s
  lo : ∀ s ∈ L, (f s).lower ≤ y.lower
  lo_at : ∃ s ∈ L, (f s).lower = y.lower
  hi : ∀ s ∈ L, y.upper ≤ (f s).upper
  hi_at : ∃ s ∈ L, (f s).upper = y.upper
  le : y.lower ≤ y.upper + 1

theorem common_sets {L L' : List TSet} (h : ∀ s, s ∈ L ↔ s ∈ L') {f : TSet → Iv} {y : Iv} (c : Common L f y) : Common L' f y := by
  obtain ⟨s, hs, e⟩ := c.lo_at
  obtain ⟨z, hz, e'⟩ := c.hi_at
  exact ⟨fun s hs => c.mem s ((h s).2 hs), fun s hs => c.lo s ((h s).2 hs), ⟨s, (h s).1 hs, e⟩, fun s hs => c.hi s ((h s).2 hs),
    ⟨z, (h z).1 hz, e'⟩, c.le⟩

theorem loose_apart {s : List Iv} (hs : Loose s) {i j : Iv} (hi : i ∈ s) (hj : j ∈ s) :
    i = j ∨ i.upper + 1 < j.lower ∨ j.upper + 1 < i.lower := by
  rcases List.getElem_of_mem hi with ⟨p, hp, rfl⟩
  rcases List.getElem_of_mem hj with ⟨q, hq, rfl⟩
  rcases Nat.lt_trichotomy p q with c | c | c
  · exact Or.inr (Or.inl (List.pairwise_iff_getElem.1 hs.gap p q hp hq c))
  · subst c; exact Or.inl rfl
  · exact Or.inr (Or.inr (List.pairwise_iff_getElem.1 hs.gap q p hq hp c))

theorem common_of {f : TSet → Iv} : ∀ {L : List TSet}, L ≠ [] → ∃ p : Iv, (∀ s ∈ L, (f s).lower ≤ p.lower) ∧
    (∃ s ∈ L, (f s).lower = p.lower) ∧ (∀ s ∈ L, p.upper ≤ (f s).upper) ∧ ∃ s ∈ L, (f s).upper = p.upper
  | [], h => absurd rfl h
  | [x], _ => ⟨f x, by simp, by simp, by simp, by simp⟩
  | x :: y :: L, _ => by
    obtain ⟨p, h1, ⟨s, hs, e⟩, h3, ⟨z, hz, e'⟩⟩ := common_of (f := f) (L := y :: L) (by simp)
    refine ⟨⟨max (f x).lower p.lower, min (f x).upper p.upper⟩, ?_, ?_, ?_, ?_⟩
    · intro w hw
      simp only
      rcases List.mem_cons.1 hw with rfl | hw
      · omega
      · have := h1 w hw; omega
    · by_cases c : p.lower ≤ (f x).lower
      · exact ⟨x, by simp, by simp only; omega⟩
      · exact ⟨s, List.mem_cons.2 (Or.inr hs), by simp only; omega⟩
    · intro w hw
      simp only
      rcases List.mem_cons.1 hw with rfl | hw
      · omega
      · have := h3 w hw; omega
    · by_cases c : (f x).upper ≤ p.upper
      · exact ⟨x, by simp, by simp only; omega⟩
      · exact ⟨z, List.mem_cons.2 (Or.inr hz), by simp only; omega⟩

theorem sets_ne (n : Nest) : n.sets ≠ [] := by
  induction n with
  | set s => simp [Nest.sets]
  | inter a b iha _ => simp [Nest.sets, iha]

theorem nest_spec (n : Nest) (h : ∀ s ∈ n.sets, Loose s) :
    ∃ r, n.eval = .ok r ∧ Loose r ∧ ∀ y, y ∈ r ↔ ∃ f, Common n.sets f y := by
  induction n with
  | set s =>
    have ls := h s (by simp [Nest.sets])
    refine ⟨s, rfl, ls, fun y => ⟨fun hy => ⟨fun _ => y, ?_⟩, ?_⟩⟩
    · have := (ls.wf y hy).le
      have one : ∀ z ∈ (Nest.set s).sets, z = s := fun z hz => List.mem_singleton.1 hz
      have ex : s ∈ (Nest.set s).sets := List.mem_singleton.2 rfl
      exact ⟨fun z hz => by rw [one z hz]; exact hy, fun _ _ => Int.le_refl _, ⟨s, ex, rfl⟩, fun _ _ => Int.le_refl _, ⟨s, ex, rfl⟩,
        this⟩
    · rintro ⟨f, c⟩
      obtain ⟨z, hz, e⟩ := c.lo_at
      obtain ⟨z', hz', e'⟩ := c.hi_at
      simp only [Nest.sets, List.mem_singleton] at hz hz'
      rw [hz] at e
      rw [hz'] at e'
      have m := c.mem s (by simp [Nest.sets])
      have : f s = y := by
        rw [show y = ⟨y.lower, y.upper⟩ from rfl, ← e, ← e']
      rwa [this] at m
  | inter a b iha ihb =>
    obtain ⟨x, a1, a2, a3⟩ := iha fun s hs => h s (List.mem_append.2 (Or.inl hs))
    obtain ⟨z, b1, b2, b3⟩ := ihb fun s hs => h s (List.mem_append.2 (Or.inr hs))
    obtain ⟨r, e, l, m⟩ := inter_mem a2 b2
    refine ⟨r, ?_, l, fun y => (m y).trans ⟨?_, ?_⟩⟩
    · rw [Nest.eval, a1, ok_bind, b1, ok_bind]; exact e
    · rintro ⟨p, hp, q, hq, g1, g2, rfl⟩
      obtain ⟨f, cf⟩ := (a3 p).1 hp
      obtain ⟨g, cg⟩ := (b3 q).1 hq
      have lp := (a2.wf p hp).le
      have lq := (b2.wf q hq).le
      have key : ∀ s, s ∈ a.sets → s ∈ b.sets → f s = g s := by
        intro s hs hs'
        have k1 := cf.lo s hs
        have k2 := cf.hi s hs
        have k3 := cg.lo s hs'
        have k4 := cg.hi s hs'
        rcases loose_apart (h s (List.mem_append.2 (Or.inl hs))) (cf.mem s hs) (cg.mem s hs') with k | k | k
        · exact k
        · omega
        · omega
      refine ⟨fun s => if s ∈ a.sets then f s else g s, ?_⟩
      have fa : ∀ s, s ∈ a.sets → (if s ∈ a.sets then f s else g s) = f s := fun s hs => if_pos hs
      have fb : ∀ s, s ∈ b.sets → (if s ∈ a.sets then f s else g s) = g s := by
        intro s hs
        by_cases c : s ∈ a.sets
        · rw [if_pos c, key s c hs]
        · rw [if_neg c]
      obtain ⟨sl, hsl, esl⟩ := cf.lo_at
      obtain ⟨su, hsu, esu⟩ := cf.hi_at
      obtain ⟨tl, htl, etl⟩ := cg.lo_at
      obtain ⟨tu, htu, etu⟩ := cg.hi_at
      constructor
      · intro s hs
        rcases List.mem_append.1 hs with hs | hs
        · rw [fa s hs]; exact cf.mem s hs
        · rw [fb s hs]; exact cg.mem s hs
      · intro s hs
        rcases List.mem_append.1 hs with hs | hs
        · rw [fa s hs]; have := cf.lo s hs; simp only [InterIter.meet]; omega
        · rw [fb s hs]; have := cg.lo s hs; simp only [InterIter.meet]; omega
      · by_cases c : q.lower ≤ p.lower
        · exact ⟨sl, List.mem_append.2 (Or.inl hsl), by rw [fa sl hsl]; simp only [InterIter.meet]; omega⟩
        · exact ⟨tl, List.mem_append.2 (Or.inr htl), by rw [fb tl htl]; simp only [InterIter.meet]; omega⟩
      · intro s hs
        rcases List.mem_append.1 hs with hs | hs
        · rw [fa s hs]; have := cf.hi s hs; simp only [InterIter.meet]; omega
        · rw [fb s hs]; have := cg.hi s hs; simp only [InterIter.meet]; omega
      · by_cases c : p.upper ≤ q.upper
        · exact ⟨su, List.mem_append.2 (Or.inl hsu), by rw [fa su hsu]; simp only [InterIter.meet]; omega⟩
        · exact ⟨tu, List.mem_append.2 (Or.inr htu), by rw [fb tu htu]; simp only [InterIter.meet]; omega⟩
      · simp only [InterIter.meet]; omega
    · rintro ⟨f, c⟩
      obtain ⟨p, p1, ⟨p2, p2m, p2e⟩, p3, ⟨p4, p4m, p4e⟩⟩ := common_of (f := f) (sets_ne a)
      obtain ⟨q, q1, ⟨q2, q2m, q2e⟩, q3, ⟨q4, q4m, q4e⟩⟩ := common_of (f := f) (sets_ne b)
      have il : ∀ s, s ∈ a.sets → s ∈ (Nest.inter a b).sets := fun s hs => List.mem_append.2 (Or.inl hs)
      have ir : ∀ s, s ∈ b.sets → s ∈ (Nest.inter a b).sets := fun s hs => List.mem_append.2 (Or.inr hs)
      have k1 := c.lo p2 (il p2 p2m)
      have k2 := c.lo q2 (ir q2 q2m)
      have k3 := c.hi p4 (il p4 p4m)
      have k4 := c.hi q4 (ir q4 q4m)
      have k5 := c.le
      have lo : y.lower = max p.lower q.lower := by
        obtain ⟨s, hs, e⟩ := c.lo_at
        rcases List.mem_append.1 hs with hs | hs
        · have := p1 s hs; omega
        · have := q1 s hs; omega
      have hi : y.upper = min p.upper q.upper := by
        obtain ⟨s, hs, e⟩ := c.hi_at
        rcases List.mem_append.1 hs with hs | hs
        · have := p3 s hs; omega
        · have := q3 s hs; omega
      refine ⟨p, (a3 p).2 ⟨f, fun s hs => c.mem s (il s hs), p1, ⟨p2, p2m, p2e⟩, p3, ⟨p4, p4m, p4e⟩, by omega⟩,
        q, (b3 q).2 ⟨f, fun s hs => c.mem s (ir s hs), q1, ⟨q2, q2m, q2e⟩, q3, ⟨q4, q4m, q4e⟩, by omega⟩, by omega, by omega, ?_⟩
      rw [show y = ⟨y.lower, y.upper⟩ from rfl, lo, hi]
      rfl

/-- C151. However the intersections of the same sets are ordered, grouped and repeated, they give the same value. -/
theorem C151_regroup (n m : Nest) (hn : ∀ s ∈ n.sets, Canon s) (h : ∀ s, s ∈ n.sets ↔ s ∈ m.sets) :
    n.eval = m.eval ∧ ∃ r, n.eval = .ok r := by
  obtain ⟨r, e, l, c⟩ := nest_spec n fun s hs => (hn s hs).loose
  obtain ⟨r', e', l', c'⟩ := nest_spec m fun s hs => (hn s ((h s).2 hs)).loose
  have : r = r' := by
    refine gap_ext l l' fun y => ?_
    rw [c, c']
    exact ⟨fun ⟨f, k⟩ => ⟨f, common_sets h k⟩, fun ⟨f, k⟩ => ⟨f, common_sets (fun s => (h s).symm) k⟩⟩
  rw [e, e', this]
  exact ⟨rfl, r', rfl⟩

theorem tvAdd_dates {a b : Int} (ha : Date a) (hb : Date b) (h : Date (a + b)) : tvAdd a b = .ok (a + b) := by
  have la : Legal a := by have := ha.1; have := ha.2; unfold Legal; unfold INF at *; omega
  have lb : Legal b := by have := hb.1; have := hb.2; unfold Legal; unfold INF at *; omega
  obtain ⟨a1, a2⟩ := ha
  obtain ⟨b1, b2⟩ := hb
  obtain ⟨h1, h2⟩ := h
  rw [tvAdd_ok la lb (by omega) (by omega), if_neg (by omega), if_neg (by omega)]
  congr 1
  unfold round
  repeat' split
  all_goals omega

/-- C151 fails for translations: the intersection of two intervals which touch has no date, but translated by a time span of more than
one duration (a window of delays, say) it has some; translated by one duration it panics in a debug build. -/
theorem C151_translate_violated (i j sp : Iv) (hi : WF i) (hj : WF j) (hsp : WF sp) (h : i.upper + 1 = j.lower)
    (hl : -INF < sp.lower) (hu : sp.upper < INF) (hw : sp.lower < sp.upper) (h1 : -INF < j.lower + sp.lower) (h2 : i.upper + sp.upper < INF) :
    ∃ r, (Narrow.inter (.set [i]) (.set [j])).eval = .ok r ∧ (∀ t, ¬ InSet t r) ∧
      (∀ dbg, TSet.addSpan dbg r sp = .ok [⟨j.lower + sp.lower, i.upper + sp.upper⟩]) ∧
      (∃ t, Date t ∧ InSet t [⟨j.lower + sp.lower, i.upper + sp.upper⟩]) ∧
      ∀ d, -INF < d → d < INF → -INF < i.upper + d → j.lower + d < INF → TSet.addTv true r d = .error .debugAssert := by
  have a1 := hi.lt_hi
  have a2 := hj.lo_lt
  have s1 := hsp.le
  have dj : Date j.lower := ⟨by omega, by omega⟩
  have di : Date i.upper := ⟨by omega, by omega⟩
  have dl : Date sp.lower := ⟨hl, by omega⟩
  have du : Date sp.upper := ⟨by omega, hu⟩
  have wf : WF ⟨j.lower + sp.lower, i.upper + sp.upper⟩ := by constructor <;> simp only <;> omega
  have touch := (C33_inter_touch_violated i j hi hj h).1
  refine ⟨[⟨j.lower, i.upper⟩], touch, ?_, fun dbg => ?_, ?_, fun d d1 d2 d3 d4 => ?_⟩
  · intro t ht
    have := InSet_singleton.1 ht
    simp only [InIv] at this
    omega
  · have e1 := tvAdd_dates dj dl ⟨h1, by omega⟩
    have e2 := tvAdd_dates di du ⟨by omega, h2⟩
    have e3 : Iv.new (j.lower + sp.lower) (i.upper + sp.upper) = ⟨j.lower + sp.lower, i.upper + sp.upper⟩ := by
      rw [new_eq (by omega) (by omega), if_pos (by omega)]
    have e4 : (⟨j.lower + sp.lower, i.upper + sp.upper⟩ : Iv).isEmpty = false := by
      rw [← Bool.not_eq_true, Iv.isEmpty, isFutureInfinite_iff]
      simp only
      omega
    have e5 : Iv.addSpan dbg ⟨j.lower, i.upper⟩ sp = .ok ⟨j.lower + sp.lower, i.upper + sp.upper⟩ := by
      simp only [Iv.addSpan, e1, e2, ok_bind, e3, Iv.debugNonEmpty, e4, Bool.and_false, Bool.false_eq_true, if_false]
    have : TSet.unionConvex [] (.iv ⟨j.lower + sp.lower, i.upper + sp.upper⟩) = .ok [⟨j.lower + sp.lower, i.upper + sp.upper⟩] := by
      have it : (Convex.iv (Convex.iv (⟨j.lower + sp.lower, i.upper + sp.upper⟩ : Iv)).into).iter = [⟨j.lower + sp.lower, i.upper + sp.upper⟩] :=
        TSet.iter_wf wf
      rw [TSet.unionConvex, it]
      unfold UnionIter.new
      rw [UnionIter.drain_init_nilI, TSet.fromIter_canon (Canon_cons.2 ⟨wf, by simp, Canon_nil⟩)]
    simp only [TSet.addSpan, List.foldlM_cons, List.foldlM_nil, e5, ok_bind, this]
    rfl
  · exact ⟨j.lower + sp.lower, ⟨h1, by omega⟩, InSet_singleton.2 ⟨Int.le_refl _, by simp only; omega⟩⟩
  · have e1 := tvAdd_dates dj ⟨d1, d2⟩ ⟨by omega, d4⟩
    have e2 := tvAdd_dates di ⟨d1, d2⟩ ⟨d3, by omega⟩
    have e3 : Iv.new (j.lower + d) (i.upper + d) = Iv.empty := by
      rw [new_eq (by omega) (by omega), if_neg (by omega)]
    have e4 : Iv.addTv true ⟨j.lower, i.upper⟩ d = .error .debugAssert := by
      simp only [Iv.addTv, e1, e2, ok_bind, e3]
      rfl
    simp only [TSet.addTv, List.mapM_cons, e4]
    rfl

/-! ## Examples -/

/-- `[0,4]u[9,12]` and `[5,8]u[12,20]` touch twice; the dates of the narrowed intersection are nevertheless right -/
example : (Narrow.neg (.before (.interWith (.inter (.set [⟨0, 4⟩, ⟨9, 12⟩]) (.set [⟨5, 8⟩, ⟨12, 20⟩])) (.range 3 15)) 1)).Proper ∧
    (Narrow.neg (.before (.interWith (.inter (.set [⟨0, 4⟩, ⟨9, 12⟩]) (.set [⟨5, 8⟩, ⟨12, 20⟩])) (.range 3 15)) 1)).Has (-12) ∧
    ¬ (Narrow.neg (.before (.interWith (.inter (.set [⟨0, 4⟩, ⟨9, 12⟩]) (.set [⟨5, 8⟩, ⟨12, 20⟩])) (.range 3 15)) 1)).Has (-5) := by
  refine ⟨⟨⟨⟨?_, ?_⟩, ?_⟩, ?_, ?_⟩, ⟨⟨⟨?_, ?_⟩, ?_⟩, ?_⟩, fun h => ?_⟩
  · show Canon _; decide
  · show Canon _; decide
  · decide
  · decide
  · decide
  · show InSet _ _; decide
  · show InSet _ _; decide
  · show 3 ≤ _ ∧ _ < _; decide
  · decide
  · exact absurd (show InSet 5 [⟨0, 4⟩, ⟨9, 12⟩] from h.1.1.1) (by decide)

example : (Narrow.inter (.set [⟨0, 4⟩, ⟨9, 12⟩]) (.set [⟨5, 8⟩, ⟨12, 20⟩])).eval = .ok [⟨5, 4⟩, ⟨9, 8⟩, ⟨12, 12⟩] := by decide +kernel

/-- the same three sets, in two orders, one of them twice -/
example : ∀ s, s ∈ (Nest.inter (.set [⟨0, 4⟩]) (.inter (.set [⟨5, 8⟩]) (.set [⟨2, 9⟩]))).sets ↔
    s ∈ (Nest.inter (.inter (.set [⟨2, 9⟩]) (.set [⟨0, 4⟩])) (.inter (.set [⟨5, 8⟩]) (.set [⟨0, 4⟩]))).sets := by
  intro s
  simp only [Nest.sets, List.mem_append, List.mem_singleton]
  grind

example : WF ⟨0, 4⟩ ∧ WF ⟨5, 8⟩ ∧ WF ⟨2, 3⟩ ∧ TSet.addSpan true [⟨5, 4⟩] ⟨2, 3⟩ = .ok [⟨7, 7⟩] := by
  refine ⟨by decide, by decide, by decide, by decide +kernel⟩

end Chrono
