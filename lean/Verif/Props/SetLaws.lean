import Verif.Props.Set
import Verif.Lemmas.Loose

set_option linter.unusedSimpArgs false

/-!
# The laws of set algebra, as equalities of values (C105)

`a & b`, `a | b` and `!a` are `TSet.inter`, `TSet.union`, `TSet.compl`; a law is an equality between the values of the two
expressions, so that `==` and every accessor agree on them.
-/

namespace Chrono
open Spec

/-! ## Helper lemmas -/

theorem LooseIv.gap_irrefl {x : Iv} (hx : LooseIv x) : ¬ x.upper + 1 < x.lower := by
  have := hx.le; omega

/-- sorted lists with gaps which have the same members are equal -/
theorem gap_ext {a b : List Iv} (ha : Loose a) (hb : Loose b) (h : ∀ y, y ∈ a ↔ y ∈ b) : a = b := by
  induction a generalizing b with
  | nil =>
    cases b with
    | nil => rfl
    | cons y ys => exact absurd ((h y).2 (by simp)) (by simp)
  | cons x xs ih =>
    cases b with
    | nil => exact absurd ((h x).1 (by simp)) (by simp)
    | cons y ys =>
      obtain ⟨hx, gx, lx⟩ := Loose_cons.1 ha
      obtain ⟨hy, gy, ly⟩ := Loose_cons.1 hb
      have h1 := hx.le
      have h2 := hy.le
      have e : x = y := by
        rcases List.mem_cons.1 ((h x).1 (by simp)) with e | e
        · exact e
        · rcases List.mem_cons.1 ((h y).2 (by simp)) with e' | e'
          · exact e'.symm
          · have := gy x e; have := gx y e'; omega
      subst e
      congr 1
      refine ih lx ly (fun z => ?_)
      have hz := h z
      simp only [List.mem_cons] at hz
      constructor
      · intro m
        rcases hz.1 (Or.inr m) with e | e
        · subst e; have := gx z m; omega
        · exact e
      · intro m
        rcases hz.2 (Or.inr m) with e | e
        · subst e; have := gy z m; omega
        · exact e

/-- the intersection of sorted sets: its value and its members -/
theorem inter_mem {a b : List Iv} (ha : Loose a) (hb : Loose b) :
    ∃ r, TSet.inter a b = .ok r ∧ Loose r ∧ ∀ y, y ∈ r ↔
      ∃ x ∈ a, ∃ z ∈ b, z.lower ≤ x.upper + 1 ∧ x.lower ≤ z.upper + 1 ∧ y = InterIter.meet x z := by
  obtain ⟨_, h⟩ := InterIter.meets_loose ha hb
  obtain ⟨r, e, hr, -, -⟩ := inter_loose ha hb
  have hd : r = (InterIter.new a b).drain := by
    have hl : ∀ y ∈ (InterIter.new a b).drain, y.lower ≠ INF := by
      intro y hy
      obtain ⟨x, hx, z, hz, e, -, -⟩ := h.meets y hy
      have := (ha.wf x hx).lo_lt
      have := (hb.wf z hz).lo_lt
      subst e
      simp only [InterIter.meet]; omega
    have := TSet.fromIter_id h.gap hl
    rw [TSet.inter, this] at e
    exact (Except.ok.inj e).symm
  subst hd
  refine ⟨_, e, hr, fun y => ?_⟩
  constructor
  · intro hy
    obtain ⟨x, hx, z, hz, e, g1, g2⟩ := h.meets y hy
    exact ⟨x, hx, z, hz, by omega, by omega, e⟩
  · rintro ⟨x, hx, z, hz, g1, g2, rfl⟩
    exact h.full x hx z hz (by omega) (by omega)

/-- two different intervals of a canonical set are apart -/
theorem gap_cases {a : List Iv} (ha : Canon a) {x z : Iv} (hx : x ∈ a) (hz : z ∈ a) (hne : x ≠ z) :
    x.upper + 1 < z.lower ∨ z.upper + 1 < x.lower := by
  induction a with
  | nil => simp at hx
  | cons y ys ih =>
    obtain ⟨-, hy, hc⟩ := Canon_cons.1 ha
    rcases List.mem_cons.1 hx with e | e <;> rcases List.mem_cons.1 hz with e' | e'
    · exact absurd (e.trans e'.symm) hne
    · subst e; exact Or.inl (hy z e')
    · subst e'; exact Or.inr (hy x e)
    · exact ih hc e e'

theorem Canon_all : Canon TSet.all := by decide

/-! ## Intersection -/

/-- C105. `a & b == b & a`. -/
theorem C105_inter_comm (a b : TSet) (ha : Canon a) (hb : Canon b) : TSet.inter a b = TSet.inter b a := by
  obtain ⟨r, e1, l1, m1⟩ := inter_mem ha.loose hb.loose
  obtain ⟨r', e2, l2, m2⟩ := inter_mem hb.loose ha.loose
  rw [e1, e2]
  congr 1
  refine gap_ext l1 l2 (fun y => ?_)
  rw [m1, m2]
  constructor
  · rintro ⟨x, hx, z, hz, g1, g2, e⟩; exact ⟨z, hz, x, hx, g2, g1, by rw [e, InterIter.meet_comm]⟩
  · rintro ⟨x, hx, z, hz, g1, g2, e⟩; exact ⟨z, hz, x, hx, g2, g1, by rw [e, InterIter.meet_comm]⟩

/-- C105. `(a & b) & c == a & (b & c)`. -/
theorem C105_inter_assoc (a b c : TSet) (ha : Canon a) (hb : Canon b) (hc : Canon c) :
    (do TSet.inter (← TSet.inter a b) c) = (do TSet.inter a (← TSet.inter b c)) := by
  obtain ⟨ab, e1, l1, m1⟩ := inter_mem ha.loose hb.loose
  obtain ⟨bc, e2, l2, m2⟩ := inter_mem hb.loose hc.loose
  obtain ⟨r, e3, l3, m3⟩ := inter_mem l1 hc.loose
  obtain ⟨r', e4, l4, m4⟩ := inter_mem ha.loose l2
  rw [e1, e2, ok_bind, ok_bind, e3, e4]
  congr 1
  refine gap_ext l3 l4 (fun y => ?_)
  rw [m3, m4]
  constructor
  · rintro ⟨p, hp, z, hz, g1, g2, e⟩
    obtain ⟨x, hx, w, hw, g3, g4, rfl⟩ := (m1 p).1 hp
    simp only [InterIter.meet] at g1 g2
    refine ⟨x, hx, InterIter.meet w z, (m2 _).2 ⟨w, hw, z, hz, by omega, by omega, rfl⟩, ?_, ?_, ?_⟩
    · simp only [InterIter.meet]; omega
    · simp only [InterIter.meet]; omega
    · subst e; simp only [InterIter.meet, Iv.mk.injEq]; omega
  · rintro ⟨x, hx, p, hp, g1, g2, e⟩
    obtain ⟨w, hw, z, hz, g3, g4, rfl⟩ := (m2 p).1 hp
    simp only [InterIter.meet] at g1 g2
    refine ⟨InterIter.meet x w, (m1 _).2 ⟨x, hx, w, hw, by omega, by omega, rfl⟩, z, hz, ?_, ?_, ?_⟩
    · simp only [InterIter.meet]; omega
    · simp only [InterIter.meet]; omega
    · subst e; simp only [InterIter.meet, Iv.mk.injEq]; omega

/-- C105. `a & a == a`, `a & all == a`, `a & empty == empty`. -/
theorem C105_inter_units (a : TSet) (ha : Canon a) :
    TSet.inter a a = .ok a ∧ TSet.inter a TSet.all = .ok a ∧ TSet.inter a TSet.empty = .ok TSet.empty := by
  refine ⟨?_, ?_, ?_⟩
  · obtain ⟨r, e, l, m⟩ := inter_mem ha.loose ha.loose
    rw [e]
    congr 1
    refine gap_ext l ha.loose (fun y => ?_)
    rw [m]
    constructor
    · rintro ⟨x, hx, z, hz, g1, g2, rfl⟩
      have e : x = z := by
        apply Classical.byContradiction
        intro hne
        rcases gap_cases ha hx hz hne with g | g <;> omega
      subst e
      have : InterIter.meet x x = x := by cases x; simp only [InterIter.meet, Iv.mk.injEq]; omega
      rw [this]; exact hx
    · intro hy
      have := (ha.wf y hy).le
      refine ⟨y, hy, y, hy, by omega, by omega, ?_⟩
      cases y; simp only [InterIter.meet, Iv.mk.injEq]; omega
  · obtain ⟨r, e, l, m⟩ := inter_mem ha.loose Canon_all.loose
    rw [e]
    congr 1
    have key : ∀ x ∈ a, InterIter.meet x Iv.all = x := by
      intro x hx
      have h1 := (ha.wf x hx).lo
      have h2 := (ha.wf x hx).hi
      cases x
      simp only [InterIter.meet, Iv.all, Iv.mk.injEq] at *
      omega
    refine gap_ext l ha.loose (fun y => ?_)
    rw [m]
    constructor
    · rintro ⟨x, hx, z, hz, g1, g2, rfl⟩
      rw [TSet.all, List.mem_singleton] at hz
      subst hz
      rw [key x hx]; exact hx
    · intro hy
      have h1 := ha.wf y hy
      obtain ⟨g1, g2, g3, g4, g5⟩ := h1
      refine ⟨y, hy, Iv.all, by simp [TSet.all], ?_, ?_, (key y hy).symm⟩
      · simp only [Iv.all]; omega
      · simp only [Iv.all]; omega
  · obtain ⟨r, e, l, m⟩ := inter_mem ha.loose Canon_nil.loose
    rw [TSet.empty, e]
    congr 1
    refine List.eq_nil_iff_forall_not_mem.2 (fun y hy => ?_)
    obtain ⟨x, hx, z, hz, -⟩ := (m y).1 hy
    simp at hz

example : Canon [⟨0, 4⟩, ⟨8, 9⟩] ∧ Canon [⟨5, 8⟩] ∧ Canon [⟨-INF, 4⟩, ⟨7, 20⟩] := by decide

/-! ## Complement -/

/-- C105. The law of the excluded middle: `a | !a` has every date, and is `all` itself away from the extreme ticks. -/
theorem C105_excluded_middle (a : TSet) (ha : Canon a) :
    ∃ r, TSet.union a (TSet.compl a) = .ok r ∧ (∀ t, Date t → InSet t r) ∧ (NoExtreme a → r = TSet.all) := by
  obtain ⟨c1, c2, c3⟩ := compl_spec ha
  have hcomp : ∀ x ∈ a.dropLast, ∃ y ∈ TSet.compl a, x.upper < y.upper := by
    intro x hx
    obtain ⟨l, hl, hlt⟩ := TSet.dropLast_lt ha hx
    have hm := (List.dropLast_sublist a).subset hx
    have wx := ha.wf x hm
    have wl := ha.wf l hl
    obtain ⟨g1, g2, g3, g4, g5⟩ := wx
    obtain ⟨k1, k2, k3, k4, k5⟩ := wl
    have hd : Date (x.upper + 1) := ⟨by omega, by omega⟩
    have hn : ¬ InSet (x.upper + 1) a := by
      rintro ⟨z, hz, h1, h2⟩
      by_cases e : x = z
      · subst e; omega
      · rcases gap_cases ha hm hz e with g | g <;> omega
    obtain ⟨y, hy, h1, h2⟩ := (c3 _ hd).2 hn
    exact ⟨y, hy, by omega⟩
  have hall := UnionIter.complete_new ha c1 (Or.inr hcomp)
  obtain ⟨hr, hs⟩ := UnionIter.good_new ha c1
  have hdates : ∀ t, Date t → InSet t (UnionIter.new a (TSet.compl a)).drain := by
    intro t ht
    by_cases c : InSet t a
    · exact hall t (Or.inl c)
    · exact hall t (Or.inr ((c3 t ht).2 c))
  refine ⟨_, TSet.union_eq ha c1, hdates, fun he => ?_⟩
  refine canon_ext_dates hr Canon_all ?_ (by decide) (fun t ht => ?_)
  · intro i hi
    -- a bound at an extreme tick would leave an infinity uncovered
    have w := hr.wf i hi
    obtain ⟨g1, g2, g3, g4, g5⟩ := w
    have hlow : InSet (-INF) a ∨ InSet (-INF) (TSet.compl a) := by
      by_cases c : InSet (-INF + 1) a
      · obtain ⟨z, hz, h1, h2⟩ := c
        have := he z hz; have := (ha.wf z hz).lo
        exact Or.inl ⟨z, hz, by constructor <;> omega⟩
      · obtain ⟨z, hz, h1, h2⟩ := (c3 _ (by decide)).2 c
        have := c2 z hz; have := (c1.wf z hz).lo
        exact Or.inr ⟨z, hz, by constructor <;> omega⟩
    have hup : InSet INF a ∨ InSet INF (TSet.compl a) := by
      by_cases c : InSet (INF - 1) a
      · obtain ⟨z, hz, h1, h2⟩ := c
        have := he z hz; have := (ha.wf z hz).hi
        exact Or.inl ⟨z, hz, by constructor <;> omega⟩
      · obtain ⟨z, hz, h1, h2⟩ := (c3 _ (by decide)).2 c
        have := c2 z hz; have := (c1.wf z hz).hi
        exact Or.inr ⟨z, hz, by constructor <;> omega⟩
    obtain ⟨z, hz, h1, h2⟩ := hall _ hlow
    obtain ⟨z', hz', h1', h2'⟩ := hall _ hup
    constructor
    · intro e
      by_cases ne : z = i
      · subst ne; omega
      · have := (hr.wf z hz).lt_hi
        rcases gap_cases hr hz hi ne with g | g <;> omega
    · intro e
      by_cases ne : z' = i
      · subst ne; omega
      · have := (hr.wf z' hz').lo_lt
        rcases gap_cases hr hz' hi ne with g | g <;> omega
  · exact ⟨fun _ => ⟨Iv.all, by simp [TSet.all], by simp only [Iv.all]; obtain ⟨h1, h2⟩ := ht; constructor <;> (simp only; omega)⟩,
      fun _ => hdates t ht⟩

example : Canon [⟨-INF, 4⟩, ⟨8, 9⟩] ∧ NoExtreme [⟨-INF, 4⟩, ⟨8, 9⟩] := by decide

/-- C105: the law of non-contradiction is violated, always: unless `a` has no date or every date, `a & !a` is not empty (it
has intervals, though no date). -/
theorem C105_contradiction_violated (a : TSet) (ha : Canon a) (hne : ∃ t, Date t ∧ InSet t a)
    (hna : ∃ t, Date t ∧ ¬ InSet t a) :
    ∃ r, TSet.inter a (TSet.compl a) = .ok r ∧ TSet.isEmpty r = false ∧ r ≠ TSet.empty ∧ ∀ t, Date t → ¬ InSet t r := by
  obtain ⟨c1, c2, c3⟩ := compl_spec ha
  obtain ⟨r, e, -, -, -, hiff⟩ := C33_inter_exact a (TSet.compl a) ha c1
  obtain ⟨⟨r', e', hpts⟩, -⟩ := C32_inter a (TSet.compl a) ha c1
  have : r' = r := by rw [e] at e'; exact (Except.ok.inj e').symm
  subst this
  have hE : TSet.isEmpty r' = false := by
    cases hb : TSet.isEmpty r' with
    | false => rfl
    | true =>
      exfalso
      obtain ⟨hn, -⟩ := hiff.1 hb
      obtain ⟨t, ht, i, hi, h1, h2⟩ := hne
      obtain ⟨t', ht', hnin⟩ := hna
      have w := ha.wf i hi
      obtain ⟨g1, g2, g3, g4, g5⟩ := w
      obtain ⟨d1, d2⟩ := ht
      obtain ⟨d3, d4⟩ := ht'
      have other : ∀ u, InSet u a → (∃ z ∈ a, z ≠ i ∧ InIv u z) ∨ InIv u i := by
        rintro u ⟨z, hz, hu⟩
        by_cases e : z = i
        · subst e; exact Or.inr hu
        · exact Or.inl ⟨z, hz, e, hu⟩
      by_cases c : -INF + 1 < i.lower
      · have hd : Date (i.lower - 1) := ⟨by omega, by omega⟩
        have hnot : ¬ InSet (i.lower - 1) a := by
          intro hin
          rcases other _ hin with ⟨z, hz, hzi, k1, k2⟩ | ⟨k1, k2⟩
          · rcases gap_cases ha hz hi hzi with g | g <;> omega
          · omega
        obtain ⟨y, hy, k1, k2⟩ := (c3 _ hd).2 hnot
        have hy' : y.upper < i.lower := by
          apply Classical.byContradiction
          intro hc
          have hdl : Date i.lower := ⟨by omega, by omega⟩
          exact (c3 _ hdl).1 ⟨y, hy, by constructor <;> omega⟩ ⟨i, hi, by constructor <;> omega⟩
        have := hn i hi y hy
        omega
      · by_cases c' : i.upper < INF - 1
        · have hd : Date (i.upper + 1) := ⟨by omega, by omega⟩
          have hnot : ¬ InSet (i.upper + 1) a := by
            intro hin
            rcases other _ hin with ⟨z, hz, hzi, k1, k2⟩ | ⟨k1, k2⟩
            · rcases gap_cases ha hz hi hzi with g | g <;> omega
            · omega
          obtain ⟨y, hy, k1, k2⟩ := (c3 _ hd).2 hnot
          have hy' : i.upper < y.lower := by
            apply Classical.byContradiction
            intro hc
            have hdl : Date i.upper := ⟨by omega, by omega⟩
            exact (c3 _ hdl).1 ⟨y, hy, by constructor <;> omega⟩ ⟨i, hi, by constructor <;> omega⟩
          have := hn i hi y hy
          omega
        · exact hnin ⟨i, hi, by constructor <;> omega⟩
  refine ⟨r', e, hE, ?_, fun t ht h => ?_⟩
  · rintro rfl; simp [TSet.isEmpty, TSet.empty] at hE
  · obtain ⟨k1, k2⟩ := (hpts t).1 h
    exact (c3 t ht).1 k2 k1

example : Canon [⟨0, 4⟩] ∧ (∃ t, Date t ∧ InSet t [⟨0, 4⟩]) ∧ ∃ t, Date t ∧ ¬ InSet t [⟨0, 4⟩] :=
  ⟨by decide, ⟨2, by decide, by decide⟩, ⟨5, by decide, by decide⟩⟩

/-! ## Union -/

/-- a canonical set which has an infinity as soon as it has the tick next to it has no bound at an extreme tick -/
theorem noExtreme_of_pts {r : List Iv} (hr : Canon r) (h1 : InSet (-INF + 1) r → InSet (-INF) r)
    (h2 : InSet (INF - 1) r → InSet INF r) : NoExtreme r := by
  intro i hi
  obtain ⟨g1, g2, g3, g4, g5⟩ := hr.wf i hi
  constructor
  · intro e
    obtain ⟨z, hz, k1, k2⟩ := h1 ⟨i, hi, by constructor <;> omega⟩
    by_cases ne : z = i
    · subst ne; omega
    · have := (hr.wf z hz).lt_hi
      rcases gap_cases hr hz hi ne with g | g <;> omega
  · intro e
    obtain ⟨z, hz, k1, k2⟩ := h2 ⟨i, hi, by constructor <;> omega⟩
    by_cases ne : z = i
    · subst ne; omega
    · have := (hr.wf z hz).lo_lt
      rcases gap_cases hr hz hi ne with g | g <;> omega

theorem noExtreme_pts {a : List Iv} (ha : Canon a) (he : NoExtreme a) :
    (InSet (-INF + 1) a → InSet (-INF) a) ∧ (InSet (INF - 1) a → InSet INF a) := by
  constructor
  · rintro ⟨z, hz, k1, k2⟩
    have := he z hz; have := (ha.wf z hz).lo
    exact ⟨z, hz, by constructor <;> omega⟩
  · rintro ⟨z, hz, k1, k2⟩
    have := he z hz; have := (ha.wf z hz).hi
    exact ⟨z, hz, by constructor <;> omega⟩

theorem Spec.Lossless.spec {a b : TSet} (ha : Canon a) (hb : Canon b) (h : Lossless a b) :
    ∃ r, TSet.union a b = .ok r ∧ Canon r ∧ ∀ t, InSet t r ↔ InSet t a ∨ InSet t b := by
  obtain ⟨r, e, hr⟩ := h
  obtain ⟨h1, h2⟩ := UnionIter.good_new ha hb
  have : r = (UnionIter.new a b).drain := by
    rw [TSet.union_eq ha hb] at e; exact (Except.ok.inj e).symm
  subst this
  exact ⟨_, e, h1, fun t => ⟨h2 t, hr t⟩⟩

theorem lossless_of {a b : TSet} (ha : Canon a) (hb : Canon b)
    (h : b = [] ∨ ∀ x ∈ a.dropLast, ∃ y ∈ b, x.upper < y.upper) : Lossless a b := by
  obtain ⟨r, e, -, h⟩ := C30_union_complete_partial a b ha hb h
  exact ⟨r, e, h⟩

/-- C30: one of the two orders always loses no date. -/
theorem C30_one_order (a b : TSet) (ha : Canon a) (hb : Canon b) : Lossless a b ∨ Lossless b a := by
  by_cases c : ∀ x ∈ a.dropLast, ∃ y ∈ b, x.upper < y.upper
  · exact Or.inl (lossless_of ha hb (Or.inr c))
  · refine Or.inr (lossless_of hb ha (Or.inr fun y hy => ?_))
    obtain ⟨x, c⟩ := Classical.not_forall.1 c
    obtain ⟨hx, c⟩ := Classical.not_forall.1 c
    have hm := (List.dropLast_sublist b).subset hy
    obtain ⟨l, hl, hlt⟩ := TSet.dropLast_lt hb hy
    have := (hb.wf l hl).le
    have : ¬ x.upper < l.upper := fun h => c ⟨l, hl, h⟩
    exact ⟨x, (List.dropLast_sublist a).subset hx, by omega⟩

example : Canon [⟨0, 1⟩, ⟨10, 11⟩, ⟨20, 21⟩] ∧ Canon [⟨5, 6⟩] := by decide

/-- C105. `a | a == a`, `a | empty == a`, `empty | a == a`, `a | all == all`, `all | a == all`. -/
theorem C105_union_units (a : TSet) (ha : Canon a) :
    TSet.union a a = .ok a ∧ TSet.union a TSet.empty = .ok a ∧ TSet.union TSet.empty a = .ok a ∧
    TSet.union a TSet.all = .ok TSet.all ∧ TSet.union TSet.all a = .ok TSet.all := by
  have inAll : ∀ t, InSet t a → InSet t TSet.all := by
    rintro t ⟨i, hi, h1, h2⟩
    have := (ha.wf i hi).lo; have := (ha.wf i hi).hi
    exact ⟨Iv.all, by simp [TSet.all], by simp only [Iv.all]; constructor <;> (simp only; omega)⟩
  refine ⟨?_, ?_, ?_, ?_, ?_⟩
  · obtain ⟨r, e, hr, h⟩ := (lossless_of ha ha (Or.inr fun x hx => by
      obtain ⟨l, hl, hlt⟩ := TSet.dropLast_lt ha hx
      exact ⟨l, hl, by have := (ha.wf l hl).le; omega⟩)).spec ha ha
    rw [e, canon_ext hr ha (fun t => by rw [h t]; exact or_self_iff)]
  · obtain ⟨r, e, hr, h⟩ := (lossless_of ha Canon_nil (Or.inl rfl)).spec ha Canon_nil
    rw [TSet.empty, e, canon_ext hr ha (fun t => by rw [h t]; simp [InSet_nil])]
  · obtain ⟨r, e, hr, h⟩ := (lossless_of Canon_nil ha (Or.inr (by simp))).spec Canon_nil ha
    rw [TSet.empty, e, canon_ext hr ha (fun t => by rw [h t]; simp [InSet_nil])]
  · obtain ⟨r, e, hr, h⟩ := (lossless_of ha Canon_all (Or.inr fun x hx => by
      obtain ⟨l, hl, hlt⟩ := TSet.dropLast_lt ha hx
      refine ⟨Iv.all, by simp [TSet.all], ?_⟩
      have := (ha.wf l hl).lo_lt
      simp only [Iv.all]; omega)).spec ha Canon_all
    rw [e, canon_ext hr Canon_all (fun t => by rw [h t]; exact ⟨fun h => h.elim (inAll t) id, Or.inr⟩)]
  · obtain ⟨r, e, hr, h⟩ := (lossless_of Canon_all ha (Or.inr (by simp [TSet.all]))).spec Canon_all ha
    rw [e, canon_ext hr Canon_all (fun t => by rw [h t]; exact ⟨fun h => h.elim id (inAll t), Or.inl⟩)]

/-- C105, partial: `a | b == b | a` when neither order loses a date. Missing: the other cases, see
`C105_union_comm_violated`. -/
theorem C105_union_comm_partial (a b : TSet) (ha : Canon a) (hb : Canon b) (h1 : Lossless a b) (h2 : Lossless b a) :
    TSet.union a b = TSet.union b a := by
  obtain ⟨r, e, hr, h⟩ := h1.spec ha hb
  obtain ⟨r', e', hr', h'⟩ := h2.spec hb ha
  rw [e, e', canon_ext hr hr' (fun t => by rw [h t, h' t]; exact or_comm)]

/-- C105 is violated: as soon as an interval of `a`, other than the last, ends after the end of a non-empty `b`, the sets
`a | b` and `b | a` are different. -/
theorem C105_union_comm_violated (a b : TSet) (ha : Canon a) (hb : Canon b) (hne : b ≠ []) (x : Iv)
    (hx : x ∈ a.dropLast) (h : ∀ y ∈ b, y.upper < x.upper) : TSet.union a b ≠ TSet.union b a := by
  obtain ⟨r, e, -, t, -, h1, h2⟩ := C30_union_violated a b ha hb hne x hx h
  have hl : Lossless b a := lossless_of hb ha (Or.inr fun y hy =>
    ⟨x, (List.dropLast_sublist a).subset hx, h y ((List.dropLast_sublist b).subset hy)⟩)
  obtain ⟨r', e', -, h'⟩ := hl.spec hb ha
  rw [e, e']
  intro he
  have he := Except.ok.inj he
  subst he
  exact h2 ((h' t).2 (Or.inr h1))

example : Canon [⟨0, 1⟩, ⟨10, 11⟩, ⟨20, 21⟩] ∧ Canon [⟨5, 6⟩] ∧
    (⟨10, 11⟩ : Iv) ∈ ([⟨0, 1⟩, ⟨10, 11⟩, ⟨20, 21⟩] : List Iv).dropLast ∧
    ∀ y ∈ ([⟨5, 6⟩] : List Iv), y.upper < 11 := by decide

/-- C105, partial: `(a | b) | c == a | (b | c)` when none of the four unions loses a date. Missing: the other cases, see
`C30_union_violated`. -/
theorem C105_union_assoc_partial (a b c ab bc : TSet) (ha : Canon a) (hb : Canon b) (hc : Canon c)
    (h1 : Lossless a b) (e1 : TSet.union a b = .ok ab) (h2 : Lossless b c) (e2 : TSet.union b c = .ok bc)
    (h3 : Lossless ab c) (h4 : Lossless a bc) : TSet.union ab c = TSet.union a bc := by
  obtain ⟨r1, f1, c1, p1⟩ := h1.spec ha hb
  obtain ⟨r2, f2, c2, p2⟩ := h2.spec hb hc
  have g1 : r1 = ab := by rw [f1] at e1; exact Except.ok.inj e1
  have g2 : r2 = bc := by rw [f2] at e2; exact Except.ok.inj e2
  subst g1; subst g2
  obtain ⟨r3, f3, c3, p3⟩ := h3.spec c1 hc
  obtain ⟨r4, f4, c4, p4⟩ := h4.spec ha c2
  rw [f3, f4, canon_ext c3 c4 (fun t => by rw [p3, p4, p1, p2]; exact or_assoc)]

/-- the hypotheses of the law of associativity hold of three sets which interleave -/
example : ∃ ab bc, TSet.union [⟨0, 1⟩] [⟨3, 4⟩] = .ok ab ∧ TSet.union [⟨3, 4⟩] [⟨6, 9⟩] = .ok bc ∧
    Lossless [⟨0, 1⟩] [⟨3, 4⟩] ∧ Lossless [⟨3, 4⟩] [⟨6, 9⟩] ∧ Lossless ab [⟨6, 9⟩] ∧ Lossless [⟨0, 1⟩] bc := by
  have e1 : TSet.union [⟨0, 1⟩] [⟨3, 4⟩] = .ok [⟨0, 1⟩, ⟨3, 4⟩] := by
    rw [TSet.union_eq (by decide) (by decide)]
    simp (config := {decide := true}) [UnionIter.new, UnionIter.drain_eq, UnionIter.step]
  have e2 : TSet.union [⟨3, 4⟩] [⟨6, 9⟩] = .ok [⟨3, 4⟩, ⟨6, 9⟩] := by
    rw [TSet.union_eq (by decide) (by decide)]
    simp (config := {decide := true}) [UnionIter.new, UnionIter.drain_eq, UnionIter.step]
  exact ⟨_, _, e1, e2, lossless_of (by decide) (by decide) (by decide), lossless_of (by decide) (by decide) (by decide),
    lossless_of (by decide) (by decide) (by decide), lossless_of (by decide) (by decide) (by decide)⟩

/-- C105, partial: `a & (a | b) == a` when the union loses no date. Missing: the other cases, see `C30_union_violated`. -/
theorem C105_absorb_union_partial (a b : TSet) (ha : Canon a) (hb : Canon b) (h : Lossless a b) :
    (do TSet.inter a (← TSet.union a b)) = .ok a := by
  obtain ⟨r, e, hr, hp⟩ := h.spec ha hb
  have hn : NoTouch a r := by
    intro x hx y hy
    have w1 := (ha.wf x hx).le
    have w2 := (hr.wf y hy).le
    constructor
    · intro c
      obtain ⟨z, hz, h1, h2⟩ := (hp x.upper).2 (Or.inl ⟨x, hx, by constructor <;> omega⟩)
      by_cases ne : z = y
      · subst ne; omega
      · rcases gap_cases hr hz hy ne with g | g <;> omega
    · intro c
      obtain ⟨z, hz, h1, h2⟩ := (hp x.lower).2 (Or.inl ⟨x, hx, by constructor <;> omega⟩)
      by_cases ne : z = y
      · subst ne; omega
      · rcases gap_cases hr hz hy ne with g | g <;> omega
  obtain ⟨q, f, f', -, hq⟩ := C33_inter_canonical_partial a r ha hr
  obtain ⟨hq, -⟩ := hq hn
  obtain ⟨-, hi⟩ := C32_inter a r ha hr
  rw [← f'] at hi
  rw [e, ok_bind, f, canon_ext hq ha (fun t => by rw [hi, hp]; exact ⟨And.left, fun h => ⟨h, Or.inl h⟩⟩)]

/-! ## De Morgan, distributivity -/

/-- complements touch exactly where the sets do -/
theorem noTouch_compl {a b : TSet} (ha : Canon a) (hb : Canon b) (hn : NoTouch a b) :
    NoTouch (TSet.compl a) (TSet.compl b) := by
  obtain ⟨c1, c2, c3⟩ := compl_spec ha
  obtain ⟨d1, d2, d3⟩ := compl_spec hb
  -- an interval of a complement which ends before the end of time is followed by an interval of the set
  have next : ∀ {s : TSet}, Canon s → ∀ i ∈ TSet.compl s, i.upper < INF - 1 → ∃ x ∈ s, x.lower = i.upper + 1 := by
    intro s hs i hi hlt
    obtain ⟨k1, k2, k3⟩ := compl_spec hs
    obtain ⟨g1, g2, g3, g4, g5⟩ := k1.wf i hi
    have hd : Date (i.upper + 1) := ⟨by omega, by omega⟩
    have hin : InSet (i.upper + 1) s := Classical.byContradiction fun hnot => by
      obtain ⟨z, hz, h1, h2⟩ := (k3 _ hd).2 hnot
      by_cases ne : z = i
      · subst ne; omega
      · rcases gap_cases k1 hz hi ne with g | g <;> omega
    obtain ⟨x, hx, h1, h2⟩ := hin
    refine ⟨x, hx, Classical.byContradiction fun hne => ?_⟩
    have hd' : Date i.upper := ⟨by omega, by omega⟩
    exact (k3 _ hd').1 ⟨i, hi, by constructor <;> omega⟩ ⟨x, hx, by constructor <;> omega⟩
  have prev : ∀ {s : TSet}, Canon s → ∀ i ∈ TSet.compl s, -INF + 1 < i.lower → ∃ x ∈ s, x.upper + 1 = i.lower := by
    intro s hs i hi hlt
    obtain ⟨k1, k2, k3⟩ := compl_spec hs
    obtain ⟨g1, g2, g3, g4, g5⟩ := k1.wf i hi
    have hd : Date (i.lower - 1) := ⟨by omega, by omega⟩
    have hin : InSet (i.lower - 1) s := Classical.byContradiction fun hnot => by
      obtain ⟨z, hz, h1, h2⟩ := (k3 _ hd).2 hnot
      by_cases ne : z = i
      · subst ne; omega
      · rcases gap_cases k1 hz hi ne with g | g <;> omega
    obtain ⟨x, hx, h1, h2⟩ := hin
    refine ⟨x, hx, Classical.byContradiction fun hne => ?_⟩
    have hd' : Date i.lower := ⟨by omega, by omega⟩
    exact (k3 _ hd').1 ⟨i, hi, by constructor <;> omega⟩ ⟨x, hx, by constructor <;> omega⟩
  intro i hi j hj
  have w1 := c1.wf i hi
  have w2 := d1.wf j hj
  obtain ⟨g1, g2, g3, g4, g5⟩ := w1
  obtain ⟨k1, k2, k3, k4, k5⟩ := w2
  have x1 := c2 i hi
  have x2 := d2 j hj
  constructor
  · intro e
    obtain ⟨x, hx, ex⟩ := next ha i hi (by omega)
    obtain ⟨y, hy, ey⟩ := prev hb j hj (by omega)
    have := hn x hx y hy
    omega
  · intro e
    obtain ⟨x, hx, ex⟩ := next hb j hj (by omega)
    obtain ⟨y, hy, ey⟩ := prev ha i hi (by omega)
    have := hn y hy x hx
    omega

/-- C105, partial: `!(a | b) == !a & !b` when the union loses no date and no interval of the one starts right after the end of
an interval of the other. Missing: the other cases, see `C30_union_violated` and `C33_inter_exact`. -/
theorem C105_de_morgan_union_partial (a b : TSet) (ha : Canon a) (hb : Canon b) (h : Lossless a b) (hn : NoTouch a b) :
    (do return TSet.compl (← TSet.union a b)) = TSet.inter (TSet.compl a) (TSet.compl b) := by
  obtain ⟨r, e, hr, hp⟩ := h.spec ha hb
  obtain ⟨c1, c2, c3⟩ := compl_spec ha
  obtain ⟨d1, d2, d3⟩ := compl_spec hb
  obtain ⟨k1, k2, k3⟩ := compl_spec hr
  obtain ⟨q, f, f', -, hq⟩ := C33_inter_canonical_partial _ _ c1 d1
  obtain ⟨hq, -⟩ := hq (noTouch_compl ha hb hn)
  obtain ⟨-, hi⟩ := C32_inter _ _ c1 d1
  rw [← f'] at hi
  have hx : NoExtreme q := by
    obtain ⟨p1, p2⟩ := noExtreme_pts c1 c2
    obtain ⟨p3, p4⟩ := noExtreme_pts d1 d2
    exact noExtreme_of_pts hq (fun h => (hi _).2 ⟨p1 ((hi _).1 h).1, p3 ((hi _).1 h).2⟩)
      (fun h => (hi _).2 ⟨p2 ((hi _).1 h).1, p4 ((hi _).1 h).2⟩)
  rw [e, ok_bind, f]
  refine congrArg Except.ok (canon_ext_dates k1 hq k2 hx (fun t ht => ?_))
  rw [k3 t ht, hi, c3 t ht, d3 t ht, hp]
  exact not_or

/-- C105, partial: `!(a & b) == !a | !b` when the union loses no date and no interval of the one starts right after the end of
an interval of the other. Missing: the other cases, see `C30_union_violated` and `C33_inter_exact`. -/
theorem C105_de_morgan_inter_partial (a b : TSet) (ha : Canon a) (hb : Canon b)
    (h : Lossless (TSet.compl a) (TSet.compl b)) (hn : NoTouch a b) :
    (do return TSet.compl (← TSet.inter a b)) = TSet.union (TSet.compl a) (TSet.compl b) := by
  obtain ⟨c1, c2, c3⟩ := compl_spec ha
  obtain ⟨d1, d2, d3⟩ := compl_spec hb
  obtain ⟨r, e, hr, hp⟩ := h.spec c1 d1
  obtain ⟨q, f, f', -, hq⟩ := C33_inter_canonical_partial a b ha hb
  obtain ⟨hq, -⟩ := hq hn
  obtain ⟨-, hi⟩ := C32_inter a b ha hb
  rw [← f'] at hi
  obtain ⟨k1, k2, k3⟩ := compl_spec hq
  have hx : NoExtreme r := by
    obtain ⟨p1, p2⟩ := noExtreme_pts c1 c2
    obtain ⟨p3, p4⟩ := noExtreme_pts d1 d2
    exact noExtreme_of_pts hr (fun h => (hp _).2 (((hp _).1 h).imp p1 p3)) (fun h => (hp _).2 (((hp _).1 h).imp p2 p4))
  rw [f, ok_bind, e]
  refine congrArg Except.ok (canon_ext_dates k1 hr k2 hx (fun t ht => ?_))
  rw [k3 t ht, hi, hp, c3 t ht, d3 t ht]
  exact Classical.not_and_iff_not_or_not

example : Canon [⟨0, 4⟩, ⟨8, 9⟩] ∧ Canon [⟨2, 6⟩, ⟨20, 21⟩] ∧ NoTouch [⟨0, 4⟩, ⟨8, 9⟩] [⟨2, 6⟩, ⟨20, 21⟩] ∧
    Lossless [⟨0, 4⟩, ⟨8, 9⟩] [⟨2, 6⟩, ⟨20, 21⟩] ∧
    Lossless (TSet.compl [⟨0, 4⟩, ⟨8, 9⟩]) (TSet.compl [⟨2, 6⟩, ⟨20, 21⟩]) :=
  ⟨by decide, by decide, by decide, lossless_of (by decide) (by decide) (by decide),
    lossless_of (by decide) (by decide) (by decide)⟩

/-- C105, partial: `a & (b | c) == (a & b) | (a & c)` when the unions lose no date and no interval of `a` touches one of `b` or
`c`. Missing: the other cases, see `C30_union_violated` and `C33_inter_exact`. -/
theorem C105_distrib_partial (a b c ab ac : TSet) (ha : Canon a) (hb : Canon b) (hc : Canon c) (h1 : Lossless b c)
    (n1 : NoTouch a b) (n2 : NoTouch a c) (e1 : TSet.inter a b = .ok ab) (e2 : TSet.inter a c = .ok ac)
    (h2 : Lossless ab ac) : (do TSet.inter a (← TSet.union b c)) = TSet.union ab ac := by
  obtain ⟨r, e, hr, hp⟩ := h1.spec hb hc
  obtain ⟨q1, f1, g1, -, k1⟩ := C33_inter_canonical_partial a b ha hb
  obtain ⟨q2, f2, g2, -, k2⟩ := C33_inter_canonical_partial a c ha hc
  have i1 := (C32_inter a b ha hb).2
  have i2 := (C32_inter a c ha hc).2
  rw [← g1] at i1
  rw [← g2] at i2
  have j1 : q1 = ab := by rw [f1] at e1; exact Except.ok.inj e1
  have j2 : q2 = ac := by rw [f2] at e2; exact Except.ok.inj e2
  subst j1; subst j2
  obtain ⟨u, eu, cu, pu⟩ := h2.spec (k1 n1).1 (k2 n2).1
  have hn : NoTouch a r := by
    intro x hx y hy
    have w1 := (ha.wf x hx).le
    have w2 := (hr.wf y hy).le
    have out : ∀ t, InSet t r → ¬ InIv t y → t + 1 ≠ y.lower ∧ y.upper + 1 ≠ t := by
      rintro t ⟨z, hz, h1, h2⟩ hnot
      by_cases ne : z = y
      · subst ne; exact absurd ⟨h1, h2⟩ hnot
      · rcases gap_cases hr hz hy ne with g | g <;> omega
    constructor
    · intro hc'
      rcases (hp y.lower).1 ⟨y, hy, by constructor <;> omega⟩ with ⟨z, hz, l1, l2⟩ | ⟨z, hz, l1, l2⟩
      · have := n1 x hx z hz
        have := out (y.lower - 1) ((hp _).2 (Or.inl ⟨z, hz, by constructor <;> omega⟩)) (by simp only [InIv]; omega)
        omega
      · have := n2 x hx z hz
        have := out (y.lower - 1) ((hp _).2 (Or.inr ⟨z, hz, by constructor <;> omega⟩)) (by simp only [InIv]; omega)
        omega
    · intro hc'
      rcases (hp y.upper).1 ⟨y, hy, by constructor <;> omega⟩ with ⟨z, hz, l1, l2⟩ | ⟨z, hz, l1, l2⟩
      · have := n1 x hx z hz
        have := out (y.upper + 1) ((hp _).2 (Or.inl ⟨z, hz, by constructor <;> omega⟩)) (by simp only [InIv]; omega)
        omega
      · have := n2 x hx z hz
        have := out (y.upper + 1) ((hp _).2 (Or.inr ⟨z, hz, by constructor <;> omega⟩)) (by simp only [InIv]; omega)
        omega
  obtain ⟨q, f, f', -, hq⟩ := C33_inter_canonical_partial a r ha hr
  obtain ⟨hq, -⟩ := hq hn
  have hi := (C32_inter a r ha hr).2
  rw [← f'] at hi
  rw [e, ok_bind, f, eu, canon_ext hq cu (fun t => by rw [hi, hp, pu, i1, i2]; exact and_or_left)]

/-- the hypotheses of the law of distributivity hold of three sets which interleave -/
example : ∃ ab ac, TSet.inter [⟨0, 4⟩, ⟨8, 9⟩] [⟨2, 6⟩] = .ok ab ∧ TSet.inter [⟨0, 4⟩, ⟨8, 9⟩] [⟨3, 20⟩] = .ok ac ∧
    NoTouch [⟨0, 4⟩, ⟨8, 9⟩] [⟨2, 6⟩] ∧ NoTouch [⟨0, 4⟩, ⟨8, 9⟩] [⟨3, 20⟩] ∧ Lossless [⟨2, 6⟩] [⟨3, 20⟩] ∧ Lossless ab ac := by
  have e1 : TSet.inter [⟨0, 4⟩, ⟨8, 9⟩] [⟨2, 6⟩] = .ok [⟨2, 4⟩] := by
    rw [TSet.inter_eq (by decide) (by decide)]
    simp (config := {decide := true}) [InterIter.new, InterIter.drain_eq, InterIter.step]
  have e2 : TSet.inter [⟨0, 4⟩, ⟨8, 9⟩] [⟨3, 20⟩] = .ok [⟨3, 4⟩, ⟨8, 9⟩] := by
    rw [TSet.inter_eq (by decide) (by decide)]
    simp (config := {decide := true}) [InterIter.new, InterIter.drain_eq, InterIter.step]
  exact ⟨_, _, e1, e2, by decide, by decide, lossless_of (by decide) (by decide) (by decide),
    lossless_of (by decide) (by decide) (by decide)⟩

end Chrono
