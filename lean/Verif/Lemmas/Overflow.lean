import Verif.Lemmas.SetArith
import Verif.Lemmas.Loose

set_option linter.unusedSimpArgs false

/-!
# Sums of intervals which may overflow
-/

namespace Chrono
open Spec

/-- every number between the bounds of a sum is a sum -/
theorem sum_iff {i s : Iv} (hi : WF i) (hs : WF s) (t : Int) :
    (∃ a b, InExt a i ∧ InExt b s ∧ t = a + b) ↔
      (i.lower = -INF ∨ s.lower = -INF ∨ i.lower + s.lower ≤ t) ∧
      (i.upper = INF ∨ s.upper = INF ∨ t ≤ i.upper + s.upper) := by
  rcases i with ⟨l1, u1⟩
  rcases s with ⟨l2, u2⟩
  obtain ⟨h1, h2, h3, h4, h5⟩ := hi
  obtain ⟨g1, g2, g3, g4, g5⟩ := hs
  simp only [InExt] at *
  constructor
  · rintro ⟨a, b, ha, hb, rfl⟩
    omega
  · rintro ⟨hL, hU⟩
    have key : ∃ a, ((l1 = -INF ∨ l1 ≤ a) ∧ (u1 = INF ∨ a ≤ u1)) ∧
        (l2 = -INF ∨ l2 ≤ t - a) ∧ (u2 = INF ∨ t - a ≤ u2) := by
      by_cases c1 : l1 = -INF <;> by_cases c2 : u2 = INF <;> by_cases c3 : u1 = INF <;>
        by_cases c4 : l2 = -INF
      all_goals first
        | (refine ⟨t, ?_⟩; ticks)
        | (refine ⟨t - l2, ?_⟩; ticks)
        | (refine ⟨u1, ?_⟩; ticks)
        | (refine ⟨min u1 (t - l2), ?_⟩; ticks)
        | (refine ⟨t - u2, ?_⟩; ticks)
        | (refine ⟨l1, ?_⟩; ticks)
        | (refine ⟨max l1 (t - u2), ?_⟩; ticks)
    obtain ⟨a, ha, hb⟩ := key
    exact ⟨a, t - a, ha, hb, by omega⟩

/-- the bounds of a sum, saturated -/
def satIv (i s : Iv) : Iv :=
  ⟨if i.lower = -INF ∨ s.lower = -INF then -INF else round (i.lower + s.lower),
   if i.upper = INF ∨ s.upper = INF then INF else round (i.upper + s.upper)⟩

theorem satIv_bounds {i s : Iv} (hi : WF i) (hs : WF s) :
    (satIv i s).lower ≤ (satIv i s).upper ∧ -INF ≤ (satIv i s).lower ∧ (satIv i s).upper ≤ INF ∧
    ∀ t, Date t → (InIv t (satIv i s) ↔ ∃ a b, InExt a i ∧ InExt b s ∧ t = a + b) := by
  have hsum := sum_iff hi hs
  rcases i with ⟨l1, u1⟩
  rcases s with ⟨l2, u2⟩
  obtain ⟨h1, h2, h3, h4, h5⟩ := hi
  obtain ⟨g1, g2, g3, g4, g5⟩ := hs
  simp only [satIv, round, InIv] at *
  have hl : ∃ l, (if l1 = -INF ∨ l2 = -INF then -INF else if l1 + l2 ≥ INF then INF else
      if l1 + l2 ≤ -INF then -INF else l1 + l2) = l ∧
      (((l1 = -INF ∨ l2 = -INF ∨ l1 + l2 ≤ -INF) ∧ l = -INF) ∨
       (l1 ≠ -INF ∧ l2 ≠ -INF ∧ INF ≤ l1 + l2 ∧ l = INF) ∨
       (l1 ≠ -INF ∧ l2 ≠ -INF ∧ -INF < l1 + l2 ∧ l1 + l2 < INF ∧ l = l1 + l2)) := by
    refine ⟨_, rfl, ?_⟩
    repeat' split
    all_goals ticks
  have hu : ∃ u, (if u1 = INF ∨ u2 = INF then INF else if u1 + u2 ≥ INF then INF else
      if u1 + u2 ≤ -INF then -INF else u1 + u2) = u ∧
      (((u1 = INF ∨ u2 = INF ∨ INF ≤ u1 + u2) ∧ u = INF) ∨
       (u1 ≠ INF ∧ u2 ≠ INF ∧ u1 + u2 ≤ -INF ∧ u = -INF) ∨
       (u1 ≠ INF ∧ u2 ≠ INF ∧ -INF < u1 + u2 ∧ u1 + u2 < INF ∧ u = u1 + u2)) := by
    refine ⟨_, rfl, ?_⟩
    repeat' split
    all_goals ticks
  obtain ⟨l, el, hl⟩ := hl
  obtain ⟨u, eu, hu⟩ := hu
  rw [el, eu]
  refine ⟨by ticks, by ticks, by ticks, fun t ht => ?_⟩
  rw [hsum]
  ticks

theorem hasSum_iff {i s : Iv} (hi : WF i) (hs : WF s) : HasSum i s ↔ WF (satIv i s) := by
  obtain ⟨h1, h2, h3, h4⟩ := satIv_bounds hi hs
  constructor
  · rintro ⟨t, ht, h⟩
    have := (h4 t ht).2 h
    simp only [InIv] at this
    constructor <;> ticks
  · intro hw
    obtain ⟨t, ht, h⟩ := hw.exists_date
    exact ⟨t, ht, (h4 t ht).1 h⟩

theorem addSpan_bounds {i s : Iv} (hi : WF i) (hs : WF s) :
    tvAdd i.lower s.lower = .ok (satIv i s).lower ∧ tvAdd i.upper s.upper = .ok (satIv i s).upper := by
  rcases i with ⟨l1, u1⟩
  rcases s with ⟨l2, u2⟩
  obtain ⟨h1, h2, h3, h4, h5⟩ := hi
  obtain ⟨g1, g2, g3, g4, g5⟩ := hs
  simp only at *
  have e1 : tvAdd l1 l2 = .ok (satIv ⟨l1, u1⟩ ⟨l2, u2⟩).lower := by
    rw [tvAdd_ok (by ticks) (by ticks) (by ticks) (by ticks), if_neg (by ticks)]
    rfl
  have e2 : tvAdd u1 u2 = .ok (satIv ⟨l1, u1⟩ ⟨l2, u2⟩).upper := by
    rw [tvAdd_ok (by ticks) (by ticks) (by ticks) (by ticks)]
    simp only [satIv]
    split
    · rfl
    · rw [if_neg (by ticks)]
  exact ⟨e1, e2⟩

theorem addSpan_sat (dbg : Bool) {i s : Iv} (hi : WF i) (hs : WF s) :
    i.addSpan dbg s = Iv.debugNonEmpty dbg (Iv.new (satIv i s).lower (satIv i s).upper) := by
  have e := addSpan_bounds hi hs
  simp only [Iv.addSpan, e.1, e.2]
  rfl

theorem addSpan_has (dbg : Bool) {i s : Iv} (hi : WF i) (hs : WF s) (h : HasSum i s) :
    i.addSpan dbg s = .ok (satIv i s) := by
  have hw := (hasSum_iff hi hs).1 h
  rw [addSpan_sat dbg hi hs]
  generalize satIv i s = j at *
  rw [Iv.new_wf (l := j.lower) (u := j.upper) hw]
  simp [Iv.debugNonEmpty, hw.not_isEmpty]

theorem addSpan_none (dbg : Bool) {i s : Iv} (hi : WF i) (hs : WF s) (h : ¬ HasSum i s) :
    i.addSpan dbg s = if dbg then .error .debugAssert else .ok Iv.empty := by
  have hb := satIv_bounds hi hs
  have hn : ¬ WF (satIv i s) := fun hw => h ((hasSum_iff hi hs).2 hw)
  have e : Iv.new (satIv i s).lower (satIv i s).upper = Iv.empty := by
    generalize satIv i s = j at *
    obtain ⟨h1, h2, h3, -⟩ := hb
    have hc : (j.lower = INF ∧ j.upper = INF) ∨ (j.lower = -INF ∧ j.upper = -INF) := by
      rcases Classical.em ((j.lower = INF ∧ j.upper = INF) ∨ (j.lower = -INF ∧ j.upper = -INF)) with c | c
      · exact c
      · exact absurd ⟨h1, h2, h3, by ticks, by ticks⟩ hn
    rcases hc with ⟨a, b⟩ | ⟨a, b⟩ <;> rw [a, b] <;> decide
  rw [addSpan_sat dbg hi hs, e]
  cases dbg <;> decide

/-- `i + sp` in a release build -/
def trIv (sp i : Iv) : Iv := Iv.new (satIv i sp).lower (satIv i sp).upper

theorem addSpan_tr {i sp : Iv} (hi : WF i) (hs : WF sp) : i.addSpan false sp = .ok (trIv sp i) := by
  rw [addSpan_sat false hi hs]; rfl

theorem trIv_has {i sp : Iv} (hi : WF i) (hs : WF sp) (h : HasSum i sp) : trIv sp i = satIv i sp := by
  have := addSpan_has false hi hs h
  rw [addSpan_tr hi hs] at this
  exact Except.ok.inj this

theorem trIv_none {i sp : Iv} (hi : WF i) (hs : WF sp) (h : ¬ HasSum i sp) : trIv sp i = Iv.empty := by
  have := addSpan_none false hi hs h
  rw [addSpan_tr hi hs] at this
  exact Except.ok.inj this

theorem trIv_wf {i sp : Iv} (hi : WF i) (hs : WF sp) : WF (trIv sp i) ↔ HasSum i sp := by
  constructor
  · intro h
    rcases Classical.em (HasSum i sp) with c | c
    · exact c
    · rw [trIv_none hi hs c] at h; exact absurd h.le (by decide)
  · intro h; rw [trIv_has hi hs h]; exact (hasSum_iff hi hs).1 h

theorem trIv_isEmpty {i sp : Iv} (hi : WF i) (hs : WF sp) : (trIv sp i).isEmpty = false ↔ HasSum i sp := by
  constructor
  · intro h
    rcases Classical.em (HasSum i sp) with c | c
    · exact c
    · rw [trIv_none hi hs c] at h; exact absurd h (by decide)
  · intro h; exact ((trIv_wf hi hs).2 h).not_isEmpty

theorem trIv_dates {i sp : Iv} (hi : WF i) (hs : WF sp) {t : Int} (ht : Date t) :
    InIv t (trIv sp i) ↔ ∃ a b, InExt a i ∧ InExt b sp ∧ t = a + b := by
  by_cases h : HasSum i sp
  · rw [trIv_has hi hs h]; exact (satIv_bounds hi hs).2.2.2 t ht
  · rw [trIv_none hi hs h]
    exact ⟨fun h' => absurd h' (empty_no_date ht), fun h' => absurd ⟨t, ht, h'⟩ h⟩

/-- sums made from an earlier interval do not start after those made from a later one end -/
theorem satIv_order {a b sp : Iv} (ha : WF a) (hb : WF b) (hsp : WF sp) (h : a.upper + 1 < b.lower) :
    (satIv a sp).lower ≤ (satIv b sp).upper := by
  obtain ⟨a1, a2, a3, a4, a5⟩ := ha
  obtain ⟨b1, b2, b3, b4, b5⟩ := hb
  obtain ⟨s1, s2, s3, s4, s5⟩ := hsp
  simp only [satIv, round]
  repeat' split
  all_goals ticks

/-- in a canonical set, translated intervals which still have dates keep their gaps -/
theorem satIv_gap {a b : Iv} {d : Int} (ha : WF a) (hb : WF b) (hd : Date d) (h : a.upper + 1 < b.lower)
    (wa : WF (satIv a ⟨d, d⟩)) (wb : WF (satIv b ⟨d, d⟩)) : (satIv a ⟨d, d⟩).upper + 1 < (satIv b ⟨d, d⟩).lower := by
  obtain ⟨a1, a2, a3, a4, a5⟩ := ha
  obtain ⟨b1, b2, b3, b4, b5⟩ := hb
  have e1 : (satIv a ⟨d, d⟩).upper = round (a.upper + d) := by
    simp only [satIv]; rw [if_neg (by ticks)]
  have e2 : (satIv b ⟨d, d⟩).lower = round (b.lower + d) := by
    simp only [satIv]; rw [if_neg (by ticks)]
  have k1 := wa.lt_hi
  have k2 := wb.lo_lt
  rw [e1] at k1 ⊢
  rw [e2] at k2 ⊢
  simp only [round] at *
  have k3 : ¬ a.upper + d ≤ -INF := by intro c; rw [if_neg (by ticks), if_pos c] at k1; omega
  have k4 : ¬ b.lower + d ≥ INF := by intro c; rw [if_pos c] at k2; omega
  rw [if_neg (by omega), if_neg k3, if_neg k4, if_neg (by omega)]
  omega

theorem unionConvex_canon {r : List Iv} {x : Iv} (hr : Canon r) (hx : WF x) :
    ∃ r', TSet.unionConvex r (.iv x) = .ok r' ∧ Canon r' := by
  have : (Convex.iv (Convex.iv x).into).iter = [x] := TSet.iter_wf hx
  rw [TSet.unionConvex, this]
  obtain ⟨h1, -⟩ := UnionIter.good_new hr (Canon_cons.2 ⟨hx, by simp, Canon_nil⟩)
  exact ⟨_, TSet.fromIter_canon h1, h1⟩

/-- uniting with empty intervals changes nothing -/
theorem foldlM_union_skip (l : List Iv) (hl : ∀ b ∈ l, WF b ∨ b = Iv.empty) :
    ∀ r : List Iv, Canon r → l.foldlM (fun r i => TSet.unionConvex r (.iv i)) r =
      (l.filter (fun b => !b.isEmpty)).foldlM (fun r i => TSet.unionConvex r (.iv i)) r := by
  induction l with
  | nil => intro r _; rfl
  | cons x xs ih =>
    intro r hr
    have ih := ih (fun b hb => hl b (by simp [hb]))
    rcases hl x (by simp) with hx | rfl
    · obtain ⟨r', h1, h2⟩ := unionConvex_canon hr hx
      rw [List.filter_cons_of_pos (by simp [hx.not_isEmpty]), List.foldlM_cons, List.foldlM_cons, h1]
      exact ih r' h2
    · rw [List.filter_cons_of_neg (by decide), List.foldlM_cons, unionConvex_empty hr]
      exact ih r hr

end Chrono
