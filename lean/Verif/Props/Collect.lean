import Verif.Props.UnionExact
import Verif.Spec.Collect

/-!
# Which dates are left by `collect` and by sums of sets (C38, C42)
-/

namespace Chrono
open Spec

/-- what `collect` keeps of a canonical set, said without its intervals -/
theorem noGap_iff {r : TSet} (hc : Canon r) (b t : Int) :
    (InSet t r ∧ NoGap (fun x => InSet x r) b t) ↔ ∃ z ∈ r, InIv t z ∧ ∀ x ∈ r, b < x.upper → z.upper ≤ x.upper := by
  constructor
  · rintro ⟨⟨z, hz, h⟩, hg⟩
    refine ⟨z, hz, h, fun x hx hb => Int.not_lt.1 fun hlt => ?_⟩
    have gap := gap_of_lt hc hx hz hlt
    have h' : z.lower ≤ t ∧ t ≤ z.upper := h
    have wx := hc.wf x hx
    obtain ⟨y, hy, hy'⟩ := hg x.upper (x.upper + 1) hb (by omega) (by omega) ⟨x, hx, wx.le, Int.le_refl _⟩
    have hy'' : y.lower ≤ x.upper + 1 ∧ x.upper + 1 ≤ y.upper := hy'
    have := gap_of_lt hc hx hy (by omega)
    omega
  · rintro ⟨z, hz, h, hm⟩
    refine ⟨⟨z, hz, h⟩, fun x g h1 h2 h3 ⟨y, hy, hx⟩ => ?_⟩
    have h' : z.lower ≤ t ∧ t ≤ z.upper := h
    have hx' : y.lower ≤ x ∧ x ≤ y.upper := hx
    have h4 := hm y hy (by omega)
    by_cases e : z.upper < y.upper
    · have := gap_of_lt hc hz hy e
      omega
    · exact ⟨y, hy, by omega, by omega⟩

theorem left_snoc (l : List Iv) (w : Iv) : Left (l ++ [w]) = Joined (Left l) w := by
  rw [Left, List.foldl_append]
  rfl

theorem left_sound {l : List Iv} {t : Int} (h : Left l t) : InSet t l := by
  have key : ∀ (l : List Iv) (R : Int → Prop), l.foldl Joined R t → R t ∨ InSet t l := by
    intro l
    induction l with
    | nil => exact fun R h => Or.inl h
    | cons w l ih =>
      intro R h
      rcases ih _ h with (h | ⟨h, -⟩) | ⟨i, hi, h⟩
      · exact Or.inr ⟨w, by simp, h⟩
      · exact Or.inl h
      · exact Or.inr ⟨i, by simp [hi], h⟩
  exact (key l _ h).resolve_left id

/-- C38, decided exactly: the dates collected from intervals in any order are those left by adding them one by one, each time losing what
comes after the first gap behind the new interval. -/
theorem C38_collect_left (l : List Iv) (hl : ∀ i ∈ l, WF i) :
    ∃ r, TSet.fromIter l = .ok r ∧ Canon r ∧ ∀ t, InSet t r ↔ Left l t := by
  have key : ∀ n (l : List Iv), l.length = n → (∀ i ∈ l, WF i) →
      ∃ r, TSet.fromIter l = .ok r ∧ Canon r ∧ ∀ t, InSet t r ↔ Left l t := by
    intro n
    induction n with
    | zero =>
      intro l h _
      rw [List.length_eq_zero_iff] at h
      subst h
      exact ⟨[], rfl, Canon_nil, fun t => ⟨fun h => absurd h InSet_nil, fun h => h.elim⟩⟩
    | succ n ih =>
      intro l h hl
      have hne : l ≠ [] := by rintro rfl; cases h
      obtain ⟨p, w, rfl⟩ : ∃ p w, l = p ++ [w] := ⟨_, _, (List.dropLast_concat_getLast hne).symm⟩
      have hlen : p.length = n := by simpa using h
      obtain ⟨r, e1, -, hr⟩ := ih _ hlen (fun i hi => hl i (by simp [hi]))
      obtain ⟨r0, r', e1', c1, e2, c2, hp⟩ := C38_collect_exact p w (fun i hi => hl i (by simp [hi])) (hl w (by simp))
      rw [e1] at e1'
      cases e1'
      refine ⟨r', e2, c2, fun t => ?_⟩
      have e : (fun x => InSet x r) = Left p := funext fun x => propext (hr x)
      rw [hp, ← noGap_iff c1, e, hr, left_snoc]
      rfl
  exact key _ l rfl hl

/-- C38. `collect` loses nothing at any moment iff, whenever an interval comes, the dates after its end which came before have no gap. -/
theorem C38_lossless_exact (l : List Iv) (hl : ∀ i ∈ l, WF i) :
    (∀ p q, l = p ++ q → ∃ r, TSet.fromIter p = .ok r ∧ ∀ t, InSet t r ↔ InSet t p) ↔
    ∀ p w q, l = p ++ w :: q → ∀ x g t, w.upper < x → x < g → g < t → InSet x p → InSet t p → InSet g p := by
  constructor
  · intro h p w q e x g t h1 h2 h3 hx ht
    have hp : ∀ i ∈ p, WF i := fun i hi => hl i (by rw [e]; simp [hi])
    have e' : l = (p ++ [w]) ++ q := by rw [e]; simp
    have hpw : ∀ i ∈ p ++ [w], WF i := fun i hi => hl i (by rw [e']; exact List.mem_append_left _ hi)
    obtain ⟨r, er, hr⟩ := h p (w :: q) e
    obtain ⟨r', er', hr'⟩ := h (p ++ [w]) q (by rw [e]; simp)
    obtain ⟨r1, e1, c1, k1⟩ := C38_collect_left p hp
    obtain ⟨r2, e2, c2, k2⟩ := C38_collect_left (p ++ [w]) hpw
    rw [er] at e1; cases e1
    rw [er'] at e2; cases e2
    have hR : Left p = fun x => InSet x p := funext fun x => propext ((k1 x).symm.trans (hr x))
    have : InSet t (p ++ [w]) := by
      obtain ⟨i, hi, h⟩ := ht
      exact ⟨i, by simp [hi], h⟩
    rw [← hr', k2, left_snoc] at this
    rcases this with h | ⟨-, h⟩
    · have h' : w.lower ≤ t ∧ t ≤ w.upper := h
      omega
    · rw [hR] at h
      exact h x g h1 h2 h3 hx
  · intro h
    have key : ∀ n p q, p.length = n → l = p ++ q → ∃ r, TSet.fromIter p = .ok r ∧ ∀ t, InSet t r ↔ InSet t p := by
      intro n
      induction n with
      | zero =>
        intro p q hn _
        rw [List.length_eq_zero_iff] at hn
        subst hn
        exact ⟨[], rfl, fun t => Iff.rfl⟩
      | succ n ih =>
        intro p q hn e
        have hne : p ≠ [] := by rintro rfl; cases hn
        obtain ⟨p', w, rfl⟩ : ∃ p' w, p = p' ++ [w] := ⟨_, _, (List.dropLast_concat_getLast hne).symm⟩
        have hlen : p'.length = n := by simpa using hn
        have hwf : ∀ i ∈ p' ++ [w], WF i := fun i hi => hl i (by rw [e]; exact List.mem_append_left _ hi)
        obtain ⟨r, er, hr⟩ := ih p' ([w] ++ q) hlen (by rw [e]; simp)
        obtain ⟨r1, e1, c1, k1⟩ := C38_collect_left _ (fun i hi => hwf i (List.mem_append_left _ hi))
        obtain ⟨r2, e2, c2, k2⟩ := C38_collect_left _ hwf
        rw [er] at e1; cases e1
        have hR : Left p' = fun x => InSet x p' := funext fun x => propext ((k1 x).symm.trans (hr x))
        refine ⟨r2, e2, fun t => ?_⟩
        rw [k2, left_snoc, hR]
        constructor
        · rintro (h | ⟨⟨i, hi, h⟩, -⟩)
          · exact ⟨w, by simp, h⟩
          · exact ⟨i, by simp [hi], h⟩
        · rintro ⟨i, hi, ht⟩
          rcases List.mem_append.1 hi with hi | hi
          · exact Or.inr ⟨⟨i, hi, ht⟩, fun x g h1 h2 h3 hx =>
              h p' w q (by rw [e]; simp) x g t h1 h2 h3 hx ⟨i, hi, ht⟩⟩
          · cases List.mem_singleton.1 hi
            exact Or.inl ht
    exact fun p q e => key _ p q rfl e

/-- C38 is violated by every sequence of sets which starts with a set of at least two intervals and goes on with non-empty sets which all
end before an interval of it which is not the last one: the last interval of the first set is lost. -/
theorem C38_collect_sets_violated (a b : TSet) (l : List TSet) (ha : Canon a) (hb : Canon b) (hne : b ≠ []) (hl : ∀ s ∈ l, Canon s) (x : Iv)
    (hx : x ∈ a.dropLast) (h : ∀ s ∈ b :: l, ∀ y ∈ s, y.upper < x.upper) :
    ∃ r, TSet.fromSets (a :: b :: l) = .ok r ∧ ∃ t, Date t ∧ InSet t a ∧ ¬ InSet t r := by
  obtain ⟨u, e, hu, t, ht, h1, h2⟩ := C30_union_violated a b ha hb hne x hx (h b (by simp))
  have cu : Canon u := by
    rw [TSet.union_eq ha hb] at e
    cases e
    exact (UnionIter.good_new ha hb).1
  obtain ⟨r, er, -, hr⟩ := C31_from_sets_canonical (u :: l) (by
    intro s hs
    rcases List.mem_cons.1 hs with rfl | hs
    · exact cu
    · exact hl s hs)
  obtain ⟨z, hz, hzl⟩ := TSet.dropLast_lt ha hx
  obtain ⟨t, ht, h1⟩ := (ha.wf z hz).exists_date
  have hxl := (ha.wf x ((List.dropLast_sublist a).subset hx)).le
  have hlt : x.upper < t := by
    have : z.lower ≤ t ∧ t ≤ z.upper := h1
    omega
  refine ⟨r, ?_, t, ht, ⟨z, hz, h1⟩, fun c => ?_⟩
  · show (b :: l).foldlM TSet.union a = _
    rw [List.foldlM_cons, e]
    exact er
  · obtain ⟨s, hs, c⟩ := hr t c
    rcases List.mem_cons.1 hs with rfl | hs
    · have := hu t c
      omega
    · obtain ⟨y, hy, c⟩ := c
      have := h s (by simp [hs]) y hy
      have c' : y.lower ≤ t ∧ t ≤ y.upper := c
      omega

example : Canon [⟨0, 1⟩, ⟨10, 11⟩, ⟨20, 21⟩] ∧ (⟨10, 11⟩ : Iv) ∈ ([⟨0, 1⟩, ⟨10, 11⟩, ⟨20, 21⟩] : List Iv).dropLast ∧
    (∀ s ∈ ([[⟨5, 6⟩], [⟨2, 3⟩]] : List TSet), Canon s ∧ ∀ y ∈ s, y.upper < 11) ∧
    TSet.fromSets [[⟨0, 1⟩, ⟨10, 11⟩, ⟨20, 21⟩], [⟨5, 6⟩], [⟨2, 3⟩]] = .ok [⟨0, 3⟩, ⟨5, 6⟩] := by
  refine ⟨by decide, by decide, by decide, by decide +kernel⟩

/-- C38 is violated by every decreasing sequence: only its last two intervals are collected. -/
theorem C38_collect_decreasing_violated (l : List Iv) (x y : Iv) (hl : ∀ i ∈ l ++ [x, y], WF i)
    (hd : (l ++ [x, y]).Pairwise (fun a b => b.upper + 1 < a.lower)) : TSet.fromIter (l ++ [x, y]) = .ok [y, x] := by
  obtain ⟨r, e, hc, hr⟩ := C38_collect_left _ hl
  have wx := hl x (by simp)
  have wy := hl y (by simp)
  have e2 : l ++ [x, y] = (l ++ [x]) ++ [y] := by simp
  have hxy : y.upper + 1 < x.lower := (List.pairwise_append.1 (e2 ▸ hd)).2.2 x (by simp) y (by simp)
  have hlx : ∀ a ∈ l, x.upper + 1 < a.lower := fun a ha => (List.pairwise_append.1 hd).2.2 a ha x (by simp)
  have h2 : Canon [y, x] := Canon_cons.2 ⟨wy, by simp; omega, Canon_cons.2 ⟨wx, by simp, Canon_nil⟩⟩
  have lex := wx.le
  have sound : ∀ t, Left (l ++ [x]) t → InIv t x ∨ x.upper + 1 < t := fun t h => by
    obtain ⟨i, hi, ht⟩ := left_sound h
    have ht' : i.lower ≤ t ∧ t ≤ i.upper := ht
    rcases List.mem_append.1 hi with hi | hi
    · have := hlx i hi
      exact Or.inr (by omega)
    · cases List.mem_singleton.1 hi
      exact Or.inl ht
  have inx : ∀ t, InIv t x → Left (l ++ [x]) t := fun t h => by rw [left_snoc]; exact Or.inl h
  rw [e]
  congr 1
  refine canon_ext hc h2 fun t => ?_
  rw [hr, e2, left_snoc]
  constructor
  · rintro (h | ⟨h, hg⟩)
    · exact ⟨y, by simp, h⟩
    · rcases sound t h with h | h
      · exact ⟨x, by simp, h⟩
      · rcases sound _ (hg x.upper (x.upper + 1) (by omega) (by omega) h (inx _ ⟨lex, Int.le_refl _⟩)) with hc | hc
        · have : x.lower ≤ x.upper + 1 ∧ x.upper + 1 ≤ x.upper := hc
          omega
        · omega
  · rintro ⟨i, hi, h⟩
    simp only [List.mem_cons, List.not_mem_nil, or_false] at hi
    rcases hi with rfl | rfl
    · exact Or.inl h
    · refine Or.inr ⟨inx t h, fun a g h1 h2 h3 ha => ?_⟩
      have h' : i.lower ≤ t ∧ t ≤ i.upper := h
      rcases sound a ha with hc | hc
      · have : i.lower ≤ a ∧ a ≤ i.upper := hc
        exact inx g ⟨by omega, by omega⟩
      · omega

example : (∀ i ∈ ([⟨40, 41⟩, ⟨30, 30⟩] ++ [⟨20, 25⟩, ⟨-5, 7⟩] : List Iv), WF i) ∧
    ([⟨40, 41⟩, ⟨30, 30⟩] ++ [⟨20, 25⟩, ⟨-5, 7⟩] : List Iv).Pairwise (fun a b => b.upper + 1 < a.lower) ∧
    TSet.fromIter [⟨40, 41⟩, ⟨30, 30⟩, ⟨20, 25⟩, ⟨-5, 7⟩] = .ok [⟨-5, 7⟩, ⟨20, 25⟩] := by
  refine ⟨by decide, by decide, by decide +kernel⟩

example : ∃ r, TSet.fromIter [⟨10, 10⟩, ⟨20, 20⟩, ⟨0, 0⟩, ⟨19, 30⟩] = .ok r ∧ Canon r ∧
    ∀ t, InSet t r ↔ Left [⟨10, 10⟩, ⟨20, 20⟩, ⟨0, 0⟩, ⟨19, 30⟩] t := C38_collect_left _ (by decide)

/-! ## C42 -/

/-- C42, decided exactly: without overflow, the dates of `s + spans` are those left of the sums of their intervals, added one by one, an
interval of `s` with all those of `spans` first. -/
theorem C42_add_spans_exact (dbg : Bool) (s sp : TSet) (hs : Canon s) (hsp : Canon sp) (hf : ∀ i ∈ s, ∀ j ∈ sp, FitsSum i j) :
    ∃ r, TSet.addSpans dbg s sp = .ok r ∧ Canon r ∧ ∀ t, InSet t r ↔ Left (s.flatMap (fun i => sp.map (sumOf i))) t := by
  obtain ⟨e, hw, -⟩ := pairs_collect dbg hs hsp hf
  obtain ⟨r, h1, h2, h3⟩ := C38_collect_left _ hw
  refine ⟨r, e.trans h1, h2, fun t => ?_⟩
  rw [h3, TSet.pairs, List.map_flatMap]
  simp only [List.map_map, Function.comp_def]
  rfl

/-- what `s - spans` collects -/
theorem pairs_collect_sub (dbg : Bool) {s sp : TSet} (hs : Canon s) (hsp : Canon sp) (hf : ∀ i ∈ s, ∀ j ∈ sp, FitsDiff i j) :
    TSet.subSpans dbg s sp = TSet.fromIter (s.flatMap (fun i => sp.map (diffOf i))) ∧
    ∀ y ∈ s.flatMap (fun i => sp.map (diffOf i)), WF y := by
  have mem : ∀ p : Iv × Iv, p ∈ TSet.pairs s sp → p.1 ∈ s ∧ p.2 ∈ sp := by
    rintro ⟨i, j⟩
    simp only [TSet.pairs, List.mem_flatMap, List.mem_map, Prod.mk.injEq]
    rintro ⟨i', hi, j', hj, rfl, rfl⟩; exact ⟨hi, hj⟩
  have sum : ∀ p ∈ TSet.pairs s sp, p.1.subSpan dbg p.2 = .ok (diffOf p.1 p.2) ∧ WF (diffOf p.1 p.2) := by
    intro p hp
    obtain ⟨h1, h2⟩ := mem p hp
    obtain ⟨a, b, -⟩ := addSpan_sum dbg (hs.wf _ h1) (hsp.wf _ h2).neg (fitsDiff (hf _ h1 _ h2))
    have : sumIv p.1 p.2.neg = diffOf p.1 p.2 := by
      have h3 : -p.2.upper = -INF ↔ p.2.upper = INF := by omega
      have h4 : -p.2.lower = INF ↔ p.2.lower = -INF := by omega
      simp only [sumIv, diffOf, Iv.neg, h3, h4, Int.sub_eq_add_neg]
    rw [this] at a b
    exact ⟨a, b⟩
  have e : s.flatMap (fun i => sp.map (diffOf i)) = (TSet.pairs s sp).map (fun p => diffOf p.1 p.2) := by
    rw [TSet.pairs, List.map_flatMap]
    simp only [List.map_map, Function.comp_def]
  rw [e, TSet.subSpans, mapM_ok (fun p hp => (sum p hp).1)]
  refine ⟨rfl, fun y hy => ?_⟩
  obtain ⟨p, hp, rfl⟩ := List.mem_map.1 hy
  exact (sum p hp).2

/-- C42 for differences, decided exactly in the same way. -/
theorem C42_sub_spans_exact (dbg : Bool) (s sp : TSet) (hs : Canon s) (hsp : Canon sp) (hf : ∀ i ∈ s, ∀ j ∈ sp, FitsDiff i j) :
    ∃ r, TSet.subSpans dbg s sp = .ok r ∧ Canon r ∧ ∀ t, InSet t r ↔ Left (s.flatMap (fun i => sp.map (diffOf i))) t := by
  obtain ⟨e, hw⟩ := pairs_collect_sub dbg hs hsp hf
  obtain ⟨r, h1, h2, h3⟩ := C38_collect_left _ hw
  exact ⟨r, e.trans h1, h2, h3⟩

/-- C42 is violated by the difference of any bounded interval and spans which are further apart than its length: only the differences
with the last two spans are left. -/
theorem C42_sub_spans_violated (dbg : Bool) (i x y : Iv) (l : List Iv) (hi : WF i) (hb : Bounded i) (hsp : Canon (l ++ [x, y]))
    (hf : ∀ j ∈ l ++ [x, y], FitsDiff i j) (hd : (l ++ [x, y]).Pairwise (fun a b => a.upper + (i.upper - i.lower) + 1 < b.lower)) :
    TSet.subSpans dbg [i] (l ++ [x, y]) = .ok [diffOf i y, diffOf i x] := by
  have hc : Canon [i] := Canon_cons.2 ⟨hi, by simp, Canon_nil⟩
  obtain ⟨e, hw⟩ := pairs_collect_sub dbg hc hsp (fun k hk => by cases List.mem_singleton.1 hk; exact hf)
  have e2 : [i].flatMap (fun k => (l ++ [x, y]).map (diffOf k)) = l.map (diffOf i) ++ [diffOf i x, diffOf i y] := by simp
  rw [e2] at e hw
  rw [e]
  refine C38_collect_decreasing_violated _ _ _ hw ?_
  have e3 : l.map (diffOf i) ++ [diffOf i x, diffOf i y] = (l ++ [x, y]).map (diffOf i) := by simp
  rw [e3, List.pairwise_map]
  refine hd.imp_of_mem fun {a b} ha hb' h => ?_
  have wa := hsp.wf a ha
  have wb := hsp.wf b hb'
  obtain ⟨a1, a2, a3, a4, a5⟩ := wa
  obtain ⟨b1, b2, b3, b4, b5⟩ := wb
  have := hi.le
  simp only [Bounded, Date] at hb
  simp only [diffOf]
  split <;> split <;> omega

example : WF ⟨100, 101⟩ ∧ Bounded ⟨100, 101⟩ ∧ Canon ([⟨0, 0⟩] ++ [⟨10, 12⟩, ⟨20, 20⟩] : List Iv) ∧
    (∀ j ∈ ([⟨0, 0⟩] ++ [⟨10, 12⟩, ⟨20, 20⟩] : List Iv), FitsDiff ⟨100, 101⟩ j) ∧
    ([⟨0, 0⟩] ++ [⟨10, 12⟩, ⟨20, 20⟩] : List Iv).Pairwise (fun a b => a.upper + (101 - 100) + 1 < b.lower) ∧
    TSet.subSpans true [⟨100, 101⟩] [⟨0, 0⟩, ⟨10, 12⟩, ⟨20, 20⟩] = .ok [⟨80, 81⟩, ⟨88, 91⟩] := by
  refine ⟨by decide, by decide, by decide, by decide, by decide, by decide +kernel⟩

end Chrono
