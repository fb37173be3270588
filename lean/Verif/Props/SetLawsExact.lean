import Verif.Props.SetLaws

set_option linter.unusedSimpArgs false

/-!
# When the laws of set algebra hold, exactly (C105)
-/

namespace Chrono
open Spec

/-! ## Helper lemmas -/

/-- sets touch wherever their complements do not keep apart -/
theorem noTouch_of_compl {a b : TSet} (ha : Canon a) (hb : Canon b) (hn : NoTouch (TSet.compl a) (TSet.compl b)) : NoTouch a b := by
  have key : ∀ {a b : TSet}, Canon a → Canon b → NoTouch (TSet.compl a) (TSet.compl b) → ∀ x ∈ a, ∀ y ∈ b, x.upper + 1 ≠ y.lower := by
    intro a b ha hb hn x hx y hy e
    obtain ⟨c1, -, c3⟩ := compl_spec ha
    obtain ⟨d1, -, d3⟩ := compl_spec hb
    obtain ⟨x1, x2, x3, x4, x5⟩ := ha.wf x hx
    obtain ⟨y1, y2, y3, y4, y5⟩ := hb.wf y hy
    have dx : Date x.upper := ⟨by omega, by omega⟩
    have dy : Date y.lower := ⟨by omega, by omega⟩
    have nx : ¬ InSet y.lower a := by
      rintro ⟨z, hz, h1, h2⟩
      by_cases ne : z = x
      · subst ne; omega
      · rcases gap_cases ha hz hx ne with g | g <;> omega
    have ny : ¬ InSet x.upper b := by
      rintro ⟨z, hz, h1, h2⟩
      by_cases ne : z = y
      · subst ne; omega
      · rcases gap_cases hb hz hy ne with g | g <;> omega
    obtain ⟨i, hi, i1, i2⟩ := (c3 _ dy).2 nx
    obtain ⟨j, hj, j1, j2⟩ := (d3 _ dx).2 ny
    have ei : i.lower = y.lower := Classical.byContradiction fun ne =>
      (c3 _ dx).1 ⟨i, hi, by constructor <;> omega⟩ ⟨x, hx, by constructor <;> omega⟩
    have ej : j.upper = x.upper := Classical.byContradiction fun ne =>
      (d3 _ dy).1 ⟨j, hj, by constructor <;> omega⟩ ⟨y, hy, by constructor <;> omega⟩
    have := (hn i hi j hj).2
    omega
  intro x hx y hy
  refine ⟨key ha hb hn x hx y hy, key hb ha (fun i hi j hj => (hn j hj i hi).symm) y hy x hx⟩

theorem complTail_edges (rest : List Iv) : ∀ (p : Int), ∀ x ∈ rest,
    (∃ u ∈ TSet.complTail p rest, u.upper = justBefore x.lower) ∧
    (justAfter x.upper ≠ INF → ∃ v ∈ TSet.complTail p rest, v.lower = justAfter x.upper) := by
  induction rest with
  | nil => intro p x hx; simp at hx
  | cons y ys ih =>
    intro p x hx
    simp only [TSet.complTail]
    rcases List.mem_cons.1 hx with e | hx
    · subst e
      refine ⟨⟨_, List.mem_cons_self, rfl⟩, fun hne => ?_⟩
      cases ys with
      | nil =>
        refine ⟨(Convex.rangeFrom (justAfter x.upper)).into, ?_, ?_⟩
        · simp only [TSet.complTail, isFutureInfinite, beq_iff_eq, if_neg hne, List.mem_cons, or_true, List.mem_nil_iff, or_false]
        · simp only [Convex.into, Convex.lower]
      | cons z zs => exact ⟨⟨justAfter x.upper, justBefore z.lower⟩, by simp [TSet.complTail], rfl⟩
    · obtain ⟨⟨u, hu, e1⟩, h2⟩ := ih (justAfter y.upper) x hx
      exact ⟨⟨u, List.mem_cons_of_mem _ hu, e1⟩, fun h => by
        obtain ⟨v, hv, e2⟩ := h2 h
        exact ⟨v, List.mem_cons_of_mem _ hv, e2⟩⟩

/-- the complement of a set holding an empty interval has two intervals which touch -/
theorem compl_loose_not_canon {r : TSet} (hr : Loose r) (h : ¬ Canon r) : ¬ Canon (TSet.compl r) := by
  have : ∃ x ∈ r, x.upper < x.lower := Classical.byContradiction fun hn => h ⟨fun i hi => by
    obtain ⟨h1, h2, h3, h4, h5⟩ := hr.wf i hi
    exact ⟨Int.not_lt.1 fun c => hn ⟨i, hi, c⟩, h2, h3, h4, h5⟩, hr.gap⟩
  obtain ⟨x, hx, hlt⟩ := this
  obtain ⟨h1, h2, h3, h4, h5⟩ := hr.wf x hx
  have eb : justBefore x.lower = x.upper := by rw [justBefore_date ⟨by omega, by omega⟩]; omega
  have ea : justAfter x.upper = x.lower := by rw [justAfter_date ⟨by omega, by omega⟩]; omega
  have edges : (∃ u ∈ TSet.compl r, u.upper = x.upper) ∧ ∃ v ∈ TSet.compl r, v.lower = x.lower := by
    cases r with
    | nil => simp at hx
    | cons y ys =>
      have tail : ∀ v ∈ TSet.complTail (justAfter y.upper) ys, v ∈ TSet.compl (y :: ys) := by
        intro v hv
        simp only [TSet.compl]
        split
        · exact List.mem_cons_of_mem _ hv
        · exact hv
      rcases List.mem_cons.1 hx with e | hx
      · subst e
        constructor
        · refine ⟨(Convex.rangeTo x.lower).into, ?_, by simp only [Convex.into, Convex.upper, eb]⟩
          have : isPastInfinite x.upper = false := by simp only [isPastInfinite, beq_eq_false_iff_ne]; omega
          simp only [TSet.compl, eb, this, Bool.not_false, if_true]
          exact List.mem_cons_self
        · cases ys with
          | nil =>
            refine ⟨(Convex.rangeFrom (justAfter x.upper)).into, tail _ ?_, by simp only [Convex.into, Convex.lower, ea]⟩
            have : isFutureInfinite x.lower = false := by simp only [isFutureInfinite, beq_eq_false_iff_ne]; omega
            simp only [TSet.complTail, ea, this, Bool.false_eq_true, if_false]
            exact List.mem_cons_self
          | cons z zs => exact ⟨⟨justAfter x.upper, justBefore z.lower⟩, tail _ (by simp [TSet.complTail]), ea⟩
      · obtain ⟨⟨u, hu, e1⟩, h2⟩ := complTail_edges ys (justAfter y.upper) x hx
        obtain ⟨v, hv, e2⟩ := h2 (by rw [ea]; omega)
        exact ⟨⟨u, tail u hu, e1.trans eb⟩, v, tail v hv, e2.trans ea⟩
  obtain ⟨⟨u, hu, e1⟩, v, hv, e2⟩ := edges
  intro hc
  have wu := (hc.wf u hu).le
  by_cases ne : u = v
  · subst ne; omega
  · have wv := (hc.wf v hv).le
    rcases gap_cases hc hu hv ne with g | g <;> omega

/-- a union which loses something loses a date of its left operand -/
theorem lost_date {a b : TSet} (ha : Canon a) (hb : Canon b) (h : ¬ Lossless a b) :
    ∃ r t, TSet.union a b = .ok r ∧ Date t ∧ InSet t a ∧ ¬ InSet t r := by
  rw [C30_lossless_exact a b ha hb] at h
  simp only [not_or] at h
  obtain ⟨hne, h2, h3⟩ := h
  obtain ⟨l1, x, l2, e, hp, hx⟩ := first_split (fun z => ∃ y ∈ b, z.upper < y.upper) a.dropLast
    (Classical.byContradiction fun hc => h2 fun z hz => Classical.byContradiction fun hc' => hc ⟨z, hz, hc'⟩)
  have hane : a ≠ [] := by rintro rfl; simp at e
  obtain ⟨w, ew⟩ : ∃ w, a = l1 ++ x :: (l2 ++ [w]) :=
    ⟨a.getLast hane, by
      have := List.dropLast_concat_getLast hane
      rw [e] at this; rw [← List.cons_append, ← List.append_assoc]; exact this.symm⟩
  subst ew
  have hxb : ∀ y ∈ b, y.upper ≤ x.upper := fun y hy => Int.not_lt.1 fun h => hx ⟨y, hy, h⟩
  obtain ⟨r, hr, hpts⟩ := C30_union_exact l1 (l2 ++ [w]) b x ha hb hne hp hxb
  obtain ⟨t, td, t1, t2⟩ := (ha.wf w (by simp)).exists_date
  have hg := List.pairwise_append.1 ha.gap
  have hg2 := List.pairwise_cons.1 hg.2.1
  have hg3 := List.pairwise_append.1 hg2.2
  have hxw := hg2.1 w (by simp)
  refine ⟨r, t, hr, td, ⟨w, by simp, t1, t2⟩, fun hin => ?_⟩
  rcases (hpts t).1 hin with ⟨z, hz, z1, z2⟩ | ⟨z1, z2⟩ | ⟨z, hz, z1, z2⟩ | ⟨c1, c2, z, rest, ez, z1, z2⟩
  · have := hg.2.2 z hz w (by simp); omega
  · omega
  · have := hxb z hz; omega
  · cases l2 with
    | nil => exact h3 ⟨l1, x, w, rfl, hp, c1, hxb, c2⟩
    | cons z' l2 =>
      simp only [List.cons_append, List.cons.injEq] at ez
      have := hg3.2.2 z (by simp [ez.1]) w (by simp)
      omega

namespace UnionIter

theorem waitI_loose {i tmp : Iv} (is j : List Iv) (hi : LooseIv i) (ht : LooseIv tmp) :
    drain ⟨i :: is, j, .waitI, tmp⟩ =
      if i.upper + 1 < tmp.lower then i :: drain ⟨is, j, .waitI, tmp⟩
      else if tmp.upper + 1 < i.lower then tmp :: drain ⟨is, j, .waitJ, i⟩
      else if i.upper ≤ tmp.upper then drain ⟨is, j, .waitI, ⟨min tmp.lower i.lower, tmp.upper⟩⟩
      else drain ⟨is, j, .waitJ, ⟨min tmp.lower i.lower, i.upper⟩⟩ := by
  rw [drain_eq]
  simp only [step, lt_justBefore hi.lt_hi ht.lo_lt, lt_justBefore ht.lt_hi hi.lo_lt, merge_lower]
  repeat' split
  all_goals simp_all

theorem waitJ_loose {j tmp : Iv} (i js : List Iv) (hj : LooseIv j) (ht : LooseIv tmp) :
    drain ⟨i, j :: js, .waitJ, tmp⟩ =
      if j.upper + 1 < tmp.lower then j :: drain ⟨i, js, .waitJ, tmp⟩
      else if tmp.upper + 1 < j.lower then tmp :: drain ⟨i, js, .waitI, j⟩
      else if j.upper ≤ tmp.upper then drain ⟨i, js, .waitJ, ⟨min tmp.lower j.lower, tmp.upper⟩⟩
      else drain ⟨i, js, .waitI, ⟨min tmp.lower j.lower, j.upper⟩⟩ := by
  rw [drain_eq]
  simp only [step, lt_justBefore hj.lt_hi ht.lo_lt, lt_justBefore ht.lt_hi hj.lo_lt, merge_lower]
  repeat' split
  all_goals simp_all

/-- intervals within those of a set, possibly empty ones at their borders -/
def Inside (l a : List Iv) : Prop := ∀ x ∈ l, ∃ w ∈ a, w.lower ≤ x.lower ∧ x.upper ≤ w.upper

theorem absorb_wait (n : Nat) : ∀ (l a : List Iv), l.length + a.length ≤ n → Loose l →
    (∀ z, Canon (z :: a) → Inside l (z :: a) → drain ⟨l, a, .waitI, z⟩ = z :: a) ∧
    (∀ z, Canon (z :: a) → Inside l (z :: a) → (∀ y ∈ l, z.upper + 1 < y.lower) → drain ⟨l, a, .waitJ, z⟩ = z :: a) ∧
    (∀ x, Loose (x :: l) → Canon a → Inside (x :: l) a → drain ⟨l, a, .waitJ, x⟩ = a) := by
  induction n with
  | zero =>
    intro l a h hl
    obtain rfl : l = [] := List.length_eq_zero_iff.1 (by omega)
    obtain rfl : a = [] := List.length_eq_zero_iff.1 (by omega)
    refine ⟨fun z _ _ => drain_waitI_nil _ _, fun z _ _ _ => drain_waitJ_nil _ _, fun x _ _ hi => ?_⟩
    obtain ⟨w, hw, -⟩ := hi x (by simp)
    simp at hw
  | succ n ih =>
    intro l a h hl
    refine ⟨fun z hz hi => ?_, fun z hz hi hy => ?_, fun x hx ha hi => ?_⟩
    · cases l with
      | nil => exact drain_waitI_nil _ _
      | cons x xs =>
        obtain ⟨wz, gz, ca⟩ := Canon_cons.1 hz
        obtain ⟨lx, gx, lxs⟩ := Loose_cons.1 hl
        rw [waitI_loose _ _ lx wz.loose]
        obtain ⟨w, hw, w1, w2⟩ := hi x (by simp)
        have wlo : z.lower ≤ w.lower := by
          rcases List.mem_cons.1 hw with e | hw
          · rw [e]; exact Int.le_refl _
          · have := gz w hw; have := wz.le; omega
        have lle := lx.le
        rw [if_neg (by omega)]
        by_cases c : z.upper + 1 < x.lower
        · rw [if_pos c]
          congr 1
          refine (ih xs a (by simp only [List.length_cons] at h; omega) lxs).2.2 x hl ca (fun y hy => ?_)
          obtain ⟨v, hv, v1, v2⟩ := hi y hy
          rcases List.mem_cons.1 hv with e | hv
          · subst e
            exfalso
            have ly := (hl.wf y hy).le
            rcases List.mem_cons.1 hy with e | hy
            · subst e; omega
            · have := gx y hy; omega
          · exact ⟨v, hv, v1, v2⟩
        · rw [if_neg c]
          have hwz : w = z := by
            rcases List.mem_cons.1 hw with e | hw
            · exact e
            · have := gz w hw; omega
          subst hwz
          rw [if_pos w2, Int.min_eq_left w1]
          exact (ih xs a (by simp only [List.length_cons] at h; omega) lxs).1 w hz (fun y hy => hi y (by simp [hy]))
    · cases a with
      | nil => exact drain_waitJ_nil _ _
      | cons j js =>
        obtain ⟨wz, gz, ca⟩ := Canon_cons.1 hz
        obtain ⟨wj, -, -⟩ := Canon_cons.1 ca
        have g := gz j (by simp)
        have := wz.le
        have := wj.le
        rw [waitJ_loose _ _ wj.loose wz.loose, if_neg (by omega), if_pos (by omega)]
        congr 1
        refine (ih l js (by simp only [List.length_cons] at h; omega) hl).1 j ca (fun y hy' => ?_)
        obtain ⟨v, hv, v1, v2⟩ := hi y hy'
        rcases List.mem_cons.1 hv with e | hv
        · subst e
          have := hy y hy'; have := (hl.wf y hy').le; omega
        · exact ⟨v, hv, v1, v2⟩
    · cases a with
      | nil => obtain ⟨w, hw, -⟩ := hi x (by simp); simp at hw
      | cons j js =>
        obtain ⟨wj, gj, cjs⟩ := Canon_cons.1 ha
        obtain ⟨lx, gx, -⟩ := Loose_cons.1 hx
        obtain ⟨w, hw, w1, w2⟩ := hi x (by simp)
        have lle := lx.le
        have jle := wj.le
        rw [waitJ_loose _ _ wj.loose lx]
        by_cases c : j.upper + 1 < x.lower
        · rw [if_pos c]
          congr 1
          refine (ih l js (by simp only [List.length_cons] at h; omega) hl).2.2 x hx cjs (fun y hy => ?_)
          obtain ⟨v, hv, v1, v2⟩ := hi y hy
          rcases List.mem_cons.1 hv with e | hv
          · subst e
            exfalso
            have ly := (hx.wf y hy).le
            rcases List.mem_cons.1 hy with e | hy
            · subst e; omega
            · have := gx y hy; omega
          · exact ⟨v, hv, v1, v2⟩
        · have hwj : w = j := by
            rcases List.mem_cons.1 hw with e | hw
            · exact e
            · have := gj w hw; omega
          subst hwj
          have e1 : min x.lower w.lower = w.lower := Int.min_eq_right w1
          rw [if_neg c, if_neg (by omega), e1]
          by_cases c' : w.upper ≤ x.upper
          · rw [if_pos c', Int.le_antisymm w2 c']
            exact (ih l js (by simp only [List.length_cons] at h; omega) hl).2.1 w ha (fun y hy => hi y (by simp [hy]))
              (fun y hy => by have := gx y hy; omega)
          · rw [if_neg c']
            exact (ih l js (by simp only [List.length_cons] at h; omega) hl).1 w ha (fun y hy => hi y (by simp [hy]))

end UnionIter

/-! ## The laws -/

/-- C105. Absorption, in the order which always works: `(a & b) | a == a`, even if the intersection holds empty intervals. -/
theorem C105_absorb (a b : TSet) (ha : Canon a) (hb : Canon b) : (do TSet.union (← TSet.inter a b) a) = .ok a := by
  obtain ⟨r, e, l, m⟩ := inter_mem ha.loose hb.loose
  rw [e, ok_bind]
  have hin : UnionIter.Inside r a := by
    intro y hy
    obtain ⟨x, hx, z, hz, -, -, e⟩ := (m y).1 hy
    exact ⟨x, hx, by subst e; simp only [InterIter.meet]; omega, by subst e; simp only [InterIter.meet]; omega⟩
  have key : (UnionIter.new r a).drain = a := by
    cases r with
    | nil => exact UnionIter.drain_init_nilI _ _
    | cons x xs =>
      cases a with
      | nil => obtain ⟨w, hw, -⟩ := hin x (by simp); simp at hw
      | cons z zs =>
        have lx := l.wf x (by simp)
        have wz := (ha.wf z (by simp)).loose
        have : UnionIter.drain (UnionIter.new (x :: xs) (z :: zs)) = UnionIter.drain ⟨x :: xs, zs, .waitI, z⟩ := by
          rw [UnionIter.waitI_loose _ _ lx wz, UnionIter.new, UnionIter.drain_eq]
          simp only [UnionIter.step, lt_justBefore lx.lt_hi wz.lo_lt, lt_justBefore wz.lt_hi lx.lo_lt, Int.min_comm z.lower]
          repeat' split
          all_goals simp_all
        rw [this]
        exact (UnionIter.absorb_wait _ (x :: xs) zs (Nat.le_refl _) l).1 z ha hin
  rw [TSet.union, key, TSet.fromIter_canon ha]

example : Canon [⟨0, 4⟩, ⟨8, 9⟩] ∧ Canon [⟨5, 8⟩] ∧ ¬ NoTouch [⟨0, 4⟩, ⟨8, 9⟩] [⟨5, 8⟩] := by decide

/-- C105 decided: `a | b == b | a` exactly when neither order loses a date (`C30_lossless_exact` says when). -/
theorem C105_union_comm_exact (a b : TSet) (ha : Canon a) (hb : Canon b) :
    TSet.union a b = TSet.union b a ↔ Lossless a b ∧ Lossless b a := by
  refine ⟨fun h => ?_, fun ⟨h1, h2⟩ => C105_union_comm_partial a b ha hb h1 h2⟩
  -- one of the two orders loses nothing
  have one : Lossless a b ∨ Lossless b a := by
    by_cases hb0 : b = []
    · exact Or.inl (lossless_of ha hb (Or.inl hb0))
    by_cases c : ∀ x ∈ a.dropLast, ∃ y ∈ b, x.upper < y.upper
    · exact Or.inl (lossless_of ha hb (Or.inr c))
    · refine Or.inr (lossless_of hb ha ?_)
      refine Or.inr fun y hy => Classical.byContradiction fun hn => c fun x hx => ?_
      obtain ⟨l, hl, hlt⟩ := TSet.dropLast_lt hb hy
      have wl := (hb.wf l hl).le
      refine ⟨l, hl, Classical.byContradiction fun hn' => hn ⟨x, (List.dropLast_sublist a).subset hx, by omega⟩⟩
  rcases one with ⟨r, e, p⟩ | ⟨r, e, p⟩
  · exact ⟨⟨r, e, p⟩, r, by rw [← h, e], fun t ht => p t ht.symm⟩
  · exact ⟨⟨r, by rw [h, e], fun t ht => p t ht.symm⟩, r, e, p⟩

/-- C105 decided: `a & (a | b) == a` exactly when `a | b` loses no date. -/
theorem C105_absorb_union_exact (a b : TSet) (ha : Canon a) (hb : Canon b) :
    (do TSet.inter a (← TSet.union a b)) = .ok a ↔ Lossless a b := by
  refine ⟨fun h => ?_, C105_absorb_union_partial a b ha hb⟩
  refine Classical.byContradiction fun hn => ?_
  obtain ⟨r, t, e, -, t1, t2⟩ := lost_date ha hb hn
  obtain ⟨r', e', hr⟩ := (C31_union_canonical a b ha hb).1
  rw [e] at e'; cases e'
  rw [e, ok_bind] at h
  obtain ⟨⟨q, f, hq⟩, -⟩ := C32_inter a r ha hr
  rw [h] at f; cases f
  exact t2 ((hq t).1 t1).2

/-- C105 decided: `!(a | b) == !a & !b` exactly when `a | b` loses no date and no interval of the one starts right after the end of
an interval of the other. -/
theorem C105_de_morgan_union_exact (a b : TSet) (ha : Canon a) (hb : Canon b) :
    (do return TSet.compl (← TSet.union a b)) = TSet.inter (TSet.compl a) (TSet.compl b) ↔ Lossless a b ∧ NoTouch a b := by
  refine ⟨fun h => ?_, fun ⟨h1, h2⟩ => C105_de_morgan_union_partial a b ha hb h1 h2⟩
  obtain ⟨r, e, hr⟩ := (C31_union_canonical a b ha hb).1
  obtain ⟨c1, c2, c3⟩ := compl_spec ha
  obtain ⟨d1, d2, d3⟩ := compl_spec hb
  obtain ⟨k1, k2, k3⟩ := compl_spec hr
  rw [e, ok_bind] at h
  have h := h.symm
  constructor
  · refine Classical.byContradiction fun hn => ?_
    obtain ⟨r', t, e', td, t1, t2⟩ := lost_date ha hb hn
    rw [e] at e'; cases e'
    obtain ⟨⟨q, f, hq⟩, -⟩ := C32_inter _ _ c1 d1
    rw [h] at f; cases f
    exact (c3 t td).1 ((hq t).1 ((k3 t td).2 t2)).1 t1
  · refine noTouch_of_compl ha hb ?_
    obtain ⟨q, f, -, -, hq, -⟩ := C33_inter_exact _ _ c1 d1
    rw [h] at f; cases f
    exact hq.1 k1

/-- C105 decided: `!(a & b) == !a | !b` exactly when `!a | !b` loses no date and no interval of the one starts right after the end of
an interval of the other. -/
theorem C105_de_morgan_inter_exact (a b : TSet) (ha : Canon a) (hb : Canon b) :
    (do return TSet.compl (← TSet.inter a b)) = TSet.union (TSet.compl a) (TSet.compl b) ↔
      Lossless (TSet.compl a) (TSet.compl b) ∧ NoTouch a b := by
  refine ⟨fun h => ?_, fun ⟨h1, h2⟩ => C105_de_morgan_inter_partial a b ha hb h1 h2⟩
  obtain ⟨c1, c2, c3⟩ := compl_spec ha
  obtain ⟨d1, d2, d3⟩ := compl_spec hb
  obtain ⟨r, e, hr⟩ := (C31_union_canonical _ _ c1 d1).1
  obtain ⟨q, f, -, -, hq, -⟩ := C33_inter_exact a b ha hb
  obtain ⟨q', f', lq⟩ := inter_mem ha.loose hb.loose
  rw [f] at f'; cases f'
  rw [f, ok_bind, e] at h
  have h : TSet.compl q = r := Except.ok.inj h
  have hc : Canon q := Classical.byContradiction fun hn => compl_loose_not_canon lq.1 hn (h ▸ hr)
  refine ⟨Classical.byContradiction fun hn => ?_, hq.1 hc⟩
  obtain ⟨r', t, e', td, t1, t2⟩ := lost_date c1 d1 hn
  rw [e] at e'; cases e'
  obtain ⟨k1, k2, k3⟩ := compl_spec hc
  obtain ⟨⟨q', f', hi⟩, -⟩ := C32_inter a b ha hb
  rw [f] at f'; cases f'
  refine t2 ?_
  rw [← h, k3 t td, hi]
  exact fun hh => (c3 t td).1 t1 hh.1

-- the sides of the equivalences are met and not met
example : TSet.union [⟨0, 1⟩, ⟨8, 9⟩] [⟨5, 6⟩] = .ok [⟨0, 1⟩, ⟨5, 6⟩, ⟨8, 9⟩] ∧ TSet.union [⟨5, 6⟩] [⟨0, 1⟩, ⟨8, 9⟩] = .ok [⟨0, 1⟩, ⟨5, 6⟩, ⟨8, 9⟩] ∧
    TSet.union [⟨0, 1⟩, ⟨8, 9⟩, ⟨20, 21⟩] [⟨5, 6⟩] = .ok [⟨0, 1⟩, ⟨5, 6⟩, ⟨8, 9⟩] := by decide +kernel
example : TSet.inter (TSet.compl [⟨0, 4⟩]) (TSet.compl [⟨5, 8⟩]) = .ok [⟨-INF, -1⟩, ⟨5, 4⟩, ⟨9, INF⟩] ∧
    TSet.union [⟨0, 4⟩] [⟨5, 8⟩] = .ok [⟨0, 8⟩] ∧ TSet.compl [⟨0, 8⟩] = [⟨-INF, -1⟩, ⟨9, INF⟩] := by decide +kernel

end Chrono
