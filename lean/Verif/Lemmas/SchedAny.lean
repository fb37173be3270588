import Verif.Lemmas.SchedConvex
import Verif.Lemmas.Overflow

/-!
# The scheduler on arbitrary bounds

Sums of a slot and of a time span may overflow. They saturate, so no finite date is lost.
-/

set_option linter.unusedSimpArgs false

namespace Chrono
open Spec

theorem addSpan_bounds_loose {i s : Iv} (hi : LooseIv i) (hs : WF s) :
    tvAdd i.lower s.lower = .ok (satIv i s).lower ∧ tvAdd i.upper s.upper = .ok (satIv i s).upper ∧
    -INF ≤ (satIv i s).lower ∧ (satIv i s).upper ≤ INF := by
  rcases i with ⟨l1, u1⟩
  rcases s with ⟨l2, u2⟩
  obtain ⟨h1, h2, h3, h4, h5⟩ := hi
  obtain ⟨g1, g2, g3, g4, g5⟩ := hs
  simp only at *
  refine ⟨?_, ?_, ?_, ?_⟩
  · rw [tvAdd_ok (by ticks) (by ticks) (by ticks) (by ticks), if_neg (by ticks)]
    rfl
  · rw [tvAdd_ok (by ticks) (by ticks) (by ticks) (by ticks)]
    simp only [satIv]
    split
    · rfl
    · rw [if_neg (by ticks)]
  · simp only [satIv, round]; (repeat' split) <;> ticks
  · simp only [satIv, round]; (repeat' split) <;> ticks

theorem new_cases {l u : Int} (hl : -INF ≤ l) (hu : u ≤ INF) :
    (WF (Iv.new l u) ∧ Iv.new l u = ⟨l, u⟩) ∨ (Iv.new l u = Iv.empty ∧ ∀ t, Date t → ¬ (l ≤ t ∧ t ≤ u)) := by
  unfold Iv.new Iv.singleton
  split
  · left
    refine ⟨?_, rfl⟩
    constructor <;> simp only <;> omega
  · split
    · rename_i h
      subst h
      cases hf : isFinite l with
      | true =>
        left
        have := isFinite_iff.1 hf
        rw [if_pos rfl]
        refine ⟨?_, rfl⟩
        constructor <;> simp only <;> ticks
      | false =>
        right
        rw [if_neg (by decide)]
        refine ⟨rfl, fun t ht h => ?_⟩
        have e : t = l := by omega
        subst e
        have : isFinite t = true := isFinite_iff.2 (by ticks)
        rw [this] at hf
        cases hf
    · exact Or.inr ⟨rfl, fun t _ h => by omega⟩

theorem trIv_cases {i sp : Iv} (hi : LooseIv i) (hs : WF sp) :
    (WF (trIv sp i) ∧ trIv sp i = satIv i sp) ∨ (trIv sp i = Iv.empty ∧ ∀ t, Date t → ¬ InIv t (satIv i sp)) := by
  obtain ⟨-, -, h1, h2⟩ := addSpan_bounds_loose hi hs
  exact new_cases h1 h2

theorem addSpan_tr_loose (dbg : Bool) {i sp : Iv} (hi : LooseIv i) (hs : WF sp) :
    i.addSpan dbg sp = .ok (trIv sp i) ∨ (dbg = true ∧ i.addSpan dbg sp = .error .debugAssert) := by
  have e : i.addSpan dbg sp = Iv.debugNonEmpty dbg (trIv sp i) := by
    obtain ⟨h1, h2, -⟩ := addSpan_bounds_loose hi hs
    simp only [Iv.addSpan, h1, h2]; rfl
  rw [e]
  unfold Iv.debugNonEmpty
  cases dbg
  · left; rfl
  · cases h : (trIv sp i).isEmpty
    · left; rfl
    · right; exact ⟨rfl, rfl⟩

theorem satIv_date {i sp : Iv} {a b t : Int} (ha : InExt a i) (hb : InExt b sp) (ht : Date t) (e : t = a + b) :
    InIv t (satIv i sp) := by
  subst e
  simp only [InExt, InIv, satIv, round] at *
  constructor
  · (repeat' split) <;> ticks
  · (repeat' split) <;> ticks

theorem satIv_order_loose {a b sp : Iv} (ha : LooseIv a) (hb : LooseIv b) (hsp : WF sp) (h : a.upper + 1 < b.lower) :
    (satIv a sp).lower ≤ (satIv b sp).upper := by
  obtain ⟨a1, a2, a3, a4, a5⟩ := ha
  obtain ⟨b1, b2, b3, b4, b5⟩ := hb
  obtain ⟨s1, s2, s3, s4, s5⟩ := hsp
  simp only [satIv, round]
  repeat' split
  all_goals ticks

theorem addSpan_full (dbg : Bool) {s : TSet} {sp : Iv} (hs : Loose s) (hsp : WF sp) :
    (∃ T, TSet.addSpan dbg s sp = .ok T ∧ Canon T ∧ (∀ i ∈ s, i.addSpan dbg sp = .ok (trIv sp i)) ∧
      ∀ t, InSet t T ↔ ∃ i ∈ s, (trIv sp i).isEmpty = false ∧ InIv t (trIv sp i)) ∨
    (dbg = true ∧ TSet.addSpan dbg s sp = .error .debugAssert ∧ ∃ i ∈ s, i.addSpan true sp ≠ .ok (trIv sp i)) := by
  have hl : ∀ y ∈ s.map (trIv sp), WF y ∨ y = Iv.empty := by
    intro y hy
    obtain ⟨i, hi, rfl⟩ := List.mem_map.1 hy
    exact (trIv_cases (hs.wf i hi) hsp).imp And.left And.left
  have hwf : ∀ y ∈ (s.map (trIv sp)).filter (fun b => !b.isEmpty), WF y := by
    intro y hy
    obtain ⟨h1, h2⟩ := List.mem_filter.1 hy
    rcases hl y h1 with h | rfl
    · exact h
    · exact absurd h2 (by decide)
  have pr : s.Pairwise (fun a b => a.upper + 1 < b.lower ∧ LooseIv a ∧ LooseIv b) := by
    have := hs
    clear hl hwf
    induction s with
    | nil => exact List.Pairwise.nil
    | cons x xs ih =>
      obtain ⟨h1, h2, h3⟩ := Loose_cons.1 hs
      rw [List.pairwise_cons]
      exact ⟨fun y hy => ⟨h2 y hy, h1, h3.wf y hy⟩, ih h3 h3⟩
  have hpw : ((s.map (trIv sp)).filter (fun b => !b.isEmpty)).Pairwise (fun a b => a.lower ≤ b.upper) := by
    rw [List.pairwise_filter, List.pairwise_map]
    refine pr.imp ?_
    rintro a b ⟨h1, wa, wb⟩ ea eb
    rcases trIv_cases wa hsp with ⟨-, e1⟩ | ⟨e1, -⟩
    · rcases trIv_cases wb hsp with ⟨-, e2⟩ | ⟨e2, -⟩
      · rw [e1, e2]; exact satIv_order_loose wa wb hsp h1
      · rw [e2] at eb; exact absurd eb (by decide)
    · rw [e1] at ea; exact absurd ea (by decide)
  obtain ⟨r, h1, h2, h3⟩ := TSet.foldlM_collect (fun r i => TSet.unionConvex r (.iv i))
    (fun r i hr hi h => TSet.unionConvex_step hr hi h) _ [] []
    Canon_nil (fun t => Iff.rfl) (by simp) hpw hwf
  rw [← foldlM_union_skip _ hl [] Canon_nil] at h1
  have run : (∀ i ∈ s, i.addSpan dbg sp = .ok (trIv sp i)) ∨ dbg = true := by
    cases dbg with
    | true => exact Or.inr rfl
    | false =>
      left
      intro i hi
      rcases addSpan_tr_loose false (hs.wf i hi) hsp with h | h
      · exact h
      · cases h.1
  by_cases c : ∀ i ∈ s, i.addSpan dbg sp = .ok (trIv sp i)
  · left
    refine ⟨r, ?_, h2, c, fun t => ?_⟩
    · rw [← h1]
      exact foldlM_map_ok (F := fun r i => TSet.unionConvex r (.iv i)) (h := trIv sp) c []
    · rw [h3]
      constructor
      · rintro (⟨_, hm, _⟩ | ⟨y, hy, ht⟩)
        · cases hm
        · obtain ⟨h4, h5⟩ := List.mem_filter.1 hy
          obtain ⟨i, hi, rfl⟩ := List.mem_map.1 h4
          exact ⟨i, hi, by simpa using h5, ht⟩
      · rintro ⟨i, hi, h5, ht⟩
        exact Or.inr ⟨_, List.mem_filter.2 ⟨List.mem_map.2 ⟨i, hi, rfl⟩, by rw [h5]; rfl⟩, ht⟩
  · right
    have hd := run.resolve_left c
    subst hd
    have ex : ∃ i ∈ s, i.addSpan true sp ≠ .ok (trIv sp i) := by
      rcases Classical.em (∃ i ∈ s, i.addSpan true sp ≠ .ok (trIv sp i)) with h | h
      · exact h
      · exact absurd (fun i hi => Classical.byContradiction fun h' => h ⟨i, hi, h'⟩) c
    refine ⟨rfl, ?_, ex⟩
    obtain ⟨i, hi, h⟩ := ex
    clear h1 h2 h3 hpw hwf hl run c pr
    have : ∀ r : TSet, Canon r → s.foldlM (fun r i => do TSet.unionConvex r (.iv (← i.addSpan true sp))) r = .error .debugAssert := by
      induction s with
      | nil => cases hi
      | cons x xs ih =>
        intro r hr
        obtain ⟨wx, -, hxs⟩ := Loose_cons.1 hs
        rw [List.foldlM_cons]
        rcases addSpan_tr_loose true wx hsp with c | ⟨-, c⟩
        · have hne : x ≠ i := fun e => h (e ▸ c)
          have hx : ∃ r', TSet.unionConvex r (.iv (trIv sp x)) = .ok r' ∧ Canon r' := by
            rcases trIv_cases wx hsp with ⟨w, -⟩ | ⟨e, -⟩
            · exact unionConvex_canon hr w
            · rw [e]; exact ⟨r, unionConvex_empty hr, hr⟩
          obtain ⟨r', k1, k2⟩ := hx
          rw [c, ok_bind, k1, ok_bind]
          rcases List.mem_cons.1 hi with rfl | hi
          · exact absurd rfl hne
          · exact ih hxs hi r' k2
        · rw [c]
          rfl
    exact this [] Canon_nil

theorem addSpan_any (dbg : Bool) {s : TSet} {sp : Iv} (hs : Loose s) (hsp : WF sp) :
    (∃ T, TSet.addSpan dbg s sp = .ok T ∧ Canon T ∧ ∀ t, Date t → ∀ a b, InExtSet a s → InExt b sp → t = a + b → InSet t T) ∨
    (dbg = true ∧ TSet.addSpan dbg s sp = .error .debugAssert) := by
  rcases addSpan_full dbg hs hsp with ⟨T, h1, h2, -, h3⟩ | ⟨h1, h2, -⟩
  · refine Or.inl ⟨T, h1, h2, fun t ht a b ⟨i, hi, ha⟩ hb e => ?_⟩
    rw [h3]
    have hd := satIv_date ha hb ht e
    rcases trIv_cases (hs.wf i hi) hsp with ⟨w, e1⟩ | ⟨-, e1⟩
    · exact ⟨i, hi, w.not_isEmpty, by rw [e1]; exact hd⟩
    · exact absurd hd (e1 t ht)
  · exact Or.inr ⟨h1, h2⟩

theorem withinConvex_inf {w : Convex} (hw : Proper w) : WithinConvex INF w := by
  cases w <;> simp only [Proper, WithinConvex] at *
  case iv i =>
    rcases hw with hw | hw
    · right
      intro j hj
      rw [List.mem_singleton.1 hj]
      obtain ⟨h1, h2, h3, h4, h5⟩ := hw
      exact ⟨by omega, by omega⟩
    · exact Or.inl hw
  all_goals ticks

theorem within_inf_loose {s : List Iv} (hs : Loose s) : WithinSet INF s := by
  intro i hi
  obtain ⟨h1, h2, h3, h4, h5⟩ := hs.wf i hi
  have : (0 : Int) < INF := by decide
  omega

theorem withinWindow_inf {w : Window} (hw : ProperWindow w) : WithinWindow INF w := by
  cases w with
  | set r => exact within_inf_loose (Canon.loose hw)
  | conv w => exact withinConvex_inf hw

/-- one step of the propagation, whatever overflows -/
theorem propagateOne_any (dbg : Bool) {i : Nat} {sch : List TSet} {k : Constr} (hi : i < sch.length) (hd : k.dst < sch.length)
    (hl : ∀ w ∈ sch, Loose w) (hk : WF k.span) :
    (∃ sch', Sched.propagateOne dbg i sch k = .ok sch' ∧ sch'.length = sch.length ∧ (∀ w ∈ sch', Loose w) ∧
      (∀ (j : Nat) w', sch'[j]? = some w' → ∃ w, sch[j]? = some w ∧ ∀ t, InExtSet t w' → InExtSet t w) ∧
      (∀ τ : Nat → Int, Date (τ k.dst) → InExt (τ k.dst - τ i) k.span → (∀ (j : Nat) w, sch[j]? = some w → InExtSet (τ j) w) →
        ∀ (j : Nat) w, sch'[j]? = some w → InExtSet (τ j) w)) ∨
    (dbg = true ∧ Sched.propagateOne dbg i sch k = .error .debugAssert) := by
  have ei : sch[i]? = some sch[i] := List.getElem?_eq_getElem hi
  have ej : sch[k.dst]? = some sch[k.dst] := List.getElem?_eq_getElem hd
  generalize sch[i] = si at ei
  generalize sch[k.dst] = sj at ej
  have li : Loose si := hl si (List.mem_of_getElem? ei)
  have lj : Loose sj := hl sj (List.mem_of_getElem? ej)
  rcases addSpan_any dbg li hk with ⟨T, h1, h2, h3⟩ | ⟨h0, h1⟩
  · left
    obtain ⟨r, g1, g2, g3, -⟩ := inter_loose lj h2.loose
    refine ⟨sch.set k.dst r, ?_, by rw [List.length_set], fun w hw => ?_, fun j w' e => ?_, fun τ hf hτ hs j w e => ?_⟩
    · unfold Sched.propagateOne sget sset
      rw [ej, ei]
      simp only [ok_bind, h1, g1, if_pos hd]
    · rcases List.mem_or_eq_of_mem_set hw with h | h
      · exact hl w h
      · rw [h]; exact g2
    · by_cases c : k.dst = j
      · rw [← c, List.getElem?_set_self hd] at e
        cases e
        exact ⟨sj, by rw [← c, ej], fun t ht => ((g3 t).1 ht).1⟩
      · rw [List.getElem?_set_ne c] at e
        exact ⟨w', e, fun t ht => ht⟩
    · by_cases c : k.dst = j
      · rw [← c, List.getElem?_set_self hd] at e
        cases e
        rw [g3, ← c]
        refine ⟨hs _ _ ej, ?_⟩
        obtain ⟨x, hx, hin⟩ := h3 (τ k.dst) hf (τ i) (τ k.dst - τ i) (hs i si ei) hτ (by omega)
        exact ⟨x, hx, Or.inr hin.1, Or.inr hin.2⟩
      · rw [List.getElem?_set_ne c] at e
        exact hs j w e
  · right
    refine ⟨h0, ?_⟩
    unfold Sched.propagateOne sget
    rw [ej, ei]
    simp only [ok_bind, h1]; rfl

theorem propagateLoop_any (dbg : Bool) {i : Nat} : ∀ (ks : List Constr) (sch : List TSet), i < sch.length →
    (∀ k ∈ ks, k.dst < sch.length ∧ WF k.span) → (∀ w ∈ sch, Loose w) →
    (∃ sch', ks.foldlM (Sched.propagateOne dbg i) sch = .ok sch' ∧ sch'.length = sch.length ∧ (∀ w ∈ sch', Loose w) ∧
      (∀ (j : Nat) w', sch'[j]? = some w' → ∃ w, sch[j]? = some w ∧ ∀ t, InExtSet t w' → InExtSet t w) ∧
      (∀ τ : Nat → Int, (∀ k ∈ ks, Date (τ k.dst) ∧ InExt (τ k.dst - τ i) k.span) →
        (∀ (j : Nat) w, sch[j]? = some w → InExtSet (τ j) w) → ∀ (j : Nat) w, sch'[j]? = some w → InExtSet (τ j) w)) ∨
    (dbg = true ∧ ks.foldlM (Sched.propagateOne dbg i) sch = .error .debugAssert)
  | [], sch, _, _, hs => Or.inl ⟨sch, rfl, rfl, hs, fun j w e => ⟨w, e, fun t h => h⟩, fun τ _ h => h⟩
  | k :: ks, sch, hi, hk, hs => by
    obtain ⟨k1, k2⟩ := hk k (by simp)
    rcases propagateOne_any dbg hi k1 hs k2 with ⟨s1, e1, c1, c2, c3, c4⟩ | ⟨h0, e1⟩
    · rcases propagateLoop_any dbg ks s1 (by rw [c1]; exact hi) (fun l hl => by rw [c1]; exact hk l (by simp [hl])) c2
        with ⟨s2, e2, n2, l2, b2, t2⟩ | ⟨h0, e2⟩
      · left
        refine ⟨s2, by rw [List.foldlM_cons, e1, ok_bind, e2], by rw [n2, c1], l2, fun j w' hw' => ?_, fun τ hτ h0 => ?_⟩
        · obtain ⟨v, hv, hv'⟩ := b2 j w' hw'
          obtain ⟨u, hu, hu'⟩ := c3 j v hv
          exact ⟨u, hu, fun t ht => hu' t (hv' t ht)⟩
        · exact t2 τ (fun l hl => hτ l (by simp [hl])) (c4 τ (hτ k (by simp)).1 (hτ k (by simp)).2 h0)
      · right
        exact ⟨h0, by rw [List.foldlM_cons, e1, ok_bind, e2]⟩
    · right
      exact ⟨h0, by rw [List.foldlM_cons, e1]; rfl⟩

/-- what any call of `retain` does -/
structure Retained (s s' : Sched) (o : Outcome) (i : Nat) (w : Window) : Prop where
  graph : s'.graph = s.graph
  loose : LooseSched s'
  fatal : o ≠ .fatal
  same : o = .recovered ∨ o = .unchanged → s' = s
  sub : ∀ j t, Slot s' j t → Slot s j t
  inside : o ≠ .recovered → ∀ t, Slot s' i t → InExtWindow t w
  refused : o = .recovered → ¬ ∃ t, Slot s i t ∧ InExtWindow t w
  keep : ∀ τ, FiniteDates s.graph.size τ → Sat τ s.graph → (∀ j, j < s.graph.size → Slot s j (τ j)) → InExtWindow (τ i) w →
    ∀ j, j < s.graph.size → Slot s' j (τ j)

theorem overlaps_any {w : Window} (hw : ProperWindow w) {s : TSet} (hs : Loose s) {t : Int} (h1 : InExtSet t s)
    (h2 : InExtWindow t w) : w.overlapsSet s = true := by
  obtain ⟨x, hx, h1⟩ := h1
  have lx := hs.wf x hx
  cases w with
  | conv w =>
    refine overlaps_loose hs ⟨x, hx, ?_⟩
    rcases extConvex_cases hw with ⟨-, -, -, e4⟩ | ⟨-, e2, e3, -⟩
    · exact absurd h2 (e4 t)
    · have h2 := (e3 t).1 h2
      obtain ⟨k1, k2, k3, k4, k5⟩ := lx
      obtain ⟨j1, j2, j3, j4, j5⟩ := e2
      simp only [InExt] at h1 h2
      simp only at j1 j2 j3 j4 j5
      constructor <;> omega
  | set r =>
    obtain ⟨y, hy, h2⟩ := h2
    have ly := Canon.wf hw y hy
    show List.any s (fun tw => TSet.overlaps r (.iv tw)) = true
    rw [List.any_eq_true]
    refine ⟨x, hx, overlaps_loose (Canon.loose hw) ⟨y, hy, ?_⟩⟩
    obtain ⟨k1, k2, k3, k4, k5⟩ := lx
    obtain ⟨j1, j2, j3, j4, j5⟩ := ly
    simp only [InExt, Convex.lower, Convex.upper] at *
    constructor <;> omega

theorem retain_any (dbg : Bool) {s : Sched} (hv : Valid s.graph) (hs : Spanned s.graph) (hc : LooseSched s) {i : Nat}
    (hi : i < s.graph.size) {w : Window} (hw : ProperWindow w) :
    (∃ s' o, s.retain dbg i w = .ok (s', o) ∧ Retained s s' o i w) ∨
    (dbg = true ∧ s.retain dbg i w = .error .debugAssert) := by
  have hl : i < s.schedule.length := by rw [hc.1]; exact hi
  have ei : s.schedule[i]? = some s.schedule[i] := List.getElem?_eq_getElem hl
  have hmem : s.schedule[i] ∈ s.schedule := List.getElem_mem hl
  generalize s.schedule[i] = si at ei hmem
  rw [retain_test dbg ei]
  by_cases c1 : w.containsSet si = true
  · rw [if_pos c1]
    refine Or.inl ⟨s, _, rfl, rfl, hc, by decide, fun _ => rfl, fun _ _ h => h, fun _ t ht => ?_, fun h => (by cases h), fun τ _ _ h _ => h⟩
    exact contains_loose hw (hc.2 si hmem) c1 t ((slot_get ei t).1 ht)
  rw [if_neg c1]
  by_cases c2 : (!w.overlapsSet si) = true
  · rw [if_pos c2]
    refine Or.inl ⟨s, _, rfl, rfl, hc, by decide, fun _ => rfl, fun _ _ h => h, fun h => absurd rfl h, fun _ => ?_, fun τ _ _ h _ => h⟩
    rintro ⟨t, h1, h2⟩
    rw [overlaps_any hw (hc.2 si hmem) ((slot_get ei t).1 h1) h2] at c2
    cases c2
  rw [if_neg c2]
  obtain ⟨r, h1, h2, -, h4⟩ := restrict_loose hw (hc.2 si hmem) (within_inf_loose (hc.2 si hmem)) (withinWindow_inf hw)
  rw [h1]
  simp only [ok_bind]
  unfold Sched.propagateScheduling
  obtain ⟨ks, g1, g2, g3, -⟩ := C72_from_partial hv hi
  simp only [g1, ok_bind]
  have hset : ∀ v ∈ s.schedule.set i r, Loose v := by
    intro v hv
    rcases List.mem_or_eq_of_mem_set hv with h | h
    · exact hc.2 v h
    · rw [h]; exact h2
  have hks : ∀ k ∈ ks, s.graph.timespan i k.dst = .ok k.span ∧ k.dst < s.graph.size :=
    fun k hk => ⟨(g3 k hk).2.2.2.1, (g3 k hk).2.1⟩
  rcases propagateLoop_any dbg (i := i) ks (s.schedule.set i r) (by rw [List.length_set]; exact hl)
    (fun k hk => by
      obtain ⟨ht, hd⟩ := hks k hk
      exact ⟨by rw [List.length_set, hc.1]; exact hd, hs i k.dst hi hd _ ht⟩) hset
    with ⟨sch', e1, n1, l1, b1, t1⟩ | ⟨h0, e1⟩
  · left
    refine ⟨⟨s.graph, sch'⟩, .propagated, by simp only [e1, ok_bind]; rfl, rfl,
      ⟨by rw [n1, List.length_set]; exact hc.1, l1⟩, by decide,
      (fun h => by rcases h with h | h <;> cases h), ?_, fun _ t => ?_, fun h => (by cases h), ?_⟩
    · rintro j t ⟨v, hv, ht⟩
      obtain ⟨u, hu, hu'⟩ := b1 j v hv
      by_cases c : i = j
      · subst c
        rw [List.getElem?_set_self hl] at hu
        cases hu
        exact ⟨si, ei, ((h4 t).1 (hu' t ht)).1⟩
      · rw [List.getElem?_set_ne c] at hu
        exact ⟨u, hu, hu' t ht⟩
    · rintro ⟨v, hv, ht⟩
      obtain ⟨u, hu, hu'⟩ := b1 i v hv
      rw [List.getElem?_set_self hl] at hu
      cases hu
      exact ((h4 t).1 (hu' t ht)).2
    · intro τ hf hτ hin hwin j hj
      have hj' : j < sch'.length := by rw [n1, List.length_set, hc.1]; exact hj
      refine ⟨sch'[j], List.getElem?_eq_getElem hj', ?_⟩
      refine t1 τ (fun k hk => ?_) (fun a v hv => ?_) j _ (List.getElem?_eq_getElem hj')
      · obtain ⟨ht, hd⟩ := hks k hk
        obtain ⟨sp, e, h⟩ := hτ i k.dst hi hd
        rw [ht] at e
        cases e
        exact ⟨hf _ hd, h⟩
      · by_cases c : i = a
        · subst c
          rw [List.getElem?_set_self hl] at hv
          cases hv
          exact (h4 _).2 ⟨(slot_get ei _).1 (hin i hi), hwin⟩
        · rw [List.getElem?_set_ne c] at hv
          have : a < s.schedule.length := by
            rw [List.getElem?_eq_some_iff] at hv
            exact hv.1
          exact (slot_get hv _).1 (hin a (by rw [← hc.1]; exact this))
  · right
    refine ⟨h0, ?_⟩
    simp only [e1]; rfl

/-- what `remove` retains, for the finite dates -/
theorem neg_any {w : Negatable} (hw : ProperNeg w) :
    Canon w.not ∧ ∀ t, Date t → (InExtSet t w.not ↔ ¬ InExtNeg t w) := by
  have ext : ∀ {s : List Iv}, Canon s → ∀ {t}, Date t → (InExtSet t s ↔ InSet t s) := fun hs _ ht =>
    extSet_legal hs.wf (by ticks)
  have key : ∀ s : List Iv, Canon s → Canon (TSet.compl s) ∧ ∀ t, Date t → (InExtSet t (TSet.compl s) ↔ ¬ InExtSet t s) :=
    fun s hs => ⟨(compl_spec hs).1, fun t ht => by rw [ext (compl_spec hs).1 ht, ext hs ht, (compl_spec hs).2.2 t ht]⟩
  cases w with
  | set s => exact key s hw
  | point p =>
    have hw : Date p := hw
    have e : Negatable.not (.point p) = TSet.compl [⟨p, p⟩] := point_compl_eq hw
    rw [e]
    obtain ⟨a, c⟩ := key [⟨p, p⟩] (canon_one (by constructor <;> simp only <;> ticks))
    refine ⟨a, fun t ht => ?_⟩
    rw [c t ht, extSet_one]
    show ¬ InExt t ⟨p, p⟩ ↔ ¬ t = p
    simp only [InExt]
    have := hw.1
    have := hw.2
    omega
  | iv i =>
    rcases hw with hw | rfl
    · have e : Negatable.not (.iv i) = TSet.compl [i] := iv_compl_eq hw
      rw [e]
      obtain ⟨a, c⟩ := key [i] (canon_one hw)
      refine ⟨a, fun t ht => ?_⟩
      rw [c t ht, extSet_one]
      exact Iff.rfl
    · have e : Negatable.not (.iv ⟨INF, -INF⟩) = [Iv.all] := by decide
      rw [e]
      refine ⟨by decide, fun t ht => ?_⟩
      rw [extSet_one]
      refine ⟨fun _ h => ?_, fun _ => ⟨Or.inl rfl, Or.inl rfl⟩⟩
      simp only [InExtNeg, InExt] at h
      ticks

/-- the loop of `set_deadline` and `set_startline` -/
theorem retainAll_any (dbg : Bool) {w : Convex} (hp : Proper w) :
    ∀ (l : List Nat) (s : Sched) (o : Outcome),
    Valid s.graph → Spanned s.graph → LooseSched s → (∀ i ∈ l, i < s.graph.size) → o ≠ .recovered → o ≠ .fatal →
    (∃ s' o', l.foldlM (fun (p : Sched × Outcome) i => do
        match ← Sched.retain dbg p.1 i (.conv w) with
        | (s, .unchanged) => return (s, p.2)
        | (s, .propagated) => return (s, .propagated)
        | _ => .error .unwrapNone) (s, o) = .ok (s', o') ∧ s'.graph = s.graph ∧ LooseSched s' ∧ o' ≠ .recovered ∧ o' ≠ .fatal ∧
      (∀ j t, Slot s' j t → Slot s j t ∧ (j ∈ l → InExtConvex t w)) ∧
      (∀ τ, FiniteDates s.graph.size τ → Feasible τ s → (∀ i ∈ l, InExtConvex (τ i) w) → Feasible τ s')) ∨
    (l.foldlM (fun (p : Sched × Outcome) i => do
        match ← Sched.retain dbg p.1 i (.conv w) with
        | (s, .unchanged) => return (s, p.2)
        | (s, .propagated) => return (s, .propagated)
        | _ => .error .unwrapNone) (s, o) = .error .unwrapNone ∧
      ¬ ∃ τ, FiniteDates s.graph.size τ ∧ Feasible τ s ∧ ∀ i ∈ l, InExtConvex (τ i) w) ∨
    (dbg = true ∧ l.foldlM (fun (p : Sched × Outcome) i => do
        match ← Sched.retain dbg p.1 i (.conv w) with
        | (s, .unchanged) => return (s, p.2)
        | (s, .propagated) => return (s, .propagated)
        | _ => .error .unwrapNone) (s, o) = .error .debugAssert)
  | [], s, o, _, _, hl, _, h1, h2 =>
    Or.inl ⟨s, o, rfl, rfl, hl, h1, h2, fun j t h => ⟨h, by simp⟩, fun τ _ h _ => h⟩
  | i :: l, s, o, hv, hs, hl, hi, ho1, ho2 => by
    have hii := hi i (by simp)
    rcases retain_any dbg hv hs hl hii (w := .conv w) hp with ⟨s1, o1, a1, R⟩ | ⟨h0, h1⟩
    · have a2 := R.graph
      by_cases hr : o1 = .recovered
      · right; left
        subst hr
        constructor
        · rw [List.foldlM_cons]
          simp only [a1, ok_bind]
          rfl
        · rintro ⟨τ, -, hτ, hw⟩
          exact R.refused rfl ⟨τ i, hτ.2 i hii, hw i (by simp)⟩
      · have rest := fun o h1 h2 => retainAll_any dbg hp l s1 o (by rw [a2]; exact hv) (by rw [a2]; exact hs) R.loose
          (fun i hi' => by rw [a2]; exact hi i (by simp [hi'])) h1 h2
        have a8 := R.inside hr
        have feas : ∀ τ, FiniteDates s.graph.size τ → Feasible τ s → InExtConvex (τ i) w → Feasible τ s1 := fun τ hf hτ hw =>
          ⟨by rw [a2]; exact hτ.1, by rw [a2]; exact R.keep τ hf hτ.1 hτ.2 hw⟩
        have fold : ∃ o2, o2 ≠ .recovered ∧ o2 ≠ .fatal ∧ ∀ f : Sched × Outcome → Nat → Res (Sched × Outcome),
            f = (fun (p : Sched × Outcome) i => do
              match ← Sched.retain dbg p.1 i (.conv w) with
              | (s, .unchanged) => return (s, p.2)
              | (s, .propagated) => return (s, .propagated)
              | _ => .error .unwrapNone) → (i :: l).foldlM f (s, o) = l.foldlM f (s1, o2) := by
          cases o1 with
          | unchanged =>
            refine ⟨o, ho1, ho2, ?_⟩
            rintro f rfl
            rw [List.foldlM_cons]
            simp only [a1, ok_bind]
            rfl
          | propagated =>
            refine ⟨.propagated, by decide, by decide, ?_⟩
            rintro f rfl
            rw [List.foldlM_cons]
            simp only [a1, ok_bind]
            rfl
          | recovered => exact absurd rfl hr
          | fatal => exact absurd rfl R.fatal
        obtain ⟨o2, k1, k2, k3⟩ := fold
        rw [k3 _ rfl]
        rcases rest o2 k1 k2 with ⟨s2, o3, b1, b2, bl, b3, b4, b5, b6⟩ | ⟨b1, b2⟩ | ⟨b1, b2⟩
        · left
          refine ⟨s2, o3, b1, by rw [b2, a2], bl, b3, b4, fun j t ht => ?_, fun τ hf hτ hw => ?_⟩
          · obtain ⟨c1, c2⟩ := b5 j t ht
            refine ⟨R.sub j t c1, fun hj => ?_⟩
            rcases List.mem_cons.1 hj with e | e
            · subst e; exact a8 t c1
            · exact c2 e
          · exact b6 τ (by rw [a2]; exact hf) (feas τ hf hτ (hw i (by simp))) (fun j hj => hw j (by simp [hj]))
        · right; left
          refine ⟨b1, ?_⟩
          rintro ⟨τ, hf, hτ, hw⟩
          exact b2 ⟨τ, by rw [a2]; exact hf, feas τ hf hτ (hw i (by simp)), fun j hj => hw j (by simp [hj])⟩
        · exact Or.inr (Or.inr ⟨b1, b2⟩)
    · right; right
      refine ⟨h0, ?_⟩
      rw [List.foldlM_cons]
      simp only [h1]
      rfl

end Chrono
