import Verif.Lemmas.SchedInside
import Verif.Spec.Apart

/-!
# Requests on independent parts of a graph
-/

set_option linter.unusedSimpArgs false

namespace Chrono
open Spec

theorem loose_eq : ∀ {a b : List Iv}, Loose a → Loose b → (∀ y, y ∈ a ↔ y ∈ b) → a = b
  | [], [], _, _, _ => rfl
  | [], y :: ys, _, _, h => absurd ((h y).2 (by simp)) (by simp)
  | x :: xs, [], _, _, h => absurd ((h x).1 (by simp)) (by simp)
  | x :: xs, y :: ys, ha, hb, h => by
    obtain ⟨a1, a2, a3⟩ := Loose_cons.1 ha
    obtain ⟨b1, b2, b3⟩ := Loose_cons.1 hb
    have xy : x = y := by
      rcases List.mem_cons.1 ((h x).1 (by simp)) with e | e
      · exact e
      rcases List.mem_cons.1 ((h y).2 (by simp)) with e' | e'
      · exact e'.symm
      · have := a2 y e'
        have := b2 x e
        have := a1.le
        have := b1.le
        omega
    subst xy
    congr 1
    refine loose_eq a3 b3 fun z => ⟨fun hz => ?_, fun hz => ?_⟩
    · rcases List.mem_cons.1 ((h z).1 (List.mem_cons_of_mem _ hz)) with e | e
      · subst e; have := a2 z hz; have := a1.le; omega
      · exact e
    · rcases List.mem_cons.1 ((h z).2 (List.mem_cons_of_mem _ hz)) with e | e
      · subst e; have := b2 z hz; have := a1.le; omega
      · exact e

theorem all_loose : Loose [⟨-INF, INF⟩] := by
  constructor
  · intro i hi
    rw [List.mem_singleton.1 hi]
    constructor <;> decide
  · simp

theorem inter_everything {s : List Iv} (hs : Loose s) : TSet.inter s [⟨-INF, INF⟩] = .ok s := by
  obtain ⟨r, e, hr, h⟩ := inter_mem hs all_loose
  rw [e]
  congr 1
  refine loose_eq hr hs fun y => ?_
  rw [h]
  have meet : ∀ x ∈ s, InterIter.meet x ⟨-INF, INF⟩ = x := by
    intro x hx
    have a := (hs.wf x hx).lo
    have b := (hs.wf x hx).hi
    obtain ⟨l, u⟩ := x
    simp only [InterIter.meet, Iv.mk.injEq] at *
    omega
  constructor
  · rintro ⟨x, hx, z, hz, -, -, e⟩
    rw [List.mem_singleton.1 hz, meet x hx] at e
    rw [e]; exact hx
  · intro hy
    have := hs.wf y hy
    have a := this.lo
    have b := this.hi
    have c := this.lo_lt
    have d := this.lt_hi
    exact ⟨y, hy, _, List.mem_singleton.2 rfl, by simp only; omega, by simp only; omega, (meet y hy).symm⟩

theorem addSpan_everything (dbg : Bool) {s : List Iv} (hs : Loose s) (h : s ≠ []) :
    TSet.addSpan dbg s ⟨-INF, INF⟩ = .ok [⟨-INF, INF⟩] := by
  have one : ∀ x, LooseIv x → x.addSpan dbg ⟨-INF, INF⟩ = .ok ⟨-INF, INF⟩ := by
    intro x hx
    have a := hx.lo
    have b := hx.hi
    have c := hx.lo_lt
    have d := hx.lt_hi
    have e1 : tvAdd x.lower (-INF) = .ok (-INF) := by
      unfold tvAdd isFutureInfinite isPastInfinite
      by_cases h : x.lower = -INF
      · rw [h]; decide
      · rw [if_neg (by simp; omega), if_neg (by simpa using h), if_neg (by decide)]
    have e2 : tvAdd x.upper INF = .ok INF := by
      unfold tvAdd isFutureInfinite isPastInfinite
      by_cases h : x.upper = INF
      · rw [h]; decide
      · rw [if_neg (by simpa using h), if_neg (by simp; omega), if_neg (by decide)]
    unfold Iv.addSpan
    rw [e1, ok_bind, e2, ok_bind]
    cases dbg <;> decide
  unfold TSet.addSpan
  have rest : ∀ l : List Iv, (∀ x ∈ l, LooseIv x) →
      l.foldlM (fun r i => do TSet.unionConvex r (.iv (← i.addSpan dbg ⟨-INF, INF⟩))) [⟨-INF, INF⟩] = .ok [⟨-INF, INF⟩] := by
    intro l
    induction l with
    | nil => intro _; rfl
    | cons x l ih =>
      intro hl
      rw [List.foldlM_cons, one x (hl x (by simp)), ok_bind]
      rw [show TSet.unionConvex [⟨-INF, INF⟩] (.iv ⟨-INF, INF⟩) = .ok [⟨-INF, INF⟩] by decide +kernel, ok_bind]
      exact ih fun y hy => hl y (by simp [hy])
  cases s with
  | nil => exact absurd rfl h
  | cons x l =>
    rw [List.foldlM_cons, one x (hs.wf x (by simp)), ok_bind]
    rw [show TSet.unionConvex [] (.iv ⟨-INF, INF⟩) = .ok [⟨-INF, INF⟩] by decide +kernel, ok_bind]
    exact rest l fun y hy => hs.wf y (by simp [hy])

/-- the slots of the instants of the part are the same -/
def AgreeOn (P : Nat → Bool) (a b : List TSet) : Prop := ∀ j, P j = true → a[j]? = b[j]?

theorem AgreeOn.refl (P : Nat → Bool) (a : List TSet) : AgreeOn P a a := fun _ _ => rfl

theorem AgreeOn.trans {P : Nat → Bool} {a b c : List TSet} (h : AgreeOn P a b) (h' : AgreeOn P b c) : AgreeOn P a c :=
  fun j hj => (h j hj).trans (h' j hj)

theorem agree_off {P : Nat → Bool} {a : List TSet} {i : Nat} {v : TSet} (h : P i ≠ true) : AgreeOn P (a.set i v) a := by
  intro j hj
  rw [List.getElem?_set_ne]
  rintro rfl
  exact h hj

theorem agree_set {P : Nat → Bool} {a b : List TSet} {i : Nat} {v w : TSet} (h : AgreeOn P a b) (hl : a.length = b.length)
    (hv : P i = true → v = w) : AgreeOn P (a.set i v) (b.set i w) := by
  intro j hj
  rw [List.getElem?_set, List.getElem?_set, hl]
  by_cases c : i = j
  · subst c
    rw [hv hj]
    simp only [if_true]
  · rw [if_neg c, if_neg c]
    exact h j hj

/-- propagating from an instant of the rest -/
theorem loop_off (dbg : Bool) {P : Nat → Bool} {i : Nat} : ∀ (ks : List Constr) {sch sch' : List TSet} {si : TSet}, sch[i]? = some si → si ≠ [] →
    (∀ k ∈ ks, k.dst < sch.length ∧ WF k.span) → (∀ w ∈ sch, Loose w) →
    (∀ k ∈ ks, P k.dst = true → k.span = ⟨-INF, INF⟩ ∧ ∀ l ∈ ks, l.dst ≠ i) →
    ks.foldlM (Sched.propagateOne dbg i) sch = .ok sch' → AgreeOn P sch' sch
  | [], sch, sch', si, _, _, _, _, _, h => by cases h; exact AgreeOn.refl _ _
  | k :: ks, sch, sch', si, ei, hne, hk, hl, hp, h => by
    obtain ⟨k1, k2⟩ := hk k (by simp)
    have hi : i < sch.length := (List.getElem?_eq_some_iff.1 ei).1
    rw [List.foldlM_cons] at h
    rcases propagateOne_any dbg hi k1 hl k2 with ⟨s1, e1, c1, c2, -⟩ | ⟨-, e1⟩
    · rw [e1, ok_bind] at h
      have ej : sch[k.dst]? = some sch[k.dst] := List.getElem?_eq_getElem k1
      generalize sch[k.dst] = sj at ej
      have lsi := hl si (List.mem_of_getElem? ei)
      have lsj := hl sj (List.mem_of_getElem? ej)
      by_cases no : ∃ l ∈ k :: ks, P l.dst = true
      · obtain ⟨l, hl1, hl2⟩ := no
        have free := (hp l hl1 hl2).2
        have kn := free k (by simp)
        have e1' := e1
        unfold Sched.propagateOne sget sset at e1
        rw [ej, ei] at e1
        simp only [ok_bind, if_pos k1] at e1
        cases hT : TSet.addSpan dbg si k.span with
        | error => rw [hT] at e1; cases e1
        | ok T =>
          rw [hT, ok_bind] at e1
          cases hr : TSet.inter sj T with
          | error => rw [hr] at e1; cases e1
          | ok r =>
            rw [hr, ok_bind] at e1
            cases e1
            refine (loop_off dbg ks (si := si) (by rw [List.getElem?_set_ne kn]; exact ei) hne
              (fun l h => by rw [List.length_set]; exact hk l (by simp [h])) c2
              (fun l h hP => ⟨(hp l (by simp [h]) hP).1, fun l' h' => free l' (by simp [h'])⟩) h).trans ?_
            by_cases hP : P k.dst = true
            · have sp := (hp k (by simp) hP).1
              rw [sp, addSpan_everything dbg lsi hne] at hT
              cases hT
              rw [inter_everything lsj] at hr
              cases hr
              intro j _
              rw [List.getElem?_set]
              split
              · rename_i c; rw [← c, ej]
              · rfl
            · exact agree_off hP
      · -- nothing of the part is touched
        have all : ∀ (ks : List Constr) (a b : List TSet), (∀ k ∈ ks, P k.dst ≠ true) → ks.foldlM (Sched.propagateOne dbg i) a = .ok b →
            AgreeOn P b a := by
          intro ks
          induction ks with
          | nil => intro a b _ h; cases h; exact AgreeOn.refl _ _
          | cons k ks ih =>
            intro a b hn h
            rw [List.foldlM_cons] at h
            cases e : Sched.propagateOne dbg i a k with
            | error => rw [e] at h; cases h
            | ok c =>
              rw [e, ok_bind] at h
              refine (ih c b (fun l h => hn l (by simp [h])) h).trans ?_
              unfold Sched.propagateOne at e
              cases x1 : sget a k.dst with
              | error => rw [x1] at e; cases e
              | ok y1 =>
              cases x2 : sget a i with
              | error => rw [x1, ok_bind, x2] at e; cases e
              | ok y2 =>
              cases x3 : TSet.addSpan dbg y2 k.span with
              | error => rw [x1, ok_bind, x2, ok_bind, x3] at e; cases e
              | ok y3 =>
              cases x4 : TSet.inter y1 y3 with
              | error => rw [x1, ok_bind, x2, ok_bind, x3, ok_bind, x4] at e; cases e
              | ok y4 =>
                rw [x1, ok_bind, x2, ok_bind, x3, ok_bind, x4, ok_bind] at e
                unfold sset at e
                split at e
                · cases e; exact agree_off (hn k (by simp))
                · cases e
        have h2 : (k :: ks).foldlM (Sched.propagateOne dbg i) sch = .ok sch' := by rw [List.foldlM_cons, e1, ok_bind]; exact h
        exact all (k :: ks) sch sch' (fun l h hP => no ⟨l, h, hP⟩) h2
    · rw [e1] at h; cases h

/-- propagating from an instant of the part -/
theorem loop_on (dbg : Bool) {P : Nat → Bool} {i : Nat} (hi : P i = true) : ∀ (ks : List Constr) {a b a' : List TSet}, i < a.length →
    a.length = b.length → (∀ k ∈ ks, k.dst < a.length ∧ WF k.span) → (∀ w ∈ a, Loose w) → (∀ w ∈ b, Loose w) → AgreeOn P a b →
    ks.foldlM (Sched.propagateOne dbg i) a = .ok a' →
    ∃ b', ks.foldlM (Sched.propagateOne dbg i) b = .ok b' ∧ AgreeOn P a' b'
  | [], a, b, a', _, _, _, _, _, hab, h => by cases h; exact ⟨b, rfl, hab⟩
  | k :: ks, a, b, a', hia, hlen, hk, la, lb, hab, h => by
    obtain ⟨k1, k2⟩ := hk k (by simp)
    rw [List.foldlM_cons] at h
    rcases propagateOne_any dbg hia k1 la k2 with ⟨a1, e1, c1, c2, -⟩ | ⟨-, e1⟩
    · rw [e1, ok_bind] at h
      have ei : a[i]? = some a[i] := List.getElem?_eq_getElem hia
      have ej : a[k.dst]? = some a[k.dst] := List.getElem?_eq_getElem k1
      have k1' : k.dst < b.length := by omega
      have fj : b[k.dst]? = some b[k.dst] := List.getElem?_eq_getElem k1'
      generalize a[i] = si at ei
      generalize a[k.dst] = sj at ej
      generalize b[k.dst] = tj at fj
      have fi : b[i]? = some si := by rw [← hab i hi]; exact ei
      unfold Sched.propagateOne sget sset at e1
      rw [ej, ei] at e1
      simp only [ok_bind, if_pos k1] at e1
      rcases addSpan_any dbg (la si (List.mem_of_getElem? ei)) k2 with ⟨T, hT, cT, -⟩ | ⟨-, hT⟩
      · rw [hT, ok_bind] at e1
        obtain ⟨r, hr, -, -⟩ := inter_mem (la sj (List.mem_of_getElem? ej)) cT.loose
        obtain ⟨q, hq, lq, -⟩ := inter_mem (lb tj (List.mem_of_getElem? fj)) cT.loose
        rw [hr, ok_bind] at e1
        cases e1
        have step : Sched.propagateOne dbg i b k = .ok (b.set k.dst q) := by
          unfold Sched.propagateOne sget sset
          rw [fj, fi]
          simp only [ok_bind, if_pos k1', hT, hq]
        rw [List.foldlM_cons, step, ok_bind]
        refine loop_on dbg hi ks (by rw [List.length_set]; exact hia) (by rw [List.length_set, List.length_set]; exact hlen)
          (fun l h => by rw [List.length_set]; exact hk l (by simp [h])) c2 (fun w hw => ?_) (agree_set hab hlen fun hP => ?_) h
        · rcases List.mem_or_eq_of_mem_set hw with hw | rfl
          · exact lb w hw
          · exact lq
        · have := hab k.dst hP
          rw [ej, fj] at this
          cases this
          rw [hr] at hq
          cases hq
          rfl
      · rw [hT] at e1; cases e1
    · rw [e1] at h; cases h

theorem restrict_nonempty {w : Window} (hw : ProperWindow w) (hn : ∀ v, w = .conv v → ∃ t, InExtConvex t v) {s r : TSet} (hs : Loose s)
    (ho : w.overlapsSet s = true) (h : w.restrict s = .ok r) : r ≠ [] := by
  cases w with
  | conv v =>
    obtain ⟨t, ht⟩ := hn v rfl
    obtain ⟨x, hx, h1, h2⟩ := (overlaps_loose_iff hs).1 ho
    have lu : v.lower ≤ v.upper := by
      rcases extConvex_cases hw with ⟨-, -, -, e4⟩ | ⟨e1, e2, e3, -⟩
      · exact absurd ht (e4 t)
      · exact e2.le
    cases h
    unfold TSet.interAssignConvex
    rw [after_cut (thin_loose hs), before_cut (thin_high (thin_loose hs) _)]
    have a : (⟨x.lower, min x.upper v.upper⟩ : Iv) ∈ cutHigh v.upper s :=
      List.mem_map.2 ⟨x, List.mem_filter.2 ⟨hx, decide_eq_true h2⟩, rfl⟩
    have b : (⟨max x.lower v.lower, min x.upper v.upper⟩ : Iv) ∈ cutLow v.lower (cutHigh v.upper s) :=
      List.mem_map.2 ⟨_, List.mem_filter.2 ⟨a, decide_eq_true (by simp only; omega)⟩, rfl⟩
    exact List.ne_nil_of_mem b
  | set q =>
    have lq : Loose q := Canon.loose hw
    have ho : TSet.overlapsSet q s = true := ho
    unfold TSet.overlapsSet at ho
    obtain ⟨y, hy, h1⟩ := List.any_eq_true.1 ho
    obtain ⟨z, hz, h1, h2⟩ := (overlaps_loose_iff lq).1 h1
    simp only [Convex.lower, Convex.upper] at h1 h2
    obtain ⟨r', e, -, h3⟩ := inter_mem hs lq
    have h : TSet.inter s q = .ok r := h
    rw [h] at e
    cases e
    exact List.ne_nil_of_mem ((h3 _).2 ⟨y, hy, z, hz, by omega, by omega, rfl⟩)

theorem retain_off {dbg : Bool} {P : Nat → Bool} {s s' : Sched} {o : Outcome} (hv : Valid s.graph) (hs : Spanned s.graph) (hc : LooseSched s)
    (hP : Unrelated P s.graph) {i : Nat} (hi : i < s.graph.size) (hPi : P i ≠ true) {w : Window} (hw : ProperWindow w)
    (hn : ∀ v, w = .conv v → ∃ t, InExtConvex t v) (h : s.retain dbg i w = .ok (s', o)) : AgreeOn P s'.schedule s.schedule := by
  have hl : i < s.schedule.length := by rw [hc.1]; exact hi
  have ei : s.schedule[i]? = some s.schedule[i] := List.getElem?_eq_getElem hl
  have hmem : s.schedule[i] ∈ s.schedule := List.getElem_mem hl
  generalize s.schedule[i] = si at ei hmem
  rw [retain_test dbg ei] at h
  split at h
  · cases h; exact AgreeOn.refl _ _
  split at h
  · cases h; exact AgreeOn.refl _ _
  rename_i c2
  have c2 : w.overlapsSet si = true := by simpa using c2
  obtain ⟨r, h1, h2, -, -⟩ := restrict_loose hw (hc.2 si hmem) (within_inf_loose (hc.2 si hmem)) (withinWindow_inf hw)
  rw [h1, ok_bind] at h
  unfold Sched.propagateScheduling at h
  obtain ⟨ks, g1, -, g3, -⟩ := C72_from_partial hv hi
  simp only [g1, ok_bind] at h
  cases e : ks.foldlM (Sched.propagateOne dbg i) (s.schedule.set i r) with
  | error => rw [e] at h; cases h
  | ok sch =>
    rw [e] at h
    cases h
    refine AgreeOn.trans (loop_off dbg ks (si := r) (by rw [List.getElem?_set_self hl]) (restrict_nonempty hw hn (hc.2 si hmem) c2 h1)
      (fun k hk => ?_) (fun v hv => ?_) (fun k hk hPk => ?_) e) (agree_off hPi)
    · obtain ⟨-, hd, -, ht, -⟩ := g3 k hk
      exact ⟨by rw [List.length_set, hc.1]; exact hd, hs i k.dst hi hd _ ht⟩
    · rcases List.mem_or_eq_of_mem_set hv with h | h
      · exact hc.2 v h
      · rw [h]; exact h2
    · obtain ⟨-, hd, -, ht, h0⟩ := g3 k hk
      have sp := hP i k.dst hi hd (by rw [hPk]; exact hPi)
      rw [ht] at sp
      have sp : k.span = ⟨-INF, INF⟩ := by injection sp
      refine ⟨sp, fun l hl' e => ?_⟩
      have k0 : k.dst = 0 := Classical.byContradiction fun h => (h0 h).2 sp
      have l0 : l.dst = 0 := Classical.byContradiction fun h => ((g3 l hl').2.2.2.2 h).1 e
      exact hPi (by rw [← e, l0, ← k0]; exact hPk)

theorem retain_on {dbg : Bool} {P : Nat → Bool} {s t s' : Sched} {o : Outcome} (hv : Valid s.graph) (hs : Spanned s.graph) (hc : LooseSched s)
    (hct : LooseSched t) (hg : t.graph = s.graph) (hab : AgreeOn P s.schedule t.schedule) {i : Nat} (hi : i < s.graph.size) (hPi : P i = true)
    {w : Window} (hw : ProperWindow w) (h : s.retain dbg i w = .ok (s', o)) :
    ∃ t', t.retain dbg i w = .ok (t', o) ∧ AgreeOn P s'.schedule t'.schedule := by
  have hl : i < s.schedule.length := by rw [hc.1]; exact hi
  have hlt : i < t.schedule.length := by rw [hct.1, hg]; exact hi
  have ei : s.schedule[i]? = some s.schedule[i] := List.getElem?_eq_getElem hl
  have hmem : s.schedule[i] ∈ s.schedule := List.getElem_mem hl
  generalize s.schedule[i] = si at ei hmem
  have et : t.schedule[i]? = some si := by rw [← hab i hPi]; exact ei
  rw [retain_test dbg ei] at h
  rw [retain_test dbg et]
  split at h
  · rename_i c
    cases h
    rw [if_pos c]
    exact ⟨t, rfl, hab⟩
  rename_i c
  rw [if_neg c]
  split at h
  · rename_i c
    cases h
    rw [if_pos c]
    exact ⟨t, rfl, hab⟩
  rename_i c
  rw [if_neg c]
  obtain ⟨r, h1, h2, -, -⟩ := restrict_loose hw (hc.2 si hmem) (within_inf_loose (hc.2 si hmem)) (withinWindow_inf hw)
  rw [h1, ok_bind] at h
  rw [h1, ok_bind]
  unfold Sched.propagateScheduling at *
  obtain ⟨ks, g1, -, g3, -⟩ := C72_from_partial hv hi
  have g1' : t.graph.constraintsFrom i = .ok ks := by rw [hg]; exact g1
  simp only [g1, g1', ok_bind] at h ⊢
  have put : ∀ (q : Sched), LooseSched q → ∀ v ∈ q.schedule.set i r, Loose v := by
    intro q hq v hv
    rcases List.mem_or_eq_of_mem_set hv with h | h
    · exact hq.2 v h
    · rw [h]; exact h2
  cases e : ks.foldlM (Sched.propagateOne dbg i) (s.schedule.set i r) with
  | error => rw [e] at h; cases h
  | ok sch =>
    rw [e] at h
    cases h
    have len : s.schedule.length = t.schedule.length := by rw [hc.1, hct.1, hg]
    obtain ⟨b', e', hb⟩ := loop_on dbg hPi ks (by rw [List.length_set]; exact hl) (by rw [List.length_set, List.length_set]; exact len)
      (fun k hk => by
        obtain ⟨-, hd, -, ht, -⟩ := g3 k hk
        exact ⟨by rw [List.length_set, hc.1]; exact hd, hs i k.dst hi hd _ ht⟩) (put s hc) (put t hct) (agree_set hab len fun _ => rfl) e
    rw [e']
    exact ⟨⟨t.graph, b'⟩, rfl, hb⟩

end Chrono
