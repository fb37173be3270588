import Verif.Lemmas.Shift

/-!
# Moving the origin of time: windows, complements, restrictions and translations
-/

namespace Chrono
open Spec

theorem find_later {d : Int} {p p' : Iv → Bool} : ∀ {s : List Iv}, (∀ i ∈ s, p' (laterIv d i) = p i) →
    (laterSet d s).find? p' = (s.find? p).map (laterIv d)
  | [], _ => rfl
  | x :: s, h => by
    have hx := h x List.mem_cons_self
    change (laterIv d x :: laterSet d s).find? p' = _
    rw [List.find?_cons, List.find?_cons, hx]
    cases p x
    · exact find_later fun i hi => h i (List.mem_cons_of_mem _ hi)
    · rfl

theorem findIdx_later {d : Int} {p p' : Iv → Bool} : ∀ {s : List Iv}, (∀ i ∈ s, p' (laterIv d i) = p i) →
    (laterSet d s).findIdx? p' = s.findIdx? p
  | [], _ => rfl
  | x :: s, h => by
    have hx := h x List.mem_cons_self
    change (laterIv d x :: laterSet d s).findIdx? p' = _
    rw [List.findIdx?_cons, List.findIdx?_cons, hx, findIdx_later fun i hi => h i (List.mem_cons_of_mem _ hi)]

/-- the bounds of a window written with near points -/
theorem convex_later {d W : Int} (r : Room d (W + 1)) {w : Convex} (h : NearConvex W w) :
    (laterConvex d w).lower = later d w.lower ∧ (laterConvex d w).upper = later d w.upper ∧
    Near (W + 1) w.lower ∧ Near (W + 1) w.upper ∧ (laterConvex d w).isEmpty = w.isEmpty := by
  have up : ∀ {x}, Near W x → Near (W + 1) x := fun h => near_mono h (by omega)
  have up2 : ∀ {x}, Near W x → Near (W + 1 + 1) x := fun h => near_mono h (by omega)
  cases w with
  | iv i => exact ⟨rfl, rfl, up h.1, up h.2, isEmpty_later r ⟨up h.1, up h.2⟩⟩
  | point t => exact ⟨rfl, rfl, up h, up h, rfl⟩
  | range a b =>
    have c := later_lt r (up2 h.1) (up2 h.2)
    simp only [laterConvex, Convex.lower, Convex.upper, Convex.isEmpty, c, later_jb r (up h.2)]
    split
    · exact ⟨rfl, rfl, up h.1, near_jb h.2, trivial⟩
    · exact ⟨later_inf.symm, later_ninf.symm, near_inf, near_ninf, trivial⟩
  | rangeFrom a => exact ⟨rfl, later_inf.symm, up h, near_inf, rfl⟩
  | rangeIncl a b =>
    have c := later_le r (up2 h.1) (up2 h.2)
    simp only [laterConvex, Convex.lower, Convex.upper, Convex.isEmpty, c]
    split
    · exact ⟨rfl, rfl, up h.1, up h.2, trivial⟩
    · exact ⟨later_inf.symm, later_ninf.symm, near_inf, near_ninf, trivial⟩
  | rangeTo b => exact ⟨later_ninf.symm, later_jb r (up h), near_ninf, near_jb h, rfl⟩
  | rangeToIncl b => exact ⟨later_ninf.symm, rfl, near_ninf, up h, rfl⟩

/-! ## Relations -/

/-- two windows which have bounds `d` later -/
structure LaterC (d W : Int) (w w' : Convex) : Prop where
  lower : w'.lower = later d w.lower
  upper : w'.upper = later d w.upper
  nl : Near W w.lower
  nu : Near W w.upper

theorem laterC_iv {d W : Int} {i : Iv} (h : NearIv W i) : LaterC d W (.iv i) (.iv (laterIv d i)) := ⟨rfl, rfl, h.1, h.2⟩

theorem contains_later {d W : Int} (r : Room d W) {v v' w w' : Convex} (hv : LaterC d W v v') (hw : LaterC d W w w') :
    v'.contains w' = v.contains w := by
  have up : ∀ {x}, Near W x → Near (W + 1) x := fun h => near_mono h (by omega)
  unfold Convex.contains Convex.containsBounds
  rw [hv.lower, hv.upper, hw.lower, hw.upper]
  simp only [later_le r (up hv.nl) (up hw.nl), later_le r (up hw.nu) (up hv.nu)]

theorem convexContainsSet_later {d W : Int} (r : Room d W) {w w' : Convex} (hw : LaterC d W w w') {s : TSet} (hs : NearSet W s) :
    w'.containsSet (laterSet d s) = w.containsSet s := by
  have up : ∀ {x}, Near W x → Near (W + 1) x := fun h => near_mono h (by omega)
  unfold Convex.containsSet Convex.containsBounds
  obtain ⟨e1, n1⟩ := lowerBound_later (d := d) hs
  obtain ⟨e2, n2⟩ := upperBound_later (d := d) hs
  rw [hw.lower, hw.upper, e1, e2]
  simp only [later_le r (up hw.nl) (up n1), later_le r (up n2) (up hw.nu)]

theorem reach_later {d W : Int} (r : Room d W) {w w' : Convex} (hw : LaterC d W w w') {s : TSet} (hs : NearSet W s) :
    (laterSet d s).find? (fun ts => decide (ts.upper ≥ w'.lower)) = (s.find? (fun ts => decide (ts.upper ≥ w.lower))).map (laterIv d) := by
  have up : ∀ {x}, Near W x → Near (W + 1) x := fun h => near_mono h (by omega)
  refine find_later fun i hi => ?_
  simp only [laterIv, ge_iff_le, hw.lower, later_le r (up hw.nl) (up (hs i hi).2)]

theorem setContains_later {d W : Int} (r : Room d W) {w w' : Convex} (hw : LaterC d W w w') {s : TSet} (hs : NearSet W s) :
    TSet.contains (laterSet d s) w' = TSet.contains s w := by
  unfold TSet.contains
  rw [reach_later r hw hs]
  cases e : s.find? (fun ts => decide (ts.upper ≥ w.lower)) with
  | none => rfl
  | some t => exact contains_later r (laterC_iv (hs t (List.mem_of_find?_eq_some e))) hw

theorem setOverlaps_later {d W : Int} (r : Room d W) {w w' : Convex} (hw : LaterC d W w w') {s : TSet} (hs : NearSet W s) :
    TSet.overlaps (laterSet d s) w' = TSet.overlaps s w := by
  have up : ∀ {x}, Near W x → Near (W + 1) x := fun h => near_mono h (by omega)
  unfold TSet.overlaps
  rw [reach_later r hw hs]
  cases e : s.find? (fun ts => decide (ts.upper ≥ w.lower)) with
  | none => rfl
  | some t =>
    simp only [Option.map_some, laterIv, hw.upper, later_le r (up (hs t (List.mem_of_find?_eq_some e)).1) (up hw.nu)]

theorem all_later {d : Int} {p p' : Iv → Bool} : ∀ {s : List Iv}, (∀ i ∈ s, p' (laterIv d i) = p i) →
    (laterSet d s).all p' = s.all p
  | [], _ => rfl
  | x :: s, h => by
    change (laterIv d x :: laterSet d s).all p' = _
    rw [List.all_cons, List.all_cons, h x List.mem_cons_self, all_later fun i hi => h i (List.mem_cons_of_mem _ hi)]

theorem any_later {d : Int} {p p' : Iv → Bool} : ∀ {s : List Iv}, (∀ i ∈ s, p' (laterIv d i) = p i) →
    (laterSet d s).any p' = s.any p
  | [], _ => rfl
  | x :: s, h => by
    change (laterIv d x :: laterSet d s).any p' = _
    rw [List.any_cons, List.any_cons, h x List.mem_cons_self, any_later fun i hi => h i (List.mem_cons_of_mem _ hi)]

/-- two windows of any kind, the second `d` later -/
def LaterW (d W : Int) : Window → Window → Prop
  | .conv w, .conv w' => LaterC d W w w'
  | .set s, .set s' => s' = laterSet d s ∧ NearSet W s
  | _, _ => False

theorem windowContains_later {d W : Int} (r : Room d W) {w w' : Window} (hw : LaterW d W w w') {s : TSet} (hs : NearSet W s) :
    w'.containsSet (laterSet d s) = w.containsSet s := by
  cases w <;> cases w'
  · exact convexContainsSet_later r hw hs
  · cases hw
  · cases hw
  · obtain ⟨rfl, hr⟩ := hw
    exact all_later fun i hi => setContains_later r (laterC_iv (hs i hi)) hr

theorem windowOverlaps_later {d W : Int} (r : Room d W) {w w' : Window} (hw : LaterW d W w w') {s : TSet} (hs : NearSet W s) :
    w'.overlapsSet (laterSet d s) = w.overlapsSet s := by
  cases w <;> cases w'
  · exact setOverlaps_later r hw hs
  · cases hw
  · cases hw
  · obtain ⟨rfl, hr⟩ := hw
    exact any_later fun i hi => setOverlaps_later r (laterC_iv (hs i hi)) hr

/-! ## Truncation -/

theorem ivBefore_later {d W : Int} (r : Room d W) {i : Iv} (hi : NearIv W i) {l : Int} (hl : Near W l) :
    (laterIv d i).truncateBefore (later d l) = (laterIv d (i.truncateBefore l).1, (i.truncateBefore l).2) ∧
    NearIv W (i.truncateBefore l).1 := by
  have up : ∀ {x}, Near W x → Near (W + 1) x := fun h => near_mono h (by omega)
  unfold Iv.truncateBefore
  simp only [laterIv, later_le r (up hl) (up hi.1), later_lt r (up hi.2) (up hl)]
  split
  · exact ⟨rfl, hi⟩
  · split
    · exact ⟨Prod.ext laterIv_empty.symm rfl, nearIv_empty⟩
    · exact ⟨rfl, hl, hi.2⟩

theorem ivAfter_later {d W : Int} (r : Room d W) {i : Iv} (hi : NearIv W i) {u : Int} (hu : Near W u) :
    (laterIv d i).truncateAfter (later d u) = (laterIv d (i.truncateAfter u).1, (i.truncateAfter u).2) ∧
    NearIv W (i.truncateAfter u).1 := by
  have up : ∀ {x}, Near W x → Near (W + 1) x := fun h => near_mono h (by omega)
  unfold Iv.truncateAfter
  simp only [laterIv, later_le r (up hi.2) (up hu), later_lt r (up hu) (up hi.1)]
  split
  · exact ⟨rfl, hi⟩
  · split
    · exact ⟨Prod.ext laterIv_empty.symm rfl, nearIv_empty⟩
    · exact ⟨rfl, hi.1, hu⟩

theorem before_later {d W : Int} (r : Room d W) {s : TSet} (hs : NearSet W s) {l : Int} (hl : Near W l) :
    TSet.truncateBefore (laterSet d s) (later d l) = (laterSet d (TSet.truncateBefore s l).1, (TSet.truncateBefore s l).2) ∧
    NearSet W (TSet.truncateBefore s l).1 := by
  have up : ∀ {x}, Near W x → Near (W + 1) x := fun h => near_mono h (by omega)
  unfold TSet.truncateBefore
  have e : (laterSet d s).findIdx? (fun i => decide (i.upper ≥ later d l)) = s.findIdx? (fun i => decide (i.upper ≥ l)) :=
    findIdx_later fun i hi => by simp only [laterIv, ge_iff_le, later_le r (up hl) (up (hs i hi).2)]
  rw [e]
  cases s.findIdx? (fun i => decide (i.upper ≥ l)) with
  | none =>
    cases s with
    | nil => exact ⟨rfl, nearSet_nil⟩
    | cons x xs => exact ⟨rfl, nearSet_nil⟩
  | some pos =>
    cases pos with
    | zero =>
      cases s with
      | nil => exact ⟨rfl, hs⟩
      | cons x xs =>
        obtain ⟨e, n⟩ := ivBefore_later r (nearSet_cons.1 hs).1 hl
        refine ⟨?_, nearSet_cons.2 ⟨n, (nearSet_cons.1 hs).2⟩⟩
        simp only [laterSet, List.map_cons, e]
    | succ p =>
      simp only
      have dr : (laterSet d s).drop (p + 1) = laterSet d (s.drop (p + 1)) := by unfold laterSet; rw [List.map_drop]
      rw [dr]
      have hn : NearSet W (s.drop (p + 1)) := fun i hi => hs i (List.mem_of_mem_drop hi)
      cases c : s.drop (p + 1) with
      | nil => exact ⟨rfl, hs⟩
      | cons x xs =>
        rw [c] at hn
        obtain ⟨e, n⟩ := ivBefore_later r (nearSet_cons.1 hn).1 hl
        refine ⟨?_, nearSet_cons.2 ⟨n, (nearSet_cons.1 hn).2⟩⟩
        simp only [laterSet, List.map_cons, e]

theorem mapLast_later {d W : Int} (r : Room d W) {u : Int} (hu : Near W u) : ∀ {s : List Iv}, NearSet W s →
    TSet.mapLast (fun i => (i.truncateAfter (later d u)).1) (laterSet d s) = laterSet d (TSet.mapLast (fun i => (i.truncateAfter u).1) s) ∧
    NearSet W (TSet.mapLast (fun i => (i.truncateAfter u).1) s)
  | [], _ => ⟨rfl, nearSet_nil⟩
  | [x], h => by
    obtain ⟨e, n⟩ := ivAfter_later r (nearSet_cons.1 h).1 hu
    refine ⟨?_, nearSet_cons.2 ⟨n, nearSet_nil⟩⟩
    simp only [laterSet, List.map_cons, List.map_nil, TSet.mapLast, e]
  | x :: y :: s, h => by
    obtain ⟨hx, hs⟩ := nearSet_cons.1 h
    obtain ⟨e, n⟩ := mapLast_later r hu hs
    refine ⟨?_, nearSet_cons.2 ⟨hx, n⟩⟩
    exact congrArg (laterIv d x :: ·) e

theorem after_later {d W : Int} (r : Room d W) {s : TSet} (hs : NearSet W s) {u : Int} (hu : Near W u) :
    TSet.truncateAfter (laterSet d s) (later d u) = (laterSet d (TSet.truncateAfter s u).1, (TSet.truncateAfter s u).2) ∧
    NearSet W (TSet.truncateAfter s u).1 := by
  have up : ∀ {x}, Near W x → Near (W + 1) x := fun h => near_mono h (by omega)
  unfold TSet.truncateAfter
  have len : (laterSet d s).length = s.length := by unfold laterSet; exact List.length_map ..
  have e : TSet.rposition (fun i => decide (i.lower ≤ later d u)) (laterSet d s) = TSet.rposition (fun i => decide (i.lower ≤ u)) s := by
    unfold TSet.rposition
    have rv : (laterSet d s).reverse = laterSet d s.reverse := by unfold laterSet; rw [List.map_reverse]
    rw [len, rv, findIdx_later (p := fun i => decide (i.lower ≤ u)) fun i hi => by
      simp only [laterIv, later_le r (up (hs i (List.mem_reverse.1 hi)).1) (up hu)]]
  rw [e]
  cases TSet.rposition (fun i => decide (i.lower ≤ u)) s with
  | none =>
    cases s with
    | nil => exact ⟨rfl, nearSet_nil⟩
    | cons x xs => exact ⟨rfl, nearSet_nil⟩
  | some pos =>
    simp only [len]
    split
    · have gl : (laterSet d s).getLast? = s.getLast?.map (laterIv d) := by unfold laterSet; rw [List.getLast?_map]
      rw [gl]
      cases c : s.getLast? with
      | none => exact ⟨rfl, hs⟩
      | some x =>
        obtain ⟨e1, n1⟩ := mapLast_later r hu hs
        obtain ⟨e2, -⟩ := ivAfter_later r (hs x (List.mem_of_getLast? c)) hu
        simp only [Option.map_some, e1, e2]
        exact ⟨trivial, n1⟩
    · have tk : (laterSet d s).take (pos + 1) = laterSet d (s.take (pos + 1)) := by unfold laterSet; rw [List.map_take]
      obtain ⟨e1, n1⟩ := mapLast_later r hu (s := s.take (pos + 1)) fun i hi => hs i (List.mem_of_mem_take hi)
      rw [tk]
      simp only [e1]
      exact ⟨trivial, n1⟩

theorem restrict_later {d W : Int} (r : Room d W) {w w' : Window} (hw : LaterW d W w w') {s : TSet} (hs : NearSet W s) :
    LaterRes d W (w.restrict s) (w'.restrict (laterSet d s)) := by
  cases w <;> cases w'
  · rename_i w w'
    have hw : LaterC d W w w' := hw
    change LaterRes d W (.ok (TSet.interAssignConvex s w)) (.ok (TSet.interAssignConvex (laterSet d s) w'))
    unfold TSet.interAssignConvex
    rw [hw.lower, hw.upper]
    obtain ⟨e1, n1⟩ := after_later r hs hw.nu
    obtain ⟨e2, n2⟩ := before_later r n1 hw.nl
    rw [e1]
    simp only [e2]
    exact laterRes_ok n2
  · cases hw
  · cases hw
  · obtain ⟨rfl, hr⟩ := hw
    exact inter_later r hs hr

/-! ## Complement -/

theorem complTail_later {d W : Int} (r : Room d (W + 1)) : ∀ {s : List Iv} {p : Int}, Near (W + 1) p → NearSet W s →
    TSet.complTail (later d p) (laterSet d s) = laterSet d (TSet.complTail p s) ∧ NearSet (W + 1) (TSet.complTail p s)
  | [], p, hp, _ => by
    change TSet.complTail (later d p) [] = _ ∧ _
    unfold TSet.complTail
    rw [later_fut r (near_mono hp (by omega))]
    split
    · exact ⟨rfl, nearSet_nil⟩
    · refine ⟨?_, nearSet_cons.2 ⟨⟨hp, near_inf⟩, nearSet_nil⟩⟩
      simp only [laterSet, List.map_cons, List.map_nil, laterIv, Convex.into, Convex.lower, Convex.upper, later_inf]
  | x :: s, p, hp, h => by
    obtain ⟨hx, hs⟩ := nearSet_cons.1 h
    obtain ⟨e, n⟩ := complTail_later r (s := s) (near_ja hx.2) hs
    change TSet.complTail (later d p) (laterIv d x :: laterSet d s) = _ ∧ _
    unfold TSet.complTail
    refine ⟨?_, nearSet_cons.2 ⟨⟨hp, near_jb hx.1⟩, n⟩⟩
    have j1 : justAfter (laterIv d x).upper = later d (justAfter x.upper) := later_ja r (near_mono hx.2 (by omega))
    have j2 : justBefore (laterIv d x).lower = later d (justBefore x.lower) := later_jb r (near_mono hx.1 (by omega))
    rw [j1, j2, e]
    rfl

theorem compl_later {d W : Int} (r : Room d (W + 1)) {s : TSet} (hs : NearSet W s) :
    TSet.compl (laterSet d s) = laterSet d (TSet.compl s) ∧ NearSet (W + 1) (TSet.compl s) := by
  cases s with
  | nil =>
    refine ⟨?_, nearSet_cons.2 ⟨nearIv_all, nearSet_nil⟩⟩
    simp only [laterSet, List.map_nil, TSet.compl, TSet.all, List.map_cons, laterIv_all]
  | cons x s =>
    obtain ⟨hx, hs⟩ := nearSet_cons.1 hs
    obtain ⟨e, n⟩ := complTail_later r (s := s) (near_ja hx.2) hs
    change TSet.compl (laterIv d x :: laterSet d s) = _ ∧ _
    unfold TSet.compl
    have j1 : justAfter (laterIv d x).upper = later d (justAfter x.upper) := later_ja r (near_mono hx.2 (by omega))
    have j2 : justBefore (laterIv d x).lower = later d (justBefore x.lower) := later_jb r (near_mono hx.1 (by omega))
    simp only [j1, j2, e, later_past r (near_mono (near_jb hx.1) (by omega))]
    split
    · refine ⟨?_, nearSet_cons.2 ⟨⟨near_ninf, near_jb hx.1⟩, n⟩⟩
      simp only [laterSet, List.map_cons, laterIv, Convex.into, Convex.lower, Convex.upper, later_ninf]
      congr 2
    · exact ⟨rfl, n⟩

theorem ivCompl_later {d W : Int} (r : Room d (W + 1)) {i : Iv} (hi : NearIv W i) :
    (laterIv d i).compl = laterSet d i.compl ∧ NearSet (W + 1) i.compl := by
  have j1 : justAfter (laterIv d i).upper = later d (justAfter i.upper) := later_ja r (near_mono hi.2 (by omega))
  have j2 : justBefore (laterIv d i).lower = later d (justBefore i.lower) := later_jb r (near_mono hi.1 (by omega))
  unfold Iv.compl
  rw [isEmpty_later r (hi.mono (by omega))]
  simp only [j1, j2, later_past r (near_mono (near_jb hi.1) (by omega)), later_fut r (near_mono (near_ja hi.2) (by omega))]
  split
  · exact ⟨by simp only [laterSet, List.map_cons, List.map_nil, laterIv_all], nearSet_cons.2 ⟨nearIv_all, nearSet_nil⟩⟩
  · split
    · exact ⟨rfl, nearSet_nil⟩
    · exact ⟨by simp only [laterSet, List.map_cons, List.map_nil, laterIv, later_inf],
        nearSet_cons.2 ⟨⟨near_ja hi.2, near_inf⟩, nearSet_nil⟩⟩
    · exact ⟨by simp only [laterSet, List.map_cons, List.map_nil, laterIv, later_ninf],
        nearSet_cons.2 ⟨⟨near_ninf, near_jb hi.1⟩, nearSet_nil⟩⟩
    · exact ⟨by simp only [laterSet, List.map_cons, List.map_nil, laterIv, later_inf, later_ninf],
        nearSet_cons.2 ⟨⟨near_ninf, near_jb hi.1⟩, nearSet_cons.2 ⟨⟨near_ja hi.2, near_inf⟩, nearSet_nil⟩⟩⟩

theorem pointCompl_later {d W : Int} (r : Room d (W + 1)) {t : Int} (ht : Near W t) :
    pointCompl (later d t) = laterSet d (pointCompl t) ∧ NearSet (W + 1) (pointCompl t) := by
  have j1 : justAfter (later d t) = later d (justAfter t) := later_ja r (near_mono ht (by omega))
  have j2 : justBefore (later d t) = later d (justBefore t) := later_jb r (near_mono ht (by omega))
  have af : Iv.after (later d (justAfter t)) = laterIv d (Iv.after (justAfter t)) ∧ NearIv (W + 1) (Iv.after (justAfter t)) := by
    unfold Iv.after
    rw [later_fut r (near_mono (near_ja ht) (by omega))]
    split
    · exact ⟨laterIv_empty.symm, nearIv_empty⟩
    · exact ⟨by simp only [laterIv, later_inf], near_ja ht, near_inf⟩
  have be : Iv.before (later d (justBefore t)) = laterIv d (Iv.before (justBefore t)) ∧ NearIv (W + 1) (Iv.before (justBefore t)) := by
    unfold Iv.before
    rw [later_past r (near_mono (near_jb ht) (by omega))]
    split
    · exact ⟨laterIv_empty.symm, nearIv_empty⟩
    · exact ⟨by simp only [laterIv, later_ninf], near_ninf, near_jb ht⟩
  unfold pointCompl
  simp only [j1, j2, af.1, be.1, isEmpty_later r af.2, isEmpty_later r be.2]
  split
  · split
    · exact ⟨rfl, nearSet_nil⟩
    · exact ⟨rfl, nearSet_cons.2 ⟨af.2, nearSet_nil⟩⟩
  · split
    · exact ⟨rfl, nearSet_cons.2 ⟨be.2, nearSet_nil⟩⟩
    · exact ⟨rfl, nearSet_cons.2 ⟨be.2, nearSet_cons.2 ⟨af.2, nearSet_nil⟩⟩⟩

theorem not_later {d W : Int} (r : Room d (W + 1)) {w : Negatable} (h : NearNeg W w) :
    LaterW d (W + 1) (.set w.not) (.set (laterNeg d w).not) := by
  cases w with
  | iv i => exact ivCompl_later r h
  | point t => exact pointCompl_later r h
  | set s => exact compl_later r h

theorem window_later {d W : Int} (r : Room d (W + 1)) {w : Window} (h : NearWindow W w) : LaterW d (W + 1) w (laterWindow d w) := by
  cases w with
  | conv w =>
    obtain ⟨h1, h2, h3, h4, -⟩ := convex_later r h
    exact ⟨h1, h2, h3, h4⟩
  | set s => exact ⟨rfl, nearSet_mono h (by omega)⟩

/-! ## Translations -/

theorem tvAdd_to_inf {x : Int} (hx : Date x) : tvAdd x INF = .ok INF ∧ tvAdd x (-INF) = .ok (-INF) := by
  have hl : Legal x := by unfold Legal Date at *; ticks
  constructor
  · rw [tvAdd_eq hl (by decide), if_neg (by unfold Date at hx; ticks), if_neg (by unfold Date at hx; ticks), if_pos rfl]
  · rw [tvAdd_eq hl (by decide), if_neg (by unfold Date at hx; ticks), if_neg (by unfold Date at hx; ticks), if_neg (by decide),
      if_pos rfl]

theorem tvAdd_plain {x b : Int} (hx : Date x) (hb : Date b) (h : Date (x + b)) : tvAdd x b = .ok (x + b) := by
  rw [tvAdd_fin hx hb]
  congr 1
  unfold round Date at *
  repeat' split
  all_goals ticks

theorem tvAdd_later {d W B x b : Int} (r : Room d (W + B)) (hb0 : 0 ≤ B) (hx : Near W x) (hb : Near B b) :
    tvAdd (later d x) b = Except.map (later d) (tvAdd x b) ∧ ∀ y, tvAdd x b = .ok y → Near (W + B) y := by
  have := r.up; have := r.down; have := r.wide; have := r.pos
  unfold Near at hx hb
  rcases hx with rfl | rfl | hx
  · rw [later_inf]
    unfold tvAdd
    rw [if_pos (by decide)]
    split
    · exact ⟨rfl, fun y e => by cases e⟩
    · exact ⟨congrArg _ later_inf.symm, fun y e => by cases e; exact near_inf⟩
  · rw [later_ninf]
    unfold tvAdd
    rw [if_neg (by decide), if_pos (by decide)]
    split
    · exact ⟨rfl, fun y e => by cases e⟩
    · exact ⟨congrArg _ later_ninf.symm, fun y e => by cases e; exact near_ninf⟩
  · have e : later d x = x + d := by unfold later; rw [if_neg (by ticks)]
    rw [e]
    rcases hb with rfl | rfl | hb
    · have h1 : tvAdd (x + d) INF = .ok INF := (tvAdd_to_inf (by unfold Date; ticks)).1
      have h2 : tvAdd x INF = .ok INF := (tvAdd_to_inf (by unfold Date; ticks)).1
      rw [h1, h2]
      exact ⟨congrArg _ later_inf.symm, fun y e => by cases e; exact near_inf⟩
    · have h1 : tvAdd (x + d) (-INF) = .ok (-INF) := (tvAdd_to_inf (by unfold Date; ticks)).2
      have h2 : tvAdd x (-INF) = .ok (-INF) := (tvAdd_to_inf (by unfold Date; ticks)).2
      rw [h1, h2]
      exact ⟨congrArg _ later_ninf.symm, fun y e => by cases e; exact near_ninf⟩
    · have h1 : tvAdd (x + d) b = .ok (x + d + b) := tvAdd_plain (by unfold Date; ticks) (by unfold Date; ticks) (by unfold Date; ticks)
      have h2 : tvAdd x b = .ok (x + b) := tvAdd_plain (by unfold Date; ticks) (by unfold Date; ticks) (by unfold Date; ticks)
      rw [h1, h2]
      refine ⟨?_, fun y e => by cases e; exact Or.inr (Or.inr (by omega))⟩
      change _ = Except.ok _
      have : later d (x + b) = x + b + d := by unfold later; rw [if_neg (by ticks)]
      rw [this]
      congr 1
      omega

end Chrono
