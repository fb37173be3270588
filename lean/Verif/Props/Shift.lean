import Verif.Lemmas.ShiftReq
import Verif.Props.Set
import Verif.Props.ReleaseSched
import Verif.Props.GraphHistory

/-!
# C120: moving the origin of time changes nothing but the dates
-/

namespace Chrono
open Spec

theorem room_of {d W : Int} (h0 : 0 ≤ W) (h : W + 2 + d.natAbs < INF) : Room d W := ⟨h0, by omega, by omega, by omega⟩

theorem tvAdd_shift {d W x : Int} (r : Room d W) (hx : Near W x) : tvAdd x d = .ok (later d x) := by
  have := r.up; have := r.down; have := r.wide; have := r.pos
  unfold Near at hx
  rw [tvAdd_eq (by unfold Legal; ticks) (by unfold Legal; ticks)]
  unfold later
  rcases hx with rfl | rfl | hx
  · rw [if_pos rfl, if_neg (by ticks), if_pos (Or.inl rfl)]
  · rw [if_neg (by decide), if_pos rfl, if_neg (by ticks), if_pos (Or.inr rfl)]
  · rw [if_neg (by ticks), if_neg (by ticks), if_neg (by ticks), if_neg (by ticks), if_neg (by ticks)]
    congr 1
    unfold round
    repeat' split
    all_goals ticks

theorem ivAddTv_shift {d W : Int} (r : Room d W) (dbg : Bool) {i : Iv} (hi : NearIv W i) :
    i.addTv dbg d = Iv.debugNonEmpty dbg (laterIv d (Iv.new i.lower i.upper)) := by
  unfold Iv.addTv
  rw [tvAdd_shift r hi.1, tvAdd_shift r hi.2, ok_bind, ok_bind, (ivNew_later r hi.1 hi.2).1]

theorem ivAddTv_wf {d W : Int} (r : Room d W) (dbg : Bool) {i : Iv} (hi : NearIv W i) (hw : WF i) : i.addTv dbg d = .ok (laterIv d i) := by
  have := hw.lo_lt
  rw [ivAddTv_shift r dbg hi, Iv.new_wf hw]
  unfold Iv.debugNonEmpty
  have e : (laterIv d i).isEmpty = false := by
    rw [isEmpty_later r hi]
    unfold Iv.isEmpty
    rw [← Bool.not_eq_true, isFutureInfinite_iff]
    ticks
  change (if (dbg && (laterIv d i).isEmpty) = true then _ else Except.ok (laterIv d i)) = _
  rw [e, Bool.and_false, if_neg (by decide)]

theorem setAddTv_wf {d W : Int} (r : Room d W) (dbg : Bool) : ∀ {s : List Iv}, NearSet W s → (∀ i ∈ s, WF i) →
    s.mapM (fun tw => tw.addTv dbg d) = .ok (laterSet d s)
  | [], _, _ => rfl
  | x :: s, h, hw => by
    rw [List.mapM_cons, ivAddTv_wf r dbg (h x List.mem_cons_self) (hw x List.mem_cons_self), ok_bind,
      setAddTv_wf r dbg (fun i hi => h i (List.mem_cons_of_mem _ hi)) (fun i hi => hw i (List.mem_cons_of_mem _ hi))]
    rfl

/-- C120. Moving the origin of time by `d` ticks is what adding `d` does: the sum of a canonical set (an interval, a date) and of `d`
has the same intervals, `d` later. -/
theorem C120_moved {d W : Int} (hW : 0 ≤ W) (hd : W + 2 + d.natAbs < INF) (dbg : Bool) :
    (∀ s, Canon s → NearSet W s → TSet.addTv dbg s d = .ok (laterSet d s)) ∧
    (∀ i, WF i → Near W i.lower → Near W i.upper → i.addTv dbg d = .ok (laterIv d i)) ∧
    ∀ t, Near W t → tvAdd t d = .ok (later d t) :=
  ⟨fun _ hs h => setAddTv_wf (room_of hW hd) dbg h hs.wf, fun _ hw h1 h2 => ivAddTv_wf (room_of hW hd) dbg ⟨h1, h2⟩ hw,
    fun _ h => tvAdd_shift (room_of hW hd) h⟩

/-- C120. The union, the intersection and the complement of sets which have been moved are those of the sets, moved: the same number of
intervals, each of them `d` later, or the same panic. The sets need not be canonical. -/
theorem C120_operations {d W : Int} (hW : 0 ≤ W) (hd : W + 3 + d.natAbs < INF) {a b : TSet} (ha : NearSet W a) (hb : NearSet W b) :
    TSet.union (laterSet d a) (laterSet d b) = Except.map (laterSet d) (TSet.union a b) ∧
    TSet.inter (laterSet d a) (laterSet d b) = Except.map (laterSet d) (TSet.inter a b) ∧
    TSet.compl (laterSet d a) = laterSet d (TSet.compl a) :=
  ⟨(union_later (room_of hW (by omega)) ha hb).1, (inter_later (room_of hW (by omega)) ha hb).1,
    (compl_later (room_of (by omega) (by omega)) ha).1⟩

theorem drain_near {W : Int} {a b : TSet} (ha : NearSet W a) (hb : NearSet W b) (hW : 0 ≤ W) (h : W + 2 < INF) {r : TSet}
    (hr : TSet.inter a b = .ok r) : NearSet W r :=
  (inter_later (d := 0) (room_of hW (by simpa using h)) ha hb).2 r hr

theorem mapM_mem {dbg : Bool} {d : Int} : ∀ {s r : List Iv}, s.mapM (fun tw => tw.addTv dbg d) = .ok r →
    r.length = s.length ∧ ∀ n (h : n < s.length), ∃ y, s[n].addTv dbg d = .ok y ∧ r[n]? = some y
  | [], r, h => by cases h; exact ⟨rfl, fun n h => by cases h⟩
  | x :: s, r, h => by
    rw [List.mapM_cons] at h
    cases e1 : x.addTv dbg d with
    | error e => rw [e1] at h; cases h
    | ok y =>
      rw [e1, ok_bind] at h
      cases e2 : s.mapM (fun tw => tw.addTv dbg d) with
      | error e => rw [e2] at h; cases h
      | ok ys =>
        rw [e2] at h
        cases h
        obtain ⟨l, m⟩ := mapM_mem e2
        refine ⟨by simp only [List.length_cons, l], fun n hn => ?_⟩
        cases n with
        | zero => exact ⟨y, e1, rfl⟩
        | succ n => exact m n (Nat.lt_of_succ_lt_succ hn)

/-- C120, with the operators of the API only: `(a | b) + d` is `(a + d) | (b + d)` for all canonical sets; `(a & b) + d` is
`(a + d) & (b + d)` exactly when no interval of the one starts right after the end of an interval of the other (otherwise the intersection
has an interval without any date, see C33, which does not survive an addition). -/
theorem C120_laws {d W : Int} (hW : 0 ≤ W) (hd : W + 2 + d.natAbs < INF) (dbg : Bool) {a b : TSet} (ca : Canon a) (cb : Canon b)
    (ha : NearSet W a) (hb : NearSet W b) :
    (do TSet.addTv dbg (← TSet.union a b) d) = (do TSet.union (← TSet.addTv dbg a d) (← TSet.addTv dbg b d)) ∧
    ((do TSet.addTv dbg (← TSet.inter a b) d) = (do TSet.inter (← TSet.addTv dbg a d) (← TSet.addTv dbg b d)) ↔ NoTouch a b) := by
  have r := room_of hW hd
  obtain ⟨ma, -⟩ := C120_moved hW hd dbg
  rw [ma a ca ha, ma b cb hb]
  simp only [ok_bind]
  constructor
  · obtain ⟨⟨u, eu, cu⟩, -⟩ := C31_union_canonical a b ca cb
    have nu := (union_later r ha hb).2 u eu
    rw [(union_later r ha hb).1, eu, ok_bind, ma u cu nu]
    rfl
  · obtain ⟨u, eu, -, mu, cu, -⟩ := C33_inter_exact a b ca cb
    have nu := (inter_later r ha hb).2 u eu
    rw [(inter_later r ha hb).1, eu, ok_bind]
    constructor
    · intro h
      refine Classical.byContradiction fun hn => ?_
      have hwf : ¬ ∀ y ∈ u, WF y := by
        intro hall
        refine hn fun x hx z hz => Classical.byContradiction fun hc => ?_
        have := (ca.wf x hx).le
        have := (cb.wf z hz).le
        have := (hall _ ((mu _).2 ⟨x, hx, z, hz, by omega, by omega, rfl⟩)).le
        simp only at this
        omega
      obtain ⟨y, hy⟩ := Classical.not_forall.1 hwf
      obtain ⟨hy, nw⟩ := Classical.not_imp.1 hy
      obtain ⟨x, hx, z, hz, q1, q2, rfl⟩ := (mu _).1 hy
      obtain ⟨g1, g2, g3, g4, g5⟩ := ca.wf x hx
      obtain ⟨k1, k2, k3, k4, k5⟩ := cb.wf z hz
      have bad : min x.upper z.upper < max x.lower z.lower := by
        refine Classical.byContradiction fun hc => nw ?_
        constructor <;> simp only <;> omega
      obtain ⟨n, hn, e⟩ := List.getElem_of_mem hy
      change u.mapM (fun tw => tw.addTv dbg d) = .ok (laterSet d u) at h
      obtain ⟨-, m⟩ := mapM_mem h
      obtain ⟨v, e1, e2⟩ := m n hn
      rw [e, ivAddTv_shift r dbg (nu _ hy)] at e1
      have en : Iv.new (max x.lower z.lower) (min x.upper z.upper) = Iv.empty := by
        unfold Iv.new
        rw [if_neg (by omega), if_neg (by omega)]
      simp only [en, laterIv_empty] at e1
      have e3 : v = Iv.empty := by
        unfold Iv.debugNonEmpty at e1
        split at e1
        · cases e1
        · cases e1; rfl
      unfold laterSet at e2
      rw [List.getElem?_map, List.getElem?_eq_getElem hn, e] at e2
      injection e2 with e2
      rw [e3] at e2
      have e4 : later d (max x.lower z.lower) = INF := congrArg Iv.lower e2
      have := r.up; have := r.down; have := r.wide; have := r.pos
      have nl := (nu _ hy).1
      unfold Near at nl
      simp only at nl
      unfold later at e4
      split at e4 <;> ticks
    · intro hn
      rw [ma u (cu.2 hn) nu]
      rfl

/-- C120. Containment and overlap of two windows of any kind are those of the windows moved by the same number of ticks; and truncations
at a moved date are the truncations, moved, with the same answer. -/
theorem C120_relations {d W : Int} (hW : 0 ≤ W) (hd : W + 3 + d.natAbs < INF) {w : Window} (hw : NearWindow W w) {s : TSet}
    (hs : NearSet W s) {t : Int} (ht : Near W t) :
    (laterWindow d w).containsSet (laterSet d s) = w.containsSet s ∧
    (laterWindow d w).overlapsSet (laterSet d s) = w.overlapsSet s ∧
    (laterWindow d w).restrict (laterSet d s) = Except.map (laterSet d) (w.restrict s) ∧
    TSet.truncateBefore (laterSet d s) (later d t) = (laterSet d (TSet.truncateBefore s t).1, (TSet.truncateBefore s t).2) ∧
    TSet.truncateAfter (laterSet d s) (later d t) = (laterSet d (TSet.truncateAfter s t).1, (TSet.truncateAfter s t).2) ∧
    TSet.lowerBound (laterSet d s) = later d (TSet.lowerBound s) ∧ TSet.upperBound (laterSet d s) = later d (TSet.upperBound s) := by
  have r : Room d (W + 1) := room_of (by omega) (by omega)
  have r0 : Room d W := room_of (by omega) (by omega)
  have lw := window_later r hw
  have hs' : NearSet (W + 1) s := nearSet_mono hs (by omega)
  exact ⟨windowContains_later r lw hs', windowOverlaps_later r lw hs', (restrict_later r lw hs').1, (before_later r0 hs ht).1,
    (after_later r0 hs ht).1, (lowerBound_later hs).1, (upperBound_later hs).1⟩

/-- C120. A request made `d` ticks later to a schedule moved `d` ticks later gives the same answer (or the same panic), and leaves the
same schedule, `d` ticks later; in a debug and in a release build. -/
theorem C120_request {d W B : Int} {s : Sched} {q : Req} (hv : Valid s.graph) (hz : ZeroDiag s.graph) (hB : 0 ≤ B) (hg : Within B s.graph)
    (hlen : s.schedule.length = s.graph.size) (hW : 0 ≤ W) (hs : NearSched W s) (hq : NearReq W q)
    (hd : W + 3 + (Req.turns s.graph.size q : Nat) * B + d.natAbs < INF) :
    (laterReq d q).run true (laterSched d s) = Except.map (fun p => (laterSched d p.1, p.2)) (q.run true s) ∧
    (laterReq d q).runR (laterSched d s) = Except.map (fun p => (laterSched d p.1, p.2)) (q.runR s) := by
  have nn : 0 ≤ ((Req.turns s.graph.size q : Nat) : Int) * B := Int.mul_nonneg (by omega) hB
  have key := fun dbg => (run_later (V := W + 1) (d := d) hB dbg hv hz hg hW (Int.le_refl _) (room_of (by omega) (by omega))
    ⟨fun w hw => nearSet_mono (hs w hw) (by omega), rfl, hlen⟩ hq).1
  refine ⟨key true, ?_⟩
  rw [req_eq (s := laterSched d s) hv, req_eq hv]
  exact key false

theorem plan_later {d W B : Int} {g : Graph} (hv : Valid g) (hz : ZeroDiag g) (hB : 0 ≤ B) (hg : Within B g) (hW : 0 ≤ W) :
    ∀ (l : List Req) (V : Int) (s : Sched), W + 1 ≤ V → NearOn V g s → (∀ q ∈ l, NearReq W q) →
      Room d (V + ((l.map (Req.turns g.size)).sum : Nat) * B) →
      plan (laterSched d s) (l.map (laterReq d)) = Except.map (fun p => (laterSched d p.1, p.2)) (plan s l) ∧
      planR (laterSched d s) (l.map (laterReq d)) = Except.map (fun p => (laterSched d p.1, p.2)) (planR s l)
  | [], _, _, _, _, _, _ => ⟨rfl, rfl⟩
  | q :: l, V, s, hV, hs, hq, r => by
    have e : V + (((q :: l).map (Req.turns g.size)).sum : Nat) * B =
        V + (Req.turns g.size q : Nat) * B + ((l.map (Req.turns g.size)).sum : Nat) * B := by
      rw [List.map_cons, List.sum_cons, Int.natCast_add, Int.add_mul]
      omega
    rw [e] at r
    have n1 : 0 ≤ ((Req.turns g.size q : Nat) : Int) * B := Int.mul_nonneg (by omega) hB
    have n2 : 0 ≤ (((l.map (Req.turns g.size)).sum : Nat) : Int) * B := Int.mul_nonneg (by omega) hB
    have step := fun dbg => run_later (V := V) (d := d) hB dbg hv hz hg hW hV (room_mono r (by omega) (by omega)) hs
      (hq q List.mem_cons_self)
    have hvs : Valid s.graph := by rw [hs.2.1]; exact hv
    rw [List.map_cons]
    constructor
    · obtain ⟨e1, p1⟩ := step true
      unfold plan
      rw [e1]
      cases e2 : q.run true s with
      | error x => rfl
      | ok p =>
        have ih := (plan_later hv hz hB hg hW l _ p.1 (by omega) (p1 p e2) (fun q h => hq q (List.mem_cons_of_mem _ h)) r).1
        change (plan (laterSched d p.1) (l.map (laterReq d)) >>= _) = Except.map _ (plan p.1 l >>= _)
        rw [ih]
        cases plan p.1 l <;> rfl
    · obtain ⟨e1, p1⟩ := step false
      unfold planR
      rw [req_eq (s := laterSched d s) hvs, req_eq hvs, e1]
      cases e2 : q.run false s with
      | error x => rfl
      | ok p =>
        have ih := (plan_later hv hz hB hg hW l _ p.1 (by omega) (p1 p e2) (fun q h => hq q (List.mem_cons_of_mem _ h)) r).2
        change (planR (laterSched d p.1) (l.map (laterReq d)) >>= _) = Except.map _ (planR p.1 l >>= _)
        rw [ih]
        cases planR p.1 l <;> rfl

theorem new_later {d : Int} (g : Graph) : laterSched d (Sched.new g) = Sched.new g := by
  unfold laterSched Sched.new
  simp only [List.map_replicate]
  have : laterSet d TSet.all = TSet.all := by
    unfold laterSet TSet.all laterIv Iv.all
    simp only [List.map_cons, List.map_nil, later_inf, later_ninf]
  rw [this]

theorem new_near {W : Int} (g : Graph) : NearOn W g (Sched.new g) := by
  refine ⟨fun w hw => ?_, rfl, List.length_replicate⟩
  cases List.eq_of_mem_replicate hw
  exact nearSet_cons.2 ⟨nearIv_all, nearSet_nil⟩

/-- C120. The same requests made to a new scheduler `d` ticks later, one after the other: the same answers, the same panics, the same
slots, `d` ticks later; in a debug and in a release build. The graph, which holds delays between instants, is the same. -/
theorem C120_requests {d W B : Int} {g : Graph} (hv : Valid g) (hz : ZeroDiag g) (hB : 0 ≤ B) (hg : Within B g) (hW : 0 ≤ W) (l : List Req)
    (hq : ∀ q ∈ l, NearReq W q) (hd : W + 3 + ((l.map (Req.turns g.size)).sum : Nat) * B + d.natAbs < INF) :
    plan (Sched.new g) (l.map (laterReq d)) = Except.map (fun p => (laterSched d p.1, p.2)) (plan (Sched.new g) l) ∧
    planR (Sched.new g) (l.map (laterReq d)) = Except.map (fun p => (laterSched d p.1, p.2)) (planR (Sched.new g) l) := by
  have nn : 0 ≤ (((l.map (Req.turns g.size)).sum : Nat) : Int) * B := Int.mul_nonneg (by omega) hB
  have key := plan_later hv hz hB hg hW l (W + 1) (Sched.new g) (Int.le_refl _) (new_near g) hq (room_of (d := d) (by omega) (by omega))
  rw [new_later] at key
  exact key

/-- C120. In particular for every graph which has been built by the operations of the API and has a solution, whatever its history. -/
theorem C120_built {N : Nat} (hN : N ≤ 65535) {g : Graph} {P : (Nat → Int) → Prop} (h : Built N g P)
    (hsat : ∃ τ, Representable N τ ∧ P τ) {d W B : Int} (hB : 0 ≤ B) (hg : Within B g) (hW : 0 ≤ W) (l : List Req)
    (hq : ∀ q ∈ l, NearReq W q) (hd : W + 3 + ((l.map (Req.turns g.size)).sum : Nat) * B + d.natAbs < INF) :
    plan (Sched.new g) (l.map (laterReq d)) = Except.map (fun p => (laterSched d p.1, p.2)) (plan (Sched.new g) l) ∧
    planR (Sched.new g) (l.map (laterReq d)) = Except.map (fun p => (laterSched d p.1, p.2)) (planR (Sched.new g) l) := by
  have i := built_inv hN h
  refine C120_requests i.valid (fun j hj => ?_) hB hg hW l hq hd
  rw [timespan_eq i.valid hj hj, i.zero hsat j hj]
  rfl

/-- sets, windows and dates which are not far from 0 -/
example : NearSet 100 [⟨-INF, 3⟩, ⟨10, 20⟩] ∧ Canon [⟨-INF, 3⟩, ⟨10, 20⟩] ∧ laterSet 1000 [⟨-INF, 3⟩, ⟨10, 20⟩] = [⟨-INF, 1003⟩, ⟨1010, 1020⟩] ∧
    NearWindow 100 (.conv (.rangeFrom 5)) ∧ NearReq 100 (.deadline 60) ∧ (100 : Int) + 3 + (1000 : Int).natAbs < INF := by
  refine ⟨?_, by decide, by decide, Or.inr (Or.inr (by decide)), Or.inr (Or.inr (by decide)), by decide⟩
  intro i hi
  simp only [List.mem_cons, List.not_mem_nil, or_false] at hi
  rcases hi with rfl | rfl
  · exact ⟨Or.inr (Or.inl rfl), Or.inr (Or.inr (by decide))⟩
  · exact ⟨Or.inr (Or.inr (by decide)), Or.inr (Or.inr (by decide))⟩

/-- requests on three instants of a graph with two constraints, and the same requests a thousand ticks later, through the theorem -/
example : ∃ g s os, runOps Graph.default [.propagate ⟨0, 1, false, 2, 5⟩, .propagate ⟨1, 2, false, 1, 4⟩] = .ok g ∧
    plan (Sched.new g) [.retain 0 (.conv (.iv ⟨10, 20⟩)), .deadline 22, .remove 1 (.point 15)] = .ok (s, os) ∧
    s.schedule = [[⟨10, 19⟩], [⟨12, 14⟩, ⟨16, 21⟩], [⟨13, 22⟩]] ∧
    plan (Sched.new g) [.retain 0 (.conv (.iv ⟨1010, 1020⟩)), .deadline 1022, .remove 1 (.point 1015)] = .ok (laterSched 1000 s, os) := by
  let g : Graph := ⟨3, [0, -5, 0, 2, -INF, -4, 0, 1, -INF]⟩
  have hg : runOps Graph.default [.propagate ⟨0, 1, false, 2, 5⟩, .propagate ⟨1, 2, false, 1, 4⟩] = .ok g := by decide +kernel
  have three : ∀ i, i < g.size → i = 0 ∨ i = 1 ∨ i = 2 := fun i hi => by have : i < 3 := hi; omega
  have hz : ZeroDiag g := fun i hi => by
    rcases three i hi with rfl | rfl | rfl <;> decide +kernel
  have hw : Within 5 g := fun i j hi hj s hs => by
    rcases three i hi with rfl | rfl | rfl <;> rcases three j hj with rfl | rfl | rfl <;> cases hs <;> decide +kernel
  have near : ∀ q ∈ [Req.retain 0 (.conv (.iv ⟨10, 20⟩)), .deadline 22, .remove 1 (.point 15)], NearReq 30 q := by
    intro q hq
    simp only [List.mem_cons, List.not_mem_nil, or_false] at hq
    rcases hq with rfl | rfl | rfl
    · exact ⟨Or.inr (Or.inr (by decide)), Or.inr (Or.inr (by decide))⟩
    · exact Or.inr (Or.inr (by decide))
    · exact Or.inr (Or.inr (by decide))
  have key := (C120_requests (d := 1000) (W := 30) (B := 5) (g := g) (by decide) hz (by decide) hw (by decide) _ near (by decide)).1
  have run : plan (Sched.new g) [.retain 0 (.conv (.iv ⟨10, 20⟩)), .deadline 22, .remove 1 (.point 15)] =
      .ok (⟨g, [[⟨10, 19⟩], [⟨12, 14⟩, ⟨16, 21⟩], [⟨13, 22⟩]]⟩, [.propagated, .propagated, .propagated]) := by decide +kernel
  refine ⟨g, _, _, hg, run, rfl, ?_⟩
  rw [run] at key
  exact key

end Chrono
