import Verif.Lemmas.MirrorSched
import Verif.Props.Rename
import Verif.Props.ReleaseSched

/-!
# C123: schedules seen in a mirror

Nothing in a scheduler depends on the direction of time: over the graph with the opposite delays, the opposite requests (a deadline
becomes a startline) get the same answers, and the slots are the opposite ones. The exception is a request about a set made on slots which hold
an interval with no date (C33).
-/

namespace Chrono
open Spec

theorem mirrored_of {g g' : Graph} (hv : Valid g) (hv' : Valid g') (hs : Spanned g) (hm : MirrorGraph g g') : Mirrored g g' := ⟨hv, hv', hs, hm⟩

/-- C123. One request of any kind, on a schedule of canonical slots: over the graph with the opposite delays, the opposite request to
the opposite schedule gets the same answer and leaves the opposite schedule, or panics in the same way; in a debug and in a release build. -/
theorem C123_request {s : Sched} {g' : Graph} (hv : Valid s.graph) (hv' : Valid g') (hs : Spanned s.graph) (hm : MirrorGraph s.graph g')
    (hc : CanonSched s) {q q' : Req} (hq : q.Proper s.graph.size) (ho : MirrorReq q q') :
    q'.run true (mirrorSched g' s) = Except.map (fun p => (mirrorSched g' p.1, p.2)) (q.run true s) ∧
    q'.runR (mirrorSched g' s) = Except.map (fun p => (mirrorSched g' p.1, p.2)) (q.runR s) := by
  have clean : ¬ Unclean s q := by
    have : ∀ i, ¬ ∃ w, s.scheduling i = some w ∧ ¬ Canon w := fun i ⟨w, e, n⟩ => n (hc.2 w (List.mem_of_getElem? e))
    cases q with
    | retain i w => cases w <;> first | exact this i | exact fun h => h
    | remove i w => exact this i
    | deadline t => exact fun h => h
    | startline t => exact fun h => h
  have key := fun dbg => (run_neg dbg (mirrored_of hv hv' hs hm) (s := s) ⟨rfl, hc.1, fun w hw => (hc.2 w hw).loose⟩ hq ho clean).1
  refine ⟨key true, ?_⟩
  rw [req_eq (s := mirrorSched g' s) hv', req_eq hv]
  exact key false

theorem plan_neg {g g' : Graph} (m : Mirrored g g') : ∀ {l l' : List Req}, MirrorReqs l l' → ∀ s, LooseOn g s → (∀ q ∈ l, q.Proper g.size) →
    (CleanRun true s l → plan (mirrorSched g' s) l' = Except.map (fun p => (mirrorSched g' p.1, p.2)) (plan s l)) ∧
    (CleanRun false s l → planR (mirrorSched g' s) l' = Except.map (fun p => (mirrorSched g' p.1, p.2)) (planR s l)) := by
  intro l l' h
  induction h with
  | nil => exact fun s _ _ => ⟨fun _ => rfl, fun _ => rfl⟩
  | @cons q q' l l' hq hl ih =>
    intro s hs hp
    have hvs : Valid s.graph := by rw [hs.1]; exact m.valid
    have hp' : ∀ q ∈ l, q.Proper g.size := fun q h => hp q (List.mem_cons_of_mem _ h)
    constructor
    · intro hc
      obtain ⟨e1, p1⟩ := run_neg true m hs (hp q List.mem_cons_self) hq hc.1
      unfold plan
      rw [e1]
      cases e2 : q.run true s with
      | error x => rfl
      | ok p =>
        have ih := (ih p.1 (p1 p e2) hp').1 (hc.2 p.1 p.2 e2)
        change (plan (mirrorSched g' p.1) l' >>= _) = Except.map _ (plan p.1 l >>= _)
        rw [ih]
        cases plan p.1 l <;> rfl
    · intro hc
      obtain ⟨e1, p1⟩ := run_neg false m hs (hp q List.mem_cons_self) hq hc.1
      unfold planR
      rw [req_eq (s := mirrorSched g' s) m.valid', req_eq hvs, e1]
      cases e2 : q.run false s with
      | error x => rfl
      | ok p =>
        have ih := (ih p.1 (p1 p e2) hp').2 (hc.2 p.1 p.2 e2)
        change (planR (mirrorSched g' p.1) l' >>= _) = Except.map _ (planR p.1 l >>= _)
        rw [ih]
        cases planR p.1 l <;> rfl

theorem new_mirror {g g' : Graph} (h : MirrorGraph g g') : mirrorSched g' (Sched.new g) = Sched.new g' := by
  unfold mirrorSched Sched.new
  simp only [List.map_replicate, h.1]
  have : TSet.neg TSet.all = TSet.all := by decide
  rw [this]

theorem new_looseOn (g : Graph) : LooseOn g (Sched.new g) := by
  refine ⟨rfl, List.length_replicate, fun w hw => ?_⟩
  cases List.eq_of_mem_replicate hw
  exact (canon_one (i := Iv.all) (by constructor <;> decide)).loose

/-- C123. Any requests, made one after the other to a new scheduler; each request about a set finds canonical slots: the opposite requests
to a new scheduler over the graph with the opposite delays get the same answers and leave the opposite schedule, or panic in the same way.
Missing: the requests about sets on other slots (`C123_sets_violated`). -/
theorem C123_requests_partial {g g' : Graph} (hv : Valid g) (hv' : Valid g') (hs : Spanned g) (hm : MirrorGraph g g') {l l' : List Req}
    (hl : MirrorReqs l l') (hp : ∀ q ∈ l, q.Proper g.size) :
    (CleanRun true (Sched.new g) l → plan (Sched.new g') l' = Except.map (fun p => (mirrorSched g' p.1, p.2)) (plan (Sched.new g) l)) ∧
    (CleanRun false (Sched.new g) l → planR (Sched.new g') l' = Except.map (fun p => (mirrorSched g' p.1, p.2)) (planR (Sched.new g) l)) := by
  rw [← new_mirror hm]
  exact plan_neg (mirrored_of hv hv' hs hm) hl _ (new_looseOn g) hp

theorem convex_clean {dbg : Bool} : ∀ {l : List Req} (s : Sched), (∀ q ∈ l, ConvexReq q) → CleanRun dbg s l
  | [], _, _ => trivial
  | q :: l, s, h => by
    refine ⟨?_, fun s' o _ => convex_clean s' fun q hq => h q (List.mem_cons_of_mem _ hq)⟩
    have := h q List.mem_cons_self
    cases q with
    | retain i w => cases w <;> first | exact fun h => h | exact this.elim
    | remove i w => exact this.elim
    | deadline t => exact fun h => h
    | startline t => exact fun h => h

/-- C123. Without sets there is no exception: deadlines, startlines and restrictions to intervals and ranges. -/
theorem C123_convex {g g' : Graph} (hv : Valid g) (hv' : Valid g') (hs : Spanned g) (hm : MirrorGraph g g') {l l' : List Req}
    (hl : MirrorReqs l l') (hp : ∀ q ∈ l, q.Proper g.size) (hx : ∀ q ∈ l, ConvexReq q) :
    plan (Sched.new g') l' = Except.map (fun p => (mirrorSched g' p.1, p.2)) (plan (Sched.new g) l) ∧
    planR (Sched.new g') l' = Except.map (fun p => (mirrorSched g' p.1, p.2)) (planR (Sched.new g) l) := by
  obtain ⟨a, b⟩ := C123_requests_partial hv hv' hs hm hl hp
  exact ⟨a (convex_clean _ hx), b (convex_clean _ hx)⟩

/-- C123. The two queries about the whole schedule are mirror images of each other. -/
theorem C123_queries (g' : Graph) (s : Sched) :
    (mirrorSched g' s).latestBeginning = Except.map (fun t => -t) s.earliestEnding ∧
    (mirrorSched g' s).earliestEnding = Except.map (fun t => -t) s.latestBeginning := by
  have fold1 : ∀ (l : List Int) (x : Int), (l.map fun t => -t).foldl min (-x) = -(l.foldl max x) := by
    intro l
    induction l with
    | nil => exact fun x => rfl
    | cons y l ih =>
      intro x
      simp only [List.map_cons, List.foldl_cons]
      have : min (-x) (-y) = -(max x y) := by omega
      rw [this, ih]
  have fold2 : ∀ (l : List Int) (x : Int), (l.map fun t => -t).foldl max (-x) = -(l.foldl min x) := by
    intro l
    induction l with
    | nil => exact fun x => rfl
    | cons y l ih =>
      intro x
      simp only [List.map_cons, List.foldl_cons]
      have : max (-x) (-y) = -(min x y) := by omega
      rw [this, ih]
  have e1 : (mirrorSched g' s).schedule.map TSet.upperBound = (s.schedule.map TSet.lowerBound).map fun t => -t := by
    simp only [mirrorSched, List.map_map]
    exact List.map_congr_left fun x _ => upperBound_neg x
  have e2 : (mirrorSched g' s).schedule.map TSet.lowerBound = (s.schedule.map TSet.upperBound).map fun t => -t := by
    simp only [mirrorSched, List.map_map]
    exact List.map_congr_left fun x _ => lowerBound_neg x
  unfold Sched.latestBeginning Sched.earliestEnding
  rw [e1, e2]
  constructor
  · cases s.schedule.map TSet.lowerBound with
    | nil => rfl
    | cons x l => exact congrArg _ (fold1 l x)
  · cases s.schedule.map TSet.upperBound with
    | nil => rfl
    | cons x l => exact congrArg _ (fold2 l x)

/-- C123. From the constraints to the schedule: a graph of `n` instants receives constraints, then its scheduler receives requests without
sets. With the opposite constraints and the opposite requests each call, of both kinds, gets the same answer, and the slots of each instant
are the opposite ones. -/
theorem C123_program {n : Nat} (hn : n ≤ 65535) {W : Int} (hW : 0 ≤ W) (hB : 3 * (n : Int) * W < INF) {ks : List Constr}
    (hk : ∀ k ∈ ks, Usable n W k) {l l' : List Req} (hl : MirrorReqs l l') (hp : ∀ q ∈ l, q.Proper n) (hx : ∀ q ∈ l, ConvexReq q) :
    ∃ g g' os, (Graph.withSize n >>= fun g => answers g ks) = .ok (g, os) ∧
      (Graph.withSize n >>= fun g => answers g (ks.map mirrored)) = .ok (g', os) ∧
      plan (Sched.new g') l' = Except.map (fun p => (mirrorSched g' p.1, p.2)) (plan (Sched.new g) l) ∧
      planR (Sched.new g') l' = Except.map (fun p => (mirrorSched g' p.1, p.2)) (planR (Sched.new g) l) := by
  obtain ⟨h, h', os, e, e', v, v', s, s', a, t⟩ := history_alike hn mirror_change hW hW hB hB hk
  refine ⟨h, h', os, e, e', ?_⟩
  have small := a.closed.tight_small hW t
  have nW : ((n - 1 : Nat) : Int) * W < INF := by
    have : 0 ≤ (n : Int) * W := Int.mul_nonneg (by omega) hW
    have : ((n - 1 : Nat) : Int) * W ≤ (n : Int) * W := Int.mul_le_mul_of_nonneg_right (by omega) hW
    have e : 3 * (n : Int) * W = 3 * ((n : Int) * W) := Int.mul_assoc ..
    omega
  refine C123_convex v v' (fun i j hi hj sp hsp => ?_) ⟨by omega, fun i j hi hj => mirror_span v v' s s' a (by omega) (by omega)⟩ hl
    (by rw [s]; exact hp) hx
  rw [timespan_eq v hi hj] at hsp
  cases hsp
  rw [s] at hi hj
  have s1 := small i hi j hj
  have s2 := small j hj i hi
  have anti : mat h i j ≠ -INF → mat h j i ≠ -INF → mat h i j + mat h j i ≤ 0 := fun h1 h2 => by
    have := (a.closed.tri i hi j hj i hi h1 h2).2
    rw [a.closed.diag i hi] at this
    exact this
  generalize ((n - 1 : Nat) : Int) * W = B at *
  unfold Small at s1 s2
  constructor <;> simp only <;> ticks

/-- three instants, two constraints, four requests of different kinds: a program and its mirror image, through the theorem -/
example : ∃ g g' s, (Graph.withSize 3 >>= fun g => answers g [⟨0, 1, false, 2, 5⟩, ⟨1, 2, false, 1, 4⟩]) = .ok (g, [.propagated, .propagated]) ∧
    (Graph.withSize 3 >>= fun g => answers g [⟨0, 1, false, -5, -2⟩, ⟨1, 2, false, -4, -1⟩]) = .ok (g', [.propagated, .propagated]) ∧
    plan (Sched.new g) [.retain 0 (.conv (.rangeIncl 10 20)), .deadline 22, .startline 11, .retain 2 (.conv (.rangeFrom 30))] =
      .ok (s, [.propagated, .propagated, .propagated, .recovered]) ∧ s.schedule = [[⟨11, 19⟩], [⟨13, 21⟩], [⟨14, 22⟩]] ∧
    plan (Sched.new g') [.retain 0 (.conv (.iv ⟨-20, -10⟩)), .startline (-22), .deadline (-11), .retain 2 (.conv (.rangeToIncl (-30)))] =
      .ok (mirrorSched g' s, [.propagated, .propagated, .propagated, .recovered]) := by
  let ks : List Constr := [⟨0, 1, false, 2, 5⟩, ⟨1, 2, false, 1, 4⟩]
  let l : List Req := [.retain 0 (.conv (.rangeIncl 10 20)), .deadline 22, .startline 11, .retain 2 (.conv (.rangeFrom 30))]
  let l' : List Req := [.retain 0 (.conv (.iv ⟨-20, -10⟩)), .startline (-22), .deadline (-11), .retain 2 (.conv (.rangeToIncl (-30)))]
  have usable : ∀ k ∈ ks, Usable 3 100 k := by
    intro k hk
    simp only [ks, List.mem_cons, List.not_mem_nil, or_false] at hk
    rcases hk with rfl | rfl <;> exact ⟨by decide, by decide, fun _ => ⟨by constructor <;> decide, by decide⟩⟩
  have hl : MirrorReqs l l' := .cons ⟨rfl, rfl, rfl⟩ (.cons rfl (.cons rfl (.cons ⟨rfl, rfl, rfl⟩ .nil)))
  have hp : ∀ q ∈ l, q.Proper 3 ∧ ConvexReq q := by
    intro q hq
    simp only [l, List.mem_cons, List.not_mem_nil, or_false] at hq
    rcases hq with rfl | rfl | rfl | rfl
    · exact ⟨⟨by decide, by simp only [ProperWindow, Proper]; decide⟩, trivial⟩
    · exact ⟨⟨by decide, by decide⟩, trivial⟩
    · exact ⟨⟨by decide, by decide⟩, trivial⟩
    · exact ⟨⟨by decide, by simp only [ProperWindow, Proper]; decide⟩, trivial⟩
  obtain ⟨g, g', os, e, e', p, -⟩ := C123_program (n := 3) (W := 100) (by decide) (by decide) (by decide) usable hl (fun q h => (hp q h).1)
    (fun q h => (hp q h).2)
  have eg : (Graph.withSize 3 >>= fun g => answers g ks) = .ok (⟨3, [0, -5, 0, 2, -9, -4, 0, 1, 3]⟩, [.propagated, .propagated]) := by
    decide +kernel
  rw [eg] at e
  cases e
  have run : plan (Sched.new ⟨3, [0, -5, 0, 2, -9, -4, 0, 1, 3]⟩) l =
      .ok (⟨⟨3, [0, -5, 0, 2, -9, -4, 0, 1, 3]⟩, [[⟨11, 19⟩], [⟨13, 21⟩], [⟨14, 22⟩]]⟩, [.propagated, .propagated, .propagated, .recovered]) := by
    decide +kernel
  refine ⟨_, g', _, eg, e', run, rfl, ?_⟩
  rw [run] at p
  exact p

/-- requests about sets which find canonical slots, through the theorem -/
example : ∃ s, plan (Sched.new ⟨2, [0, -5, 0, 2]⟩) [.remove 1 (.point 15), .retain 0 (.set [⟨10, 11⟩, ⟨20, 30⟩])] =
      .ok (s, [.propagated, .propagated]) ∧ s.schedule = [[⟨10, 11⟩, ⟨20, 30⟩], [⟨12, 14⟩, ⟨16, 16⟩, ⟨22, 35⟩]] ∧
    plan (Sched.new ⟨2, [0, 2, 0, -5]⟩) [.remove 1 (.point (-15)), .retain 0 (.set [⟨-30, -20⟩, ⟨-11, -10⟩])] =
      .ok (mirrorSched ⟨2, [0, 2, 0, -5]⟩ s, [.propagated, .propagated]) := by
  let g : Graph := ⟨2, [0, -5, 0, 2]⟩
  let g' : Graph := ⟨2, [0, 2, 0, -5]⟩
  let l : List Req := [.remove 1 (.point 15), .retain 0 (.set [⟨10, 11⟩, ⟨20, 30⟩])]
  have two : ∀ i, i < g.size → i = 0 ∨ i = 1 := fun i hi => by have : i < 2 := hi; omega
  have hm : MirrorGraph g g' := ⟨rfl, fun i j hi hj => by
    rcases two i hi with rfl | rfl <;> rcases two j hj with rfl | rfl <;> decide +kernel⟩
  have hs : Spanned g := fun i j hi hj s hs => by
    rcases two i hi with rfl | rfl <;> rcases two j hj with rfl | rfl <;> cases hs <;> constructor <;> decide +kernel
  have hp : ∀ q ∈ l, q.Proper 2 := by
    intro q hq
    simp only [l, List.mem_cons, List.not_mem_nil, or_false] at hq
    rcases hq with rfl | rfl
    · exact ⟨by decide, by show Date _; decide⟩
    · refine ⟨by decide, ?_, ?_⟩
      · intro i hi
        simp only [List.mem_cons, List.not_mem_nil, or_false] at hi
        rcases hi with rfl | rfl <;> constructor <;> decide
      · simp
  have first : (Req.remove 1 (.point 15)).run true (Sched.new g) =
      .ok (⟨g, [[⟨-INF, INF⟩], [⟨-INF, 14⟩, ⟨16, INF⟩]]⟩, .propagated) := by decide +kernel
  have hc : CleanRun true (Sched.new g) l := by
    refine ⟨?_, fun s' o e => ⟨?_, fun _ _ _ => trivial⟩⟩
    · rintro ⟨w, e, n⟩
      cases e
      exact n (canon_one (by constructor <;> decide))
    · rw [first] at e
      cases e
      rintro ⟨w, e, n⟩
      cases e
      exact n (canon_one (by constructor <;> decide))
  have key := (C123_requests_partial (g := g) (g' := g') (by decide) (by decide) hs hm (l := l)
    (l' := [.remove 1 (.point (-15)), .retain 0 (.set [⟨-30, -20⟩, ⟨-11, -10⟩])])
    (.cons ⟨rfl, rfl⟩ (.cons ⟨rfl, rfl⟩ .nil)) hp).1 hc
  have run : plan (Sched.new g) l = .ok (⟨g, [[⟨10, 11⟩, ⟨20, 30⟩], [⟨12, 14⟩, ⟨16, 16⟩, ⟨22, 35⟩]]⟩, [.propagated, .propagated]) := by
    decide +kernel
  rw [run] at key
  exact ⟨_, run, rfl, key⟩

/-! ## The exception -/

/-- C123 is violated by requests about sets: of two instants with no constraint, the second receives four requests, all of them proper. After
the third its slots hold only the interval `4..3`, which has no date. The fourth is accepted, and refused in the mirror. -/
theorem C123_sets_violated : ∃ g l l' s s' os os', Graph.withSize 2 = .ok g ∧ MirrorGraph g g ∧ Spanned g ∧ MirrorReqs l l' ∧
    (∀ q ∈ l, q.Proper g.size) ∧ plan (Sched.new g) l = .ok (s, os) ∧ plan (Sched.new g) l' = .ok (s', os') ∧
    os = [.propagated, .propagated, .propagated, .unchanged] ∧ os' = [.propagated, .propagated, .propagated, .recovered] := by
  let g : Graph := ⟨2, [0, -INF, 0, -INF]⟩
  let l : List Req := [.retain 1 (.set [⟨0, 3⟩, ⟨10, 20⟩]), .retain 1 (.set [⟨4, 6⟩, ⟨10, 12⟩]), .deadline 5, .retain 1 (.set [⟨4, 6⟩])]
  let l' : List Req := [.retain 1 (.set [⟨-20, -10⟩, ⟨-3, 0⟩]), .retain 1 (.set [⟨-12, -10⟩, ⟨-6, -4⟩]), .startline (-5),
    .retain 1 (.set [⟨-6, -4⟩])]
  have two : ∀ i, i < g.size → i = 0 ∨ i = 1 := fun i hi => by have : i < 2 := hi; omega
  refine ⟨g, l, l', ⟨g, [[⟨-INF, 5⟩], [⟨4, 3⟩]]⟩, ⟨g, [[⟨-5, INF⟩], [⟨-3, -4⟩]]⟩, _, _, by decide +kernel, ⟨rfl, fun i j hi hj => ?_⟩, fun i j hi hj s hs => ?_, ?_, ?_,
    by decide +kernel, by decide +kernel, rfl, rfl⟩
  · rcases two i hi with rfl | rfl <;> rcases two j hj with rfl | rfl <;> decide +kernel
  · rcases two i hi with rfl | rfl <;> rcases two j hj with rfl | rfl <;> cases hs <;> constructor <;> decide +kernel
  · exact .cons ⟨rfl, rfl⟩ (.cons ⟨rfl, rfl⟩ (.cons rfl (.cons ⟨rfl, rfl⟩ .nil)))
  · intro q hq
    have c1 : ∀ {i : Iv}, WF i → Canon [i] := canon_one
    have c2 : ∀ {i j : Iv}, WF i → WF j → i.upper + 1 < j.lower → Canon [i, j] := fun hi hj h =>
      ⟨by simp [hi, hj], by simp [h]⟩
    simp only [l, List.mem_cons, List.not_mem_nil, or_false] at hq
    rcases hq with rfl | rfl | rfl | rfl
    · exact ⟨by decide, c2 (by constructor <;> decide) (by constructor <;> decide) (by decide)⟩
    · exact ⟨by decide, c2 (by constructor <;> decide) (by constructor <;> decide) (by decide)⟩
    · exact ⟨by decide, by decide⟩
    · exact ⟨by decide, c1 (by constructor <;> decide)⟩

end Chrono
