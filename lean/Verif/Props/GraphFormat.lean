import Verif.Lemmas.GraphFormat
import Verif.Props.GraphIter
import Verif.Props.DateTime
import Verif.Spec.Sched

/-!
# C100–C102: texts of constraints, graphs and schedulers
-/

set_option linter.unusedSimpArgs false

namespace Chrono
open Spec

/-! ## C100 Debug of graphs and constraints -/

/-- C100. `{:?}` of a graph does not panic and is a matrix: after a line break, one line per instant `i`, with in the
column `j` the lower bound of the time span from `i` to `j`, on 7 characters at least. -/
theorem C100_debug {g : Graph} (hv : Valid g) : ∃ b : Nat → Nat → Int,
    (∀ i j, i < g.size → j < g.size → ∃ u, g.timespan i j = .ok ⟨b i j, u⟩) ∧
    g.debugText = .ok ("\n".toList ++ (List.range g.size).flatMap fun i =>
      "[".toList ++ ((List.range g.size).flatMap fun j =>
        " ".toList ++ List.replicate (7 - (debugTv (b i j)).length) ' ' ++ debugTv (b i j)) ++ " ]\n".toList) := by
  refine ⟨mat g, fun i j hi hj => ⟨_, timespan_eq hv hi hj⟩, ?_⟩
  rw [graphDebug_eq hv]
  simp [rowsText, rows, cellsText, padLeft, List.flatMap_map]

/-- C100. Two graphs with the same `{:?}` say the same. -/
theorem C100_debug_determines {g h : Graph} (hg : Valid g) (hh : Valid h) (e : g.debugText = h.debugText) :
    SameGraph g h := by
  obtain ⟨e1, e2⟩ := graphDebug_inj hg hh e
  refine ⟨e1, fun i j => ?_⟩
  by_cases hi : i < g.size
  · by_cases hj : j < g.size
    · rw [timespan_eq hg hi hj, timespan_eq hh (e1 ▸ hi) (e1 ▸ hj), e2 i j hi hj, e2 j i hj hi]
    · rw [timespan_out (by omega), timespan_out (by omega)]
  · rw [timespan_out (by omega), timespan_out (by omega)]

/-- C100. `{:?}` of a constraint is its source and target, then its time span as a window. -/
theorem C100_constraint (k : Constr) : k.debugText = "(".toList ++ Nat.toDigits 10 k.src ++ "->".toList ++
    Nat.toDigits 10 k.dst ++ ")=".toList ++ debugIv debugTv k.span := by
  rw [← natStr_eq, ← natStr_eq]
  rfl

/-- C100. Two constraints with the same `{:?}` are the same. -/
theorem C100_constraint_determines {k l : Constr} (hk : WF k.span) (hl : WF l.span) (h : k.debugText = l.debugText) :
    k.src = l.src ∧ k.dst = l.dst ∧ k.span = l.span := constr_debug_inj hk hl h

example : Valid exGraph ∧ exGraph.debugText =
    .ok "\n[       0      10      15 ]\n[     -20       0       5 ]\n[     -26      -6       0 ]\n".toList ∧
    WF (Constr.span ⟨0, 1, false, 10, 20⟩) ∧ Constr.debugText ⟨0, 1, false, 10, 20⟩ = "(0->1)=[10,20]".toList := by
  decide +kernel

/-! ## C101 Display of graphs and constraints -/

theorem span_wf {g : Graph} (hs : ∃ τ, Sat τ g) (hw : Within (INF - 1) g) {i j : Nat} (hi : i < g.size)
    (hj : j < g.size) {s : Iv} (h : g.timespan i j = .ok s) : WF s := by
  obtain ⟨τ, hτ⟩ := hs
  obtain ⟨s', h', p, q⟩ := hτ i j hi hj
  rw [h] at h'
  injection h' with h'
  subst h'
  obtain ⟨a, b⟩ := hw i j hi hj s h
  have : (0 : Int) < INF := by decide
  exact ⟨by omega, by omega, by omega, by omega, by omega⟩

theorem graphDisplay_eq {g : Graph} (hv : Valid g) (hs : ∃ τ, Sat τ g) (hw : Within (INF - 1) g) :
    ∃ ks ts, g.iterAll = .ok ks ∧ ks.mapM Constr.displayText = .ok ts ∧ (∀ t ∈ ts, '\n' ∉ t) ∧ (∀ k ∈ ks, WF k.span) ∧
      g.displayText = .ok ("[graph with ".toList ++ natStr g.size ++ " instants]\n".toList ++
        ts.flatMap (fun t => "   ".toList ++ t ++ ['\n']) ++ "[with ".toList ++ natStr ks.length ++
        " constraints]\n".toList) := by
  obtain ⟨ks, h1, -, h3, -⟩ := C71_iter hv
  have hwf : ∀ k ∈ ks, WF k.span := fun k hk => by
    obtain ⟨a, b, -, c, -⟩ := h3 k hk
    exact span_wf hs hw (by omega) b c
  obtain ⟨ts, h4, h5⟩ := constr_texts hwf
  refine ⟨ks, ts, h1, h4, h5, hwf, ?_⟩
  have key : ∀ (ks : List Constr) (ts : List (List Char)), ks.mapM Constr.displayText = .ok ts →
      (ks.mapM fun k => do return "   ".toList ++ (← k.displayText) ++ ['\n'] : Res _) =
        .ok (ts.map fun t => "   ".toList ++ t ++ ['\n']) := by
    intro ks
    induction ks with
    | nil => intro ts h; injection h with h; subst h; rfl
    | cons k ks ih =>
      intro ts h
      obtain ⟨y, t', a, b, c⟩ := mapM_cons_ok h
      rw [List.mapM_cons, a, ih t' b, c]
      rfl
  unfold Graph.displayText
  rw [h1, ok_bind, key ks ts h4, ok_bind, List.flatMap_def]
  rfl

/-- C101. `{}` of a graph with a solution does not panic and shows the number of instants, then one line for each
constraint of `iter()`, in this order, then their number; the line of a constraint is `t<to> - t<from> in `
followed by the text of its time span. -/
theorem C101_display {g : Graph} (hv : Valid g) (hs : ∃ τ, Sat τ g) (hw : Within (INF - 1) g) :
    ∃ ks ts, g.iterAll = .ok ks ∧ ks.mapM (fun k => displayIv displayTv k.span) = .ok ts ∧
      g.displayText = .ok ("[graph with ".toList ++ Nat.toDigits 10 g.size ++ " instants]\n".toList ++
        (ks.zip ts).flatMap (fun p => "   t".toList ++ Nat.toDigits 10 p.1.dst ++ " - t".toList ++
          Nat.toDigits 10 p.1.src ++ " in ".toList ++ p.2 ++ "\n".toList) ++
        "[with ".toList ++ Nat.toDigits 10 ks.length ++ " constraints]\n".toList) := by
  obtain ⟨ks, ts, h1, h2, -, -, h4⟩ := graphDisplay_eq hv hs hw
  have key : ∀ (ks : List Constr) (ts : List (List Char)), ks.mapM Constr.displayText = .ok ts →
      ∃ ts', ks.mapM (fun k => displayIv displayTv k.span) = .ok ts' ∧
        ts.flatMap (fun t => "   ".toList ++ t ++ ['\n']) = (ks.zip ts').flatMap (fun p => "   t".toList ++
          Nat.toDigits 10 p.1.dst ++ " - t".toList ++ Nat.toDigits 10 p.1.src ++ " in ".toList ++ p.2 ++ "\n".toList) := by
    intro ks
    induction ks with
    | nil => intro ts h; injection h with h; subst h; exact ⟨[], rfl, rfl⟩
    | cons k ks ih =>
      intro ts h
      obtain ⟨y, t', a, b, c⟩ := mapM_cons_ok h
      obtain ⟨ts', p, q⟩ := ih t' b
      unfold Constr.displayText at a
      cases hd : displayIv displayTv ⟨k.lower, k.upper⟩ with
      | error e => rw [hd] at a; cases a
      | ok s =>
        rw [hd] at a
        have a := (Except.ok.inj a).symm
        refine ⟨s :: ts', ?_, ?_⟩
        · rw [List.mapM_cons, p, show displayIv displayTv k.span = .ok s from hd]; rfl
        · rw [c, List.flatMap_cons, List.zip_cons_cons, List.flatMap_cons, q, a]
          simp [natStr_eq]
  obtain ⟨ts', p, q⟩ := key ks ts h2
  exact ⟨ks, ts', h1, p, by rw [h4, q, natStr_eq, natStr_eq]⟩

/-- C101. Two graphs with the same `{}` have the same instants, the same infinite bounds, and finite bounds at most
one tick apart (the text of a duration is to the nanosecond). -/
theorem C101_display_determines {g h : Graph} (hg : Valid g) (hh : Valid h) (sg : ∃ τ, Sat τ g) (sh : ∃ τ, Sat τ h)
    (wg : Within (INF - 1) g) (wh : Within (INF - 1) h) (e : g.displayText = h.displayText) :
    g.size = h.size ∧ ∀ i j, i < j → j < g.size → ∀ a b, g.timespan i j = .ok a → h.timespan i j = .ok b →
      (a.lower - b.lower ≤ 1 ∧ b.lower - a.lower ≤ 1) ∧ (a.upper - b.upper ≤ 1 ∧ b.upper - a.upper ≤ 1) ∧
      (a.lower = -INF ↔ b.lower = -INF) ∧ (a.upper = INF ↔ b.upper = INF) := by
  obtain ⟨ks, ts, k1, k2, k3, k4, k5⟩ := graphDisplay_eq hg sg wg
  obtain ⟨ls, us, l1, l2, l3, l4, l5⟩ := graphDisplay_eq hh sh wh
  rw [k5, l5] at e
  have e := Except.ok.inj e
  have toLines : ∀ (n m : Nat) (ts : List (List Char)), "[graph with ".toList ++ natStr n ++ " instants]\n".toList ++
        ts.flatMap (fun t => "   ".toList ++ t ++ ['\n']) ++ "[with ".toList ++ natStr m ++ " constraints]\n".toList =
      (("[graph with ".toList ++ natStr n ++ " instants]".toList) :: (ts.map ("   ".toList ++ ·)) ++
        [("[with ".toList ++ natStr m ++ " constraints]".toList)]).flatMap (· ++ ['\n']) := by
    intro n m ts
    simp [List.flatMap_map, List.flatMap_append]
  rw [toLines, toLines] at e
  have nn : ∀ n, '\n' ∉ natStr n := fun n h => absurd (natStr_chars h) (by decide)
  have clean : ∀ (n m : Nat) (ts : List (List Char)), (∀ t ∈ ts, '\n' ∉ t) →
      ∀ x ∈ (("[graph with ".toList ++ natStr n ++ " instants]".toList) :: (ts.map ("   ".toList ++ ·)) ++
        [("[with ".toList ++ natStr m ++ " constraints]".toList)]), '\n' ∉ x := by
    intro n m ts ht x hx
    simp only [List.cons_append, List.mem_cons, List.mem_append, List.mem_map, List.mem_singleton,
      List.not_mem_nil, or_false] at hx
    rcases hx with h | ⟨t, h, h'⟩ | h
    · subst h; simp [nn]
    · subst h'; simp [ht t h]
    · subst h; simp [nn]
  have e := lines_inj' (clean _ _ _ k3) (clean _ _ _ l3) e
  injection e with e1 e2
  have hsz : g.size = h.size := natStr_inj (List.append_cancel_left (List.append_cancel_right e1))
  have e3 := (List.append_inj' e2 rfl).1
  have hts : ts = us := (List.map_inj_right (fun x y h => List.append_cancel_left h)).1 e3
  subst hts
  obtain ⟨-, m1⟩ := mapM_same k2 l2
  obtain ⟨-, m2⟩ := mapM_same l2 k2
  have close : ∀ {ks ls : List Constr}, (∀ k ∈ ks, WF k.span) → (∀ k ∈ ls, WF k.span) →
      (∀ (n : Nat) (x : Constr), ks[n]? = some x → ∃ y s, ls[n]? = some y ∧ x.displayText = .ok s ∧ y.displayText = .ok s) →
      ∀ k ∈ ks, ∃ l ∈ ls, k.src = l.src ∧ k.dst = l.dst ∧
        (k.lower - l.lower ≤ 1 ∧ l.lower - k.lower ≤ 1) ∧ (k.upper - l.upper ≤ 1 ∧ l.upper - k.upper ≤ 1) ∧
        (k.lower = -INF ↔ l.lower = -INF) ∧ (k.upper = INF ↔ l.upper = INF) := by
    intro ks ls hks hls m k hk
    obtain ⟨n, hn⟩ := List.getElem?_of_mem hk
    obtain ⟨l, s, p, q, r⟩ := m n k hn
    have hl := List.mem_of_getElem? p
    exact ⟨l, hl, constr_close (hks k hk) (hls l hl) q r⟩
  refine ⟨hsz, fun i j hij hj a b ha hb => ?_⟩
  obtain ⟨ks', x1, -, x3, x4⟩ := C71_iter hg
  obtain ⟨ls', y1, -, y3, y4⟩ := C71_iter hh
  rw [k1] at x1; injection x1 with x1; subst x1
  rw [l1] at y1; injection y1 with y1; subst y1
  by_cases ca : a = ⟨-INF, INF⟩
  · by_cases cb : b = ⟨-INF, INF⟩
    · subst ca cb; simp
    · obtain ⟨k, hk, rfl, rfl⟩ := y4 i j hij (hsz ▸ hj) b hb cb
      obtain ⟨l, hl, p1, p2, p3⟩ := close l4 k4 m2 k hk
      obtain ⟨-, -, -, q1, -⟩ := x3 l hl
      obtain ⟨-, -, -, q2, -⟩ := y3 k hk
      rw [p1, p2, q1] at ha
      rw [q2] at hb
      injection ha with ha; injection hb with hb
      subst ha hb
      simp only [Constr.span]
      omega
  · obtain ⟨k, hk, rfl, rfl⟩ := x4 i j hij hj a ha ca
    obtain ⟨l, hl, p1, p2, p3⟩ := close k4 l4 m1 k hk
    obtain ⟨-, -, -, q1, -⟩ := y3 l hl
    obtain ⟨-, -, -, q2, -⟩ := x3 k hk
    rw [p1, p2, q1] at hb
    rw [q2] at ha
    injection ha with ha; injection hb with hb
    subst ha hb
    exact p3

example : Valid exGraph ∧ Sat (fun i => if i = 0 then 0 else if i = 1 then 15 else 20) exGraph ∧
    Within (INF - 1) exGraph ∧ exGraph.displayText = .ok ("[graph with 3 instants]\n   t1 - t0 in [9ns,19ns]\n   " ++
      "t2 - t0 in [14ns,24ns]\n   t2 - t1 in [5ns,6ns]\n[with 3 constraints]\n").toList := by
  refine ⟨by decide, ?_, ?_, ?_⟩
  · intro i j hi hj
    refine ⟨_, timespan_eq exGraph_valid hi hj, ?_⟩
    have key : ∀ a b : Fin 3, InExt ((if (b : Nat) = 0 then 0 else if (b : Nat) = 1 then 15 else 20) -
        (if (a : Nat) = 0 then 0 else if (a : Nat) = 1 then 15 else 20)) ⟨mat exGraph a b, -mat exGraph b a⟩ := by decide
    exact key ⟨i, hi⟩ ⟨j, hj⟩
  · intro i j hi hj s hs
    rw [timespan_eq exGraph_valid hi hj] at hs
    injection hs with hs
    subst hs
    have key : ∀ a b : Fin 3, mat exGraph a b ≤ 15 ∧ -26 ≤ mat exGraph a b := by decide
    have h1 := key ⟨i, hi⟩ ⟨j, hj⟩
    have h2 := key ⟨j, hj⟩ ⟨i, hi⟩
    simp only [] at h1 h2 ⊢
    have : (100 : Int) < INF := by decide
    omega
  · rw [Graph.displayText, exGraph_iter, ok_bind]
    decide +kernel

/-! ## C102 Texts of schedulers -/

theorem schedLine_clean {w : List Iv} (hw : Canon w) (n : Nat) :
    '\n' ∉ "t".toList ++ natStr n ++ " in ".toList ++ debugSet debugTs w := by
  have h1 : '\n' ∉ natStr n := fun h => absurd (natStr_chars h) (by decide)
  have h2 := debugSet_line hw.wf
  simp [h1, h2]

theorem zipIdx_lines {l m : List TSet} (hl : ∀ w ∈ l, Canon w) (hm : ∀ w ∈ m, Canon w) (n : Nat)
    (h : (l.zipIdx n).map (fun p => "t".toList ++ natStr p.2 ++ " in ".toList ++ debugSet debugTs p.1) =
      (m.zipIdx n).map (fun p => "t".toList ++ natStr p.2 ++ " in ".toList ++ debugSet debugTs p.1)) : l = m := by
  induction l generalizing m n with
  | nil => cases m with
    | nil => rfl
    | cons y m => simp at h
  | cons x l ih => cases m with
    | nil => simp at h
    | cons y m =>
      rw [List.zipIdx_cons, List.zipIdx_cons, List.map_cons, List.map_cons] at h
      injection h with h1 h2
      have e := debugSet_inj debugTs_ok (hl x (by simp)).wf (hm y (by simp)).wf (List.append_cancel_left h1)
      rw [e, ih (fun w hw => hl w (by simp [hw])) (fun w hw => hm w (by simp [hw])) _ h2]

/-- C102. `{:?}` of a scheduler has one line per instant, in order: `t<instant> in ` followed by the debug text of its
schedule. -/
theorem C102_debug {s : Sched} (hs : CanonSched s) : ∃ texts : List (List Char), texts.length = s.graph.size ∧
    (∀ i, i < s.graph.size → ∃ w, s.scheduling i = some w ∧ texts[i]? = some (debugSet debugTs w)) ∧
    s.debugText = texts.zipIdx.flatMap fun p =>
      "t".toList ++ Nat.toDigits 10 p.2 ++ " in ".toList ++ p.1 ++ "\n".toList := by
  refine ⟨s.schedule.map (debugSet debugTs), by rw [List.length_map, hs.1], fun i hi => ?_, ?_⟩
  · have hi' : i < s.schedule.length := by rw [hs.1]; exact hi
    refine ⟨s.schedule[i], ?_, ?_⟩
    · show s.schedule[i]? = _
      exact List.getElem?_eq_getElem hi'
    · rw [List.getElem?_map, List.getElem?_eq_getElem hi']
      rfl
  · unfold Sched.debugText
    have key : ∀ (l : List (List Iv)) (n : Nat), ((l.zipIdx n).map fun p =>
        "t".toList ++ natStr p.2 ++ " in ".toList ++ debugSet debugTs p.1 ++ ['\n']).flatten =
        ((l.map (debugSet debugTs)).zipIdx n).flatMap fun p =>
          "t".toList ++ Nat.toDigits 10 p.2 ++ " in ".toList ++ p.1 ++ "\n".toList := by
      intro l
      induction l with
      | nil => intro n; rfl
      | cons x l ih =>
        intro n
        simp only [List.zipIdx_cons, List.map_cons, List.flatten_cons, List.flatMap_cons]
        rw [ih, natStr_eq]
        rfl
    exact key s.schedule 0

/-- C102. Two schedulers with the same `{:?}` have the same schedule. -/
theorem C102_debug_determines {s r : Sched} (hs : CanonSched s) (hr : CanonSched r) (h : s.debugText = r.debugText) :
    s.graph.size = r.graph.size ∧ ∀ i, s.scheduling i = r.scheduling i := by
  have lines : ∀ s : Sched, s.debugText = ((s.schedule.zipIdx.map fun p =>
      "t".toList ++ natStr p.2 ++ " in ".toList ++ debugSet debugTs p.1).flatMap (· ++ ['\n'])) := by
    intro s
    rw [Sched.debugText, ← List.flatMap_def, List.flatMap_map]
  have clean : ∀ s : Sched, CanonSched s → ∀ x ∈ (s.schedule.zipIdx.map fun p =>
      "t".toList ++ natStr p.2 ++ " in ".toList ++ debugSet debugTs p.1), '\n' ∉ x := by
    intro s hs x hx
    obtain ⟨p, hp, rfl⟩ := List.mem_map.1 hx
    exact schedLine_clean (hs.2 _ (List.fst_mem_of_mem_zipIdx hp)) _
  rw [lines, lines] at h
  have e := zipIdx_lines hs.2 hr.2 0 (lines_inj' (clean s hs) (clean r hr) h)
  refine ⟨by rw [← hs.1, ← hr.1, e], fun i => ?_⟩
  unfold Sched.scheduling
  rw [e]

theorem sched_texts {f : TSet → Res (List Char)} : ∀ {l : List TSet} (n : Nat), (∀ w ∈ l, ∃ x, f w = .ok x) →
    ∃ texts, l.mapM f = .ok texts ∧
      ((l.zipIdx n).mapM fun p => do
        return "t".toList ++ natStr p.2 ++ " in ".toList ++ (← f p.1) ++ ['\n'] : Res (List (List Char))) =
      .ok ((texts.zipIdx n).map fun p => "t".toList ++ natStr p.2 ++ " in ".toList ++ p.1 ++ ['\n'])
  | [], _, _ => ⟨[], rfl, rfl⟩
  | w :: l, n, h => by
    obtain ⟨x, hx⟩ := h w (by simp)
    obtain ⟨ts, h1, h2⟩ := sched_texts (l := l) (n + 1) (fun w hw => h w (by simp [hw]))
    refine ⟨x :: ts, ?_, ?_⟩
    · rw [List.mapM_cons, hx, h1]; rfl
    · rw [List.zipIdx_cons, List.mapM_cons]
      simp only []
      rw [hx, ok_bind, h2, List.zipIdx_cons, List.map_cons]
      rfl

theorem mapM_get {f : TSet → Res (List Char)} : ∀ {l : List TSet} {ts : List (List Char)}, l.mapM f = .ok ts →
    ts.length = l.length ∧ ∀ (i : Nat) (w : TSet), l[i]? = some w → ∃ x, f w = .ok x ∧ ts[i]? = some x
  | [], ts, h => by injection h with h; subst h; simp
  | w :: l, ts, h => by
    obtain ⟨y, t', a, b, c⟩ := mapM_cons_ok h
    obtain ⟨h1, h2⟩ := mapM_get b
    subst c
    refine ⟨by simp [h1], fun i v hv => ?_⟩
    cases i with
    | zero => simp at hv; subst hv; exact ⟨y, a, by simp⟩
    | succ i => simpa using h2 i v (by simpa using hv)

theorem displaySet_total {disp : Int → Res (List Char)} (d : ∀ t, Date t → ∃ s, disp t = .ok s) {w : TSet} (hw : Canon w) :
    ∃ x, displaySet disp w = .ok x := by
  by_cases c : w = []
  · subst c; exact ⟨_, rfl⟩
  · obtain ⟨_, _, h⟩ := displaySet_words d c hw.wf
    exact ⟨_, h⟩

theorem formatTimeset_total {fp : Int → Res (List Char)} (d : ∀ t, Date t → ∃ s, fp t = .ok s) {w : TSet} (hw : Canon w) :
    ∃ x, formatTimeset fp w = .ok x := by
  by_cases c : w = []
  · subst c; exact ⟨_, rfl⟩
  · rw [formatTimeset_eq (fun _ _ => rfl) c hw.wf]
    exact displaySet_total d hw

/-- C102. `{}` of a scheduler does not panic and has one line per instant, in order: `t<instant> in ` followed by
the text of its schedule (`dt` is the text chrono gives to a date). -/
theorem C102_display (dt : DateTime → List Char) {s : Sched} (hs : CanonSched s) : ∃ texts : List (List Char),
    texts.length = s.graph.size ∧
    (∀ i, i < s.graph.size → ∃ w x, s.scheduling i = some w ∧ displaySet (displayTs dt) w = .ok x ∧ texts[i]? = some x) ∧
    s.displayText (displayTs dt) = .ok (texts.zipIdx.flatMap fun p =>
      "t".toList ++ Nat.toDigits 10 p.2 ++ " in ".toList ++ p.1 ++ "\n".toList) := by
  obtain ⟨ts, h1, h2⟩ := sched_texts (f := displaySet (displayTs dt)) (l := s.schedule) 0
    (fun w hw => displaySet_total (fun _ => displayTs_date dt) (hs.2 w hw))
  obtain ⟨h3, h4⟩ := mapM_get h1
  refine ⟨ts, by rw [h3, hs.1], fun i hi => ?_, ?_⟩
  · have hi' : i < s.schedule.length := by rw [hs.1]; exact hi
    obtain ⟨x, p, q⟩ := h4 i _ (List.getElem?_eq_getElem hi')
    exact ⟨_, x, by unfold Sched.scheduling; exact List.getElem?_eq_getElem hi', p, q⟩
  · rw [Sched.displayText, h2, ok_bind, ← List.flatMap_def]
    simp [natStr_eq]
    rfl

/-- C102, when there is at least one instant. With a valid format, `format_timeset` of a scheduler does not panic and
has the same lines, with the dates in the format. -/
theorem C102_format_partial (fmt : DateTime → List Char) {s : Sched} (hs : CanonSched s) (h0 : 0 < s.graph.size) :
    ∃ texts : List (List Char), texts.length = s.graph.size ∧
    (∀ i, i < s.graph.size → ∃ w x, s.scheduling i = some w ∧
      formatTimeset (formatTs fun d => .ok (fmt d)) w = .ok x ∧ texts[i]? = some x) ∧
    s.formatText (formatTs fun d => .ok (fmt d)) = .ok (texts.zipIdx.flatMap fun p =>
      "t".toList ++ Nat.toDigits 10 p.2 ++ " in ".toList ++ p.1 ++ "\n".toList) := by
  have d : ∀ t, Date t → ∃ r, formatTs (fun d => .ok (fmt d)) t = .ok r := fun t ht => by
    obtain ⟨d, hd, _⟩ := C94_to_datetime t (by ticks)
    exact ⟨_, by rw [formatTs, hd]; rfl⟩
  obtain ⟨ts, h1, h2⟩ := sched_texts (f := formatTimeset (formatTs fun d => .ok (fmt d))) (l := s.schedule) 0
    (fun w hw => formatTimeset_total d (hs.2 w hw))
  obtain ⟨h3, h4⟩ := mapM_get h1
  refine ⟨ts, by rw [h3, hs.1], fun i hi => ?_, ?_⟩
  · have hi' : i < s.schedule.length := by rw [hs.1]; exact hi
    obtain ⟨x, p, q⟩ := h4 i _ (List.getElem?_eq_getElem hi')
    exact ⟨_, x, by unfold Sched.scheduling; exact List.getElem?_eq_getElem hi', p, q⟩
  · rw [Sched.formatText, h2, ok_bind]
    cases ts with
    | nil => rw [hs.1] at h3; simp at h3; omega
    | cons t ts =>
      have key : ∀ (l : List (List Char)) (a : List Char), l.foldl (fun s1 s2 => s1 ++ s2) a = a ++ l.flatten := by
        intro l
        induction l with
        | nil => simp
        | cons x l ih => intro a; rw [List.foldl_cons, ih]; simp
      rw [List.zipIdx_cons, List.map_cons]
      simp only []
      rw [key, List.flatMap_cons, List.flatMap_def]
      simp [natStr_eq]
      rfl

/-- C102 fails for every scheduler without instants, where `format_timeset` writes a sentence and `{}` writes nothing; and the line
of an instant with no possible date left has two pairs of braces in the former and one in the latter, whatever the format. -/
theorem C102_violated (dt : DateTime → List Char) (fmt : DateTime → List Char) (s : Sched) (hs : CanonSched s) :
    (s.graph.size = 0 →
      s.formatText (formatTs fun d => .ok (fmt d)) = .ok "empty time scheduler (no instant)".toList ∧
      s.displayText (displayTs dt) = .ok []) ∧
    (∀ i, s.scheduling i = some [] → ∃ a a' b b' : List Char,
      s.formatText (formatTs fun d => .ok (fmt d)) = .ok (a ++ "t".toList ++ Nat.toDigits 10 i ++ " in {{}}\n".toList ++ b) ∧
      s.displayText (displayTs dt) = .ok (a' ++ "t".toList ++ Nat.toDigits 10 i ++ " in {}\n".toList ++ b')) := by
  have key : ∀ (ts : List (List Char)) (i k : Nat) (w : List Char), ts[i]? = some w → ∃ a b : List Char,
      ((ts.zipIdx k).flatMap fun p => "t".toList ++ Nat.toDigits 10 p.2 ++ " in ".toList ++ p.1 ++ "\n".toList) =
      a ++ "t".toList ++ Nat.toDigits 10 (k + i) ++ (" in ".toList ++ w ++ "\n".toList) ++ b := by
    intro ts
    induction ts with
    | nil => intro i k w h; simp at h
    | cons t ts ih =>
      intro i k w h
      rw [List.zipIdx_cons, List.flatMap_cons]
      cases i with
      | zero =>
        simp only [List.getElem?_cons_zero, Option.some.injEq] at h
        subst h
        generalize ((ts.zipIdx (k + 1)).flatMap _) = z
        exact ⟨[], z, by simp only [List.append_assoc, List.nil_append, Nat.add_zero]⟩
      | succ i =>
        obtain ⟨a, b, e⟩ := ih i (k + 1) w (by simpa using h)
        rw [e, show k + 1 + i = k + (i + 1) by omega]
        exact ⟨"t".toList ++ Nat.toDigits 10 k ++ " in ".toList ++ t ++ "\n".toList ++ a, b, by simp only [List.append_assoc]⟩
  constructor
  · intro h0
    have e : s.schedule = [] := List.length_eq_zero_iff.1 (by rw [hs.1, h0])
    simp [Sched.formatText, Sched.displayText, e]
    exact ⟨rfl, rfl⟩
  · intro i hi
    have hlt : i < s.graph.size := by
      rw [← hs.1]
      exact (List.getElem?_eq_some_iff.1 hi).1
    obtain ⟨ts, -, h2, h3⟩ := C102_format_partial fmt hs (by omega)
    obtain ⟨w, x, p, q, r⟩ := h2 i hlt
    rw [hi] at p
    injection p with p
    subst p
    injection q with q
    subst q
    obtain ⟨a, b, e⟩ := key ts i 0 _ r
    obtain ⟨ts', -, h2', h3'⟩ := C102_display dt hs
    obtain ⟨w', x', p', q', r'⟩ := h2' i hlt
    rw [hi] at p'
    injection p' with p'
    subst p'
    injection q' with q'
    subst q'
    obtain ⟨a', b', e'⟩ := key ts' i 0 _ r'
    rw [Nat.zero_add] at e e'
    exact ⟨a, a', b, b', by rw [h3, e]; simp, by rw [h3', e']; simp⟩

example : CanonSched ⟨⟨1, [0]⟩, [[]]⟩ ∧
    Sched.formatText (formatTs fun _ => .ok []) ⟨⟨0, []⟩, []⟩ = .ok "empty time scheduler (no instant)".toList ∧
    Sched.displayText (displayTs fun _ => []) ⟨⟨0, []⟩, []⟩ = .ok [] ∧
    Sched.formatText (formatTs fun _ => .ok []) ⟨⟨1, [0]⟩, [[]]⟩ = .ok "t0 in {{}}\n".toList ∧
    Sched.displayText (displayTs fun _ => []) ⟨⟨1, [0]⟩, [[]]⟩ = .ok "t0 in {}\n".toList := by decide +kernel

example : CanonSched ⟨⟨2, [0, -20, 0, 10]⟩, [[⟨0, 5⟩, ⟨8, 8⟩], [⟨100, INF⟩]]⟩ ∧
    Sched.debugText ⟨⟨2, [0, -20, 0, 10]⟩, [[⟨0, 5⟩, ⟨8, 8⟩], [⟨100, INF⟩]]⟩ =
      "t0 in [t=0,t=5]U{t=8}\nt1 in [t=100,+oo[\n".toList := by decide +kernel

end Chrono
