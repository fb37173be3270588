import Verif.Lemmas.LooseFormat
import Verif.Props.GraphFormat
import Verif.Props.SchedHistory

/-!
# C102 after any history of requests

The schedules which a history of requests leaves may contain intervals whose lower bound is one more than their upper bound.
The texts have the same shape.
-/

set_option linter.unusedSimpArgs false

namespace Chrono
open Spec

theorem schedLine_clean_loose {w : List Iv} (hw : Loose w) (n : Nat) :
    '\n' ∉ "t".toList ++ natStr n ++ " in ".toList ++ debugSet debugTs w := by
  have h1 : '\n' ∉ natStr n := fun h => absurd (natStr_chars h) (by decide)
  have h2 := debugSet_line_loose hw.wf
  simp [h1, h2]

theorem zipIdx_lines_loose {l m : List TSet} (hl : ∀ w ∈ l, Loose w) (hm : ∀ w ∈ m, Loose w) (n : Nat)
    (h : (l.zipIdx n).map (fun p => "t".toList ++ natStr p.2 ++ " in ".toList ++ debugSet debugTs p.1) =
      (m.zipIdx n).map (fun p => "t".toList ++ natStr p.2 ++ " in ".toList ++ debugSet debugTs p.1)) : l = m := by
  induction l generalizing m n with
  | nil => cases m with
    | nil => rfl
    | cons y m => simp at h
  | cons x l ih => cases m with
    | nil => simp at h
    | cons y m =>
      rw [List.zipIdx_cons, List.zipIdx_cons, List.map_cons, List.map_cons] at h
      injection h with h1 h2
      have e := debugSet_inj_loose debugTs_ok (hl x (by simp)).wf (hm y (by simp)).wf (List.append_cancel_left h1)
      rw [e, ih (fun w hw => hl w (by simp [hw])) (fun w hw => hm w (by simp [hw])) _ h2]

theorem displaySet_total_loose {disp : Int → Res (List Char)} (d : ∀ t, Date t → ∃ s, disp t = .ok s) {w : TSet} (hw : Loose w) :
    ∃ x, displaySet disp w = .ok x := by
  by_cases c : w = []
  · subst c; exact ⟨_, rfl⟩
  · obtain ⟨_, _, h⟩ := displaySet_words_loose d c hw.wf
    exact ⟨_, h⟩

theorem formatTimeset_total_loose {fp : Int → Res (List Char)} (d : ∀ t, Date t → ∃ s, fp t = .ok s) {w : TSet} (hw : Loose w) :
    ∃ x, formatTimeset fp w = .ok x := by
  by_cases c : w = []
  · subst c; exact ⟨_, rfl⟩
  · rw [formatTimeset_eq_loose (fun _ _ => rfl) c hw.wf]
    exact displaySet_total_loose d hw

/-- C102, whatever the history of requests. `{:?}` of a scheduler which has answered any requests, accepted or refused, has one line per
instant, in order: `t<instant> in ` followed by the debug text of its schedule. -/
theorem C102_reached_debug {dbg : Bool} {g : Graph} (hv : Valid g) (hg : Spanned g) {s : Sched}
    {P : (Nat → Int) → Prop} (hp : Planned dbg g s P) : ∃ texts : List (List Char), texts.length = s.graph.size ∧
    (∀ i, i < s.graph.size → ∃ w, s.scheduling i = some w ∧ texts[i]? = some (debugSet debugTs w)) ∧
    s.debugText = texts.zipIdx.flatMap fun p =>
      "t".toList ++ Nat.toDigits 10 p.2 ++ " in ".toList ++ p.1 ++ "\n".toList := by
  have hs := (planned_inv hv hg hp).2.1
  refine ⟨s.schedule.map (debugSet debugTs), by rw [List.length_map, hs.1], fun i hi => ?_, ?_⟩
  · have hi' : i < s.schedule.length := by rw [hs.1]; exact hi
    refine ⟨s.schedule[i], ?_, ?_⟩
    · show s.schedule[i]? = _
      exact List.getElem?_eq_getElem hi'
    · rw [List.getElem?_map, List.getElem?_eq_getElem hi']
      rfl
  · unfold Sched.debugText
    have key : ∀ (l : List (List Iv)) (n : Nat), ((l.zipIdx n).map fun p =>
        "t".toList ++ natStr p.2 ++ " in ".toList ++ debugSet debugTs p.1 ++ ['\n']).flatten =
        ((l.map (debugSet debugTs)).zipIdx n).flatMap fun p =>
          "t".toList ++ Nat.toDigits 10 p.2 ++ " in ".toList ++ p.1 ++ "\n".toList := by
      intro l
      induction l with
      | nil => intro n; rfl
      | cons x l ih =>
        intro n
        simp only [List.zipIdx_cons, List.map_cons, List.flatten_cons, List.flatMap_cons]
        rw [ih, natStr_eq]
        rfl
    exact key s.schedule 0

/-- C102, whatever the histories of requests. Two schedulers with the same `{:?}` have the same schedule. -/
theorem C102_reached_determines {dbg dbg' : Bool} {g g' : Graph} (hv : Valid g) (hg : Spanned g) (hv' : Valid g') (hg' : Spanned g')
    {s r : Sched} {P Q : (Nat → Int) → Prop} (hp : Planned dbg g s P) (hq : Planned dbg' g' r Q) (h : s.debugText = r.debugText) :
    s.graph.size = r.graph.size ∧ ∀ i, s.scheduling i = r.scheduling i := by
  have hs := (planned_inv hv hg hp).2.1
  have hr := (planned_inv hv' hg' hq).2.1
  have lines : ∀ s : Sched, s.debugText = ((s.schedule.zipIdx.map fun p =>
      "t".toList ++ natStr p.2 ++ " in ".toList ++ debugSet debugTs p.1).flatMap (· ++ ['\n'])) := by
    intro s
    rw [Sched.debugText, ← List.flatMap_def, List.flatMap_map]
  have clean : ∀ s : Sched, LooseSched s → ∀ x ∈ (s.schedule.zipIdx.map fun p =>
      "t".toList ++ natStr p.2 ++ " in ".toList ++ debugSet debugTs p.1), '\n' ∉ x := by
    intro s hs x hx
    obtain ⟨p, hp, rfl⟩ := List.mem_map.1 hx
    exact schedLine_clean_loose (hs.2 _ (List.fst_mem_of_mem_zipIdx hp)) _
  rw [lines, lines] at h
  have e := zipIdx_lines_loose hs.2 hr.2 0 (lines_inj' (clean s hs) (clean r hr) h)
  refine ⟨by rw [← hs.1, ← hr.1, e], fun i => ?_⟩
  unfold Sched.scheduling
  rw [e]

/-- C102, whatever the history of requests. `{}` of a scheduler does not panic and has one line per instant, in order:
`t<instant> in ` followed by the text of its schedule (`dt` is the text chrono gives to a date). -/
theorem C102_reached_display (dt : DateTime → List Char) {dbg : Bool} {g : Graph} (hv : Valid g) (hg : Spanned g) {s : Sched}
    {P : (Nat → Int) → Prop} (hp : Planned dbg g s P) : ∃ texts : List (List Char),
    texts.length = s.graph.size ∧
    (∀ i, i < s.graph.size → ∃ w x, s.scheduling i = some w ∧ displaySet (displayTs dt) w = .ok x ∧ texts[i]? = some x) ∧
    s.displayText (displayTs dt) = .ok (texts.zipIdx.flatMap fun p =>
      "t".toList ++ Nat.toDigits 10 p.2 ++ " in ".toList ++ p.1 ++ "\n".toList) := by
  have hs := (planned_inv hv hg hp).2.1
  obtain ⟨ts, h1, h2⟩ := sched_texts (f := displaySet (displayTs dt)) (l := s.schedule) 0
    (fun w hw => displaySet_total_loose (fun _ => displayTs_date dt) (hs.2 w hw))
  obtain ⟨h3, h4⟩ := mapM_get h1
  refine ⟨ts, by rw [h3, hs.1], fun i hi => ?_, ?_⟩
  · have hi' : i < s.schedule.length := by rw [hs.1]; exact hi
    obtain ⟨x, p, q⟩ := h4 i _ (List.getElem?_eq_getElem hi')
    exact ⟨_, x, by unfold Sched.scheduling; exact List.getElem?_eq_getElem hi', p, q⟩
  · rw [Sched.displayText, h2, ok_bind, ← List.flatMap_def]
    simp [natStr_eq]
    rfl

/-- C102, whatever the history of requests, when there is at least one instant. With a valid format, `format_timeset` of a scheduler
does not panic and has the same lines, with the dates in the format. -/
theorem C102_reached_format_partial (fmt : DateTime → List Char) {dbg : Bool} {g : Graph} (hv : Valid g) (hg : Spanned g) {s : Sched}
    {P : (Nat → Int) → Prop} (hp : Planned dbg g s P) (h0 : 0 < s.graph.size) :
    ∃ texts : List (List Char), texts.length = s.graph.size ∧
    (∀ i, i < s.graph.size → ∃ w x, s.scheduling i = some w ∧
      formatTimeset (formatTs fun d => .ok (fmt d)) w = .ok x ∧ texts[i]? = some x) ∧
    s.formatText (formatTs fun d => .ok (fmt d)) = .ok (texts.zipIdx.flatMap fun p =>
      "t".toList ++ Nat.toDigits 10 p.2 ++ " in ".toList ++ p.1 ++ "\n".toList) := by
  have hs := (planned_inv hv hg hp).2.1
  have d : ∀ t, Date t → ∃ r, formatTs (fun d => .ok (fmt d)) t = .ok r := fun t ht => by
    obtain ⟨d, hd, _⟩ := C94_to_datetime t (by ticks)
    exact ⟨_, by rw [formatTs, hd]; rfl⟩
  obtain ⟨ts, h1, h2⟩ := sched_texts (f := formatTimeset (formatTs fun d => .ok (fmt d))) (l := s.schedule) 0
    (fun w hw => formatTimeset_total_loose d (hs.2 w hw))
  obtain ⟨h3, h4⟩ := mapM_get h1
  refine ⟨ts, by rw [h3, hs.1], fun i hi => ?_, ?_⟩
  · have hi' : i < s.schedule.length := by rw [hs.1]; exact hi
    obtain ⟨x, p, q⟩ := h4 i _ (List.getElem?_eq_getElem hi')
    exact ⟨_, x, by unfold Sched.scheduling; exact List.getElem?_eq_getElem hi', p, q⟩
  · rw [Sched.formatText, h2, ok_bind]
    cases ts with
    | nil => rw [hs.1] at h3; simp at h3; omega
    | cons t ts =>
      have key : ∀ (l : List (List Char)) (a : List Char), l.foldl (fun s1 s2 => s1 ++ s2) a = a ++ l.flatten := by
        intro l
        induction l with
        | nil => simp
        | cons x l ih => intro a; rw [List.foldl_cons, ih]; simp
      rw [List.zipIdx_cons, List.map_cons]
      simp only []
      rw [key, List.flatMap_cons, List.flatMap_def]
      simp [natStr_eq]
      rfl

/-- The hypotheses: two accepted requests leave `[10, 9]` in the slots of an instant, and the text shows it. -/
example : ∃ s P, Planned false exGraph s P ∧ Valid exGraph ∧ Spanned exGraph ∧ ¬ CanonSched s ∧ 0 < s.graph.size ∧
    s.debugText = "t0 in [t=-20,t=-1]\nt1 in [t=0,t=4]U[t=10,t=9]\nt2 in [t=5,t=10]U{t=15}\n".toList := by
  have a0 := Planned.new (dbg := false) (g := exGraph)
  have a1 := a0.accepted (r := .retain 1 (.conv (.iv ⟨0, 9⟩))) (o := .propagated)
    (s' := ⟨exGraph, [[⟨-20, -1⟩], [⟨0, 9⟩], [⟨5, 15⟩]]⟩)
    (by unfold Req.Proper; decide) (by unfold Req.run; decide +kernel) (Or.inr rfl)
  have a2 := a1.accepted (r := .remove 1 (.iv ⟨5, 9⟩)) (o := .propagated)
    (s' := ⟨exGraph, [[⟨-20, -1⟩], [⟨0, 4⟩, ⟨10, 9⟩], [⟨5, 10⟩, ⟨15, 15⟩]]⟩)
    (by unfold Req.Proper; decide) (by unfold Req.run; decide +kernel) (Or.inr rfl)
  refine ⟨_, _, a2, exGraph_valid, exGraph_spanned, ?_, by decide, by decide +kernel⟩
  intro h
  have := ((h.2 [⟨0, 4⟩, ⟨10, 9⟩] (by simp)).wf ⟨10, 9⟩ (by simp)).le
  simp at this

end Chrono
