import Verif.Lemmas.Format

/-!
# Texts of durations, intervals and sets (C81, C82, C91)
-/

namespace Chrono
open Spec

/-! ## C81 displayed durations -/

/-- C81. The text of a positive finite duration is a list of counts with their units, positive, the largest unit first. The
counts add up to the whole seconds of the duration plus its nanoseconds, which is within one nanosecond of the exact value
(`t / 2^30` seconds). -/
theorem C81_words {t : Int} (h0 : 0 < t) (h1 : t < INF) : ∃ parts ns, displayTv t = .ok (partsText parts) ∧
    parts ≠ [] ∧ Ordered parts ∧ subsecNanos t = .ok ns ∧ (partsNanos parts : Int) = asSecs t * 1000000000 + ns ∧
    (partsNanos parts : Int) * TICKS < t * 1000000000 + TICKS ∧ t * 1000000000 - TICKS < (partsNanos parts : Int) * TICKS := by
  obtain ⟨parts, ns, hn, -, hf, hne, ho, hs, -⟩ := format_words h0 h1
  obtain ⟨ns', us, ms, hn', -, -, -, -, -, -, -, -, e1, e2⟩ := C08_decompose t
  rw [hn] at hn'
  injection hn' with hn'
  subst hn'
  refine ⟨parts, ns, ?_, hne, ho, hn, hs, ?_, ?_⟩
  · rw [displayTv_pos h0 h1, hf]
  · rw [hs]; exact e1
  · rw [hs]; exact e2

example : displayTv 5000000000000 = .ok "1h 17min 36s 612ms 873us 77ns".toList := by decide +kernel
example : (0 : Int) < 5000000000000 ∧ (5000000000000 : Int) < INF := by decide

/-- C81. The other durations: zero is `0`, a negative duration is `- ` followed by the text of its opposite, and the
infinities are `+oo` and `-oo`. -/
theorem C81_others : displayTv 0 = .ok "0".toList ∧ displayTv INF = .ok "+oo".toList ∧ displayTv (-INF) = .ok "-oo".toList ∧
    ∀ t, -INF < t → t < 0 → ∃ s, displayTv (-t) = .ok s ∧ displayTv t = .ok ("- ".toList ++ s) := by
  refine ⟨by decide +kernel, by decide +kernel, by decide +kernel, fun t h0 h1 => ?_⟩
  obtain ⟨s, hs⟩ := displayTv_total (-t) ⟨by omega, by omega⟩
  exact ⟨s, hs, by rw [displayTv_neg h0 h1, hs]; rfl⟩

example : displayTv (-1610612736) = .ok "- 1s 500ms".toList := by decide +kernel

/-- C81. The text determines the duration: two durations with the same text are at most one tick (less than a nanosecond)
apart. -/
theorem C81_text_determines {a b : Int} (ha : -INF ≤ a ∧ a ≤ INF) (hb : -INF ≤ b ∧ b ≤ INF) {s : List Char}
    (h1 : displayTv a = .ok s) (h2 : displayTv b = .ok s) : a - b ≤ 1 ∧ b - a ≤ 1 := by
  exact display_close ha hb h1 h2

example : displayTv 21 = .ok "20ns".toList ∧ displayTv 22 = .ok "20ns".toList := by decide +kernel

/-- C81, what is proved of the size of the counts: what is written in units smaller than a given one is less than one of it,
unless the sub-second nanoseconds of the duration are exactly 1 000 000, or end with 001 000. -/
theorem C81_reduced_partial {t : Int} (h0 : 0 < t) (h1 : t < INF) {ns : Int} (hn : subsecNanos t = .ok ns)
    (e1 : ns ≠ 1000000) (e2 : ns % 1000000 ≠ 1000) : ∃ parts, displayTv t = .ok (partsText parts) ∧ Ordered parts ∧ Reduced parts := by
  obtain ⟨parts, k, hk, -, hf, -, ho, -, hr⟩ := format_words h0 h1
  rw [hk] at hn
  injection hn with hn
  subst hn
  exact ⟨parts, by rw [displayTv_pos h0 h1, hf], ho, hr (by omega) (by omega)⟩

example : subsecNanos 5000000000000 = .ok 612873077 := by decide +kernel

/-- C81 is violated by every positive duration whose sub-second nanoseconds are exactly 1 000 000, or end with 001 000: the text ends with
`1000us` instead of `1ms`, or with `1000ns` instead of `1us` (the code compares with `> 1_000_000` and `> 1_000` instead of `>=`). -/
theorem C81_violated {t : Int} (h0 : 0 < t) (h1 : t < INF) {ns : Int} (hn : subsecNanos t = .ok ns) :
    (ns = 1000000 → ∃ before, displayTv t = .ok (before ++ "1000us".toList)) ∧
    (ns % 1000000 = 1000 → ∃ before, displayTv t = .ok (before ++ "1000ns".toList)) := by
  obtain ⟨-, k, hk, hk2, -, -⟩ := format_words h0 h1
  rw [hk] at hn
  injection hn with hn
  subst hn
  have key : ∀ (P : Parts) (n : Nat) (u : TimeUnit), n ≠ 0 → partsOf t k = P ++ mkPart n u →
      displayTv t = .ok (spaced P ++ (Nat.toDigits 10 n ++ u.name.toList)) := by
    intro P n u hn e
    rw [displayTv_pos h0 h1, formatDuration_eq h0 h1 hk hk2, e, spaced_append, spaced_part, if_neg hn]
    rw [if_neg (by simp), ← List.append_assoc, List.dropLast_concat]
  constructor
  · intro e
    have e : k = 1000000 := by omega
    obtain ⟨P, hP⟩ : ∃ P, partsOf t k = P ++ mkPart 1000 ⟨"us", 1000⟩ := by
      unfold partsOf
      rw [e]
      simp only [show afterUs (afterMs 1000000) = 0 from by decide, show subUs (afterMs 1000000) = 1000 from by decide,
        show ∀ u, mkPart 0 u = [] from fun _ => rfl, List.append_nil]
      exact ⟨_, rfl⟩
    exact ⟨_, key P 1000 _ (by decide) hP⟩
  · intro e
    have e : k % 1000000 = 1000 := by omega
    have e2 : afterMs k = 1000 := by unfold afterMs; split <;> omega
    obtain ⟨P, hP⟩ : ∃ P, partsOf t k = P ++ mkPart 1000 ⟨"ns", 1⟩ := by
      unfold partsOf
      simp only [e2, show afterUs 1000 = 1000 from by decide]
      exact ⟨_, rfl⟩
    exact ⟨_, key P 1000 _ (by decide) hP⟩

example : subsecNanos 1073742 = .ok 1000000 ∧ displayTv 1073742 = .ok "1000us".toList ∧ subsecNanos 1073742898 = .ok 1000 ∧
    displayTv 1073742898 = .ok "1s 1000ns".toList := by
  refine ⟨by decide +kernel, by decide +kernel, by decide +kernel, by decide +kernel⟩

/-! ## C82 Debug -/

/-- C82. Distinct sets of durations have distinct `Debug` texts (the empty set included). -/
theorem C82_sets {s r : List Iv} (hs : Canon s) (hr : Canon r) (h : debugSet debugTv s = debugSet debugTv r) : s = r :=
  debugSet_inj debugTv_ok hs.wf hr.wf h

/-- C82. Distinct sets of timestamps have distinct `Debug` texts. -/
theorem C82_timestamp_sets {s r : List Iv} (hs : Canon s) (hr : Canon r) (h : debugSet debugTs s = debugSet debugTs r) : s = r :=
  debugSet_inj debugTs_ok hs.wf hr.wf h

/-- C82. Distinct durations have distinct `Debug` texts, and so do distinct timestamps. -/
theorem C82_values {a b : Int} (ha : -INF ≤ a ∧ a ≤ INF) (hb : -INF ≤ b ∧ b ≤ INF) :
    (debugTv a = debugTv b → a = b) ∧ (debugTs a = debugTs b → a = b) := by
  exact debug_values ha hb

/-- C82. The `Debug` text of a set shows the bounds: the intervals are separated by `U`, a finite bound is in decimal inside
a closed bracket, an infinite one is `]-oo` or `+oo[`, and a single date is between braces. -/
theorem C82_shape {s : List Iv} (hne : s ≠ []) (hs : Canon s) :
    debugSet debugTv s = ['U'].intercalate (s.map (debugIv debugTv)) ∧
    (∀ a, ⟨a, a⟩ ∈ s → debugIv debugTv ⟨a, a⟩ = ['{'] ++ intText a ++ ['}']) ∧
    (∀ a b, -INF < a → a < b → b < INF → ⟨a, b⟩ ∈ s → debugIv debugTv ⟨a, b⟩ = ['['] ++ intText a ++ [','] ++ intText b ++ [']']) ∧
    (∀ a, -INF < a → ⟨a, INF⟩ ∈ s → debugIv debugTv ⟨a, INF⟩ = ['['] ++ intText a ++ ",+oo[".toList) ∧
    (∀ b, b < INF → ⟨-INF, b⟩ ∈ s → debugIv debugTv ⟨-INF, b⟩ = "]-oo,".toList ++ intText b ++ [']']) ∧
    debugIv debugTv ⟨-INF, INF⟩ = "]-oo,+oo[".toList := by
  exact debug_shape hne hs.wf

/-- a set to print -/
def exText : List Iv := [⟨-INF, -7⟩, ⟨3, 3⟩, ⟨10, 20⟩, ⟨100, INF⟩]

example : Canon exText := ⟨by decide, by decide⟩
example : debugSet debugTv exText = "]-oo,-7]U{3}U[10,20]U[100,+oo[".toList := by decide +kernel
example : debugSet debugTs exText = "]-oo,t=-7]U{t=3}U[t=10,t=20]U[t=100,+oo[".toList := by decide +kernel
example : debugSet debugTv [] = "{}".toList := rfl

/-! ## C91 Display of windows -/

/-- C91. `Display` of a non-empty set of durations never panics: it is the texts of its intervals separated by `U`, and
`format_timeset` gives the same text. -/
theorem C91_sets_partial {s : List Iv} (hne : s ≠ []) (hs : Canon s) : ∃ texts, s.mapM (displayIv displayTv) = .ok texts ∧
    displaySet displayTv s = .ok (['U'].intercalate texts) ∧ formatTimeset formatTimepoint s = .ok (['U'].intercalate texts) := by
  obtain ⟨ts, h1, h2⟩ := displaySet_words (fun _ => displayTv_date) hne hs.wf
  exact ⟨ts, h1, h2, by rw [formatTimeset_eq (fun _ => formatTimepoint_eq) hne hs.wf, h2]⟩

/-- C91. The text of a non-empty interval of durations is made of the texts of its finite bounds: inside a closed bracket, or
between braces for a single date; an infinite bound is `]-oo` or `+oo[`. -/
theorem C91_interval {i : Iv} (h : WF i) :
    (∃ a s, i = ⟨a, a⟩ ∧ displayTv a = .ok s ∧ displayIv displayTv i = .ok ("{".toList ++ s ++ "}".toList)) ∨
    (∃ a b s r, i = ⟨a, b⟩ ∧ -INF < a ∧ a < b ∧ b < INF ∧ displayTv a = .ok s ∧ displayTv b = .ok r ∧
      displayIv displayTv i = .ok ("[".toList ++ s ++ ",".toList ++ r ++ "]".toList)) ∨
    (∃ a s, i = ⟨a, INF⟩ ∧ -INF < a ∧ displayTv a = .ok s ∧ displayIv displayTv i = .ok ("[".toList ++ s ++ ",+oo[".toList)) ∨
    (∃ b s, i = ⟨-INF, b⟩ ∧ b < INF ∧ displayTv b = .ok s ∧ displayIv displayTv i = .ok ("]-oo,".toList ++ s ++ "]".toList)) ∨
    (i = ⟨-INF, INF⟩ ∧ displayIv displayTv i = .ok "]-oo,+oo[".toList) := by
  exact displayIv_texts (fun _ => displayTv_date) h

/-- C91. On finite durations `format_timepoint` is `Display`. -/
theorem C91_timepoint_partial {t : Int} (h0 : -INF < t) (h1 : t < INF) : formatTimepoint t = displayTv t :=
  formatTimepoint_eq ⟨h0, h1⟩

example : displaySet displayTv [⟨-INF, -7⟩, ⟨1073741824, 2147483648⟩] = .ok "]-oo,- 6ns]U[1s,2s]".toList := by decide +kernel
example : formatTimeset formatTimepoint [⟨-INF, -7⟩, ⟨1073741824, 2147483648⟩] = .ok "]-oo,- 6ns]U[1s,2s]".toList := by decide +kernel

/-- C91 is violated: `format_timeset` of the empty set is `{{}}` (a plain string where the braces are doubled) while
`Display` gives `{}`, and `format_timepoint` prints an infinite duration as a number of years. -/
theorem C91_violated : formatTimeset formatTimepoint [] = .ok "{{}}".toList ∧ displaySet displayTv [] = .ok "{}".toList ∧
    displayTv INF = .ok "+oo".toList ∧ formatTimepoint INF = .ok "272y 2mo 13d 16h 55min 55s 999ms 999us 999ns".toList := by
  decide +kernel

end Chrono
