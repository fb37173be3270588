import Verif.Model.GraphFormat
import Verif.Lemmas.Format
import Verif.Lemmas.GraphStore

/-!
# Texts of constraints, graphs and schedulers
-/

set_option linter.unusedSimpArgs false

namespace Chrono
open Spec

theorem natStr_chars {c : Char} {n : Nat} (h : c ∈ natStr n) : c.isDigit := by
  rw [natStr_eq] at h; exact digit_char h

theorem natStr_inj {m n : Nat} (h : natStr m = natStr n) : m = n := by
  rw [natStr_eq, natStr_eq] at h; exact toDigits_inj h

/-- the text of a bound: letters and injectivity -/
theorem debugTv_cases (t : Int) :
    (t = INF ∧ debugTv t = "+oo".toList) ∨ (t = -INF ∧ debugTv t = "-oo".toList) ∨
    (t ≠ INF ∧ t ≠ -INF ∧ debugTv t = intText t) := by
  by_cases c1 : t = INF
  · exact Or.inl ⟨c1, by rw [c1]; rfl⟩
  by_cases c2 : t = -INF
  · exact Or.inr (Or.inl ⟨c2, by rw [c2]; rfl⟩)
  refine Or.inr (Or.inr ⟨c1, c2, ?_⟩)
  have e1 : (t == INF) = false := by simp; omega
  have e2 : (t == -INF) = false := by simp; omega
  unfold debugTv isFutureInfinite isPastInfinite
  rw [e1, e2, ← intStr_eq]
  split <;> rfl

theorem debugTv_chars {c : Char} {t : Int} (h : c ∈ debugTv t) : c = '+' ∨ c = '-' ∨ c = 'o' ∨ c.isDigit := by
  rcases debugTv_cases t with ⟨-, e⟩ | ⟨-, e⟩ | ⟨-, -, e⟩ <;> rw [e] at h
  · simp at h; rcases h with h | h <;> simp [h]
  · simp at h; rcases h with h | h <;> simp [h]
  · rcases intText_chars h with h | h <;> simp [h]

theorem debugTv_ne (t : Int) : debugTv t ≠ [] := by
  rcases debugTv_cases t with ⟨-, e⟩ | ⟨-, e⟩ | ⟨-, -, e⟩ <;> rw [e]
  · decide
  · decide
  · exact intText_ne t

theorem debugTv_inj {a b : Int} (h : debugTv a = debugTv b) : a = b := by
  have o : ∀ x : Int, 'o' ∉ intText x := fun x hx => absurd (intText_chars hx) (by decide)
  rcases debugTv_cases a with ⟨a1, e⟩ | ⟨a1, e⟩ | ⟨a1, a2, e⟩ <;>
    rcases debugTv_cases b with ⟨b1, e'⟩ | ⟨b1, e'⟩ | ⟨b1, b2, e'⟩ <;> rw [e, e'] at h
  · rw [a1, b1]
  · exact absurd h (by decide)
  · exact absurd (show 'o' ∈ intText b by rw [← h]; decide) (o b)
  · exact absurd h (by decide)
  · rw [a1, b1]
  · exact absurd (show 'o' ∈ intText b by rw [← h]; decide) (o b)
  · exact absurd (show 'o' ∈ intText a by rw [h]; decide) (o a)
  · exact absurd (show 'o' ∈ intText a by rw [h]; decide) (o a)
  · exact intText_inj h

/-! ## Rows -/

/-- the text of the cells of a row -/
def cellsText (l : List Int) : List Char := l.flatMap fun x => [' '] ++ padLeft 7 (debugTv x)

theorem spaces_cancel : ∀ {m n : Nat} {x y : List Char}, (∀ c ∈ x.head?, c ≠ ' ') → (∀ c ∈ y.head?, c ≠ ' ') →
    List.replicate m ' ' ++ x = List.replicate n ' ' ++ y → x = y
  | 0, 0, x, y, _, _, h => by simpa using h
  | 0, n + 1, x, y, hx, _, h => by
    simp only [List.replicate_zero, List.nil_append, List.replicate_succ, List.cons_append] at h
    rw [h] at hx
    exact absurd rfl (hx ' ' (by simp))
  | m + 1, 0, x, y, _, hy, h => by
    simp only [List.replicate_zero, List.nil_append, List.replicate_succ, List.cons_append] at h
    rw [← h] at hy
    exact absurd rfl (hy ' ' (by simp))
  | m + 1, n + 1, x, y, hx, hy, h => by
    simp only [List.replicate_succ, List.cons_append, List.cons.injEq, true_and] at h
    exact spaces_cancel hx hy h

theorem debugTv_space (t : Int) : ' ' ∉ debugTv t := fun h => absurd (debugTv_chars h) (by decide)
theorem debugTv_bracket (t : Int) : ']' ∉ debugTv t := fun h => absurd (debugTv_chars h) (by decide)

theorem head_app {t : Int} {r : List Char} {P : Char → Prop} (h : ∀ c ∈ debugTv t, P c) :
    ∀ c ∈ (debugTv t ++ r).head?, P c := by
  intro c hc
  obtain ⟨d, l, e⟩ := List.exists_cons_of_ne_nil (debugTv_ne t)
  rw [e] at hc h
  simp at hc
  exact h c (by simp [hc])

theorem cells_inj : ∀ {l m : List Int} {r s : List Char},
    cellsText l ++ (" ]".toList ++ r) = cellsText m ++ (" ]".toList ++ s) → l = m ∧ r = s
  | [], [], r, s, h => by simpa [cellsText] using h
  | [], y :: m, r, s, h => by
    exfalso
    simp only [cellsText, List.flatMap_nil, List.nil_append, List.flatMap_cons, List.append_assoc, padLeft] at h
    have h := List.append_cancel_left (as := [' ']) h
    have := spaces_cancel (m := 0) (x := ']' :: r) (by simp) (head_app fun c hc e => debugTv_space y (e ▸ hc)) h
    obtain ⟨d, l, e⟩ := List.exists_cons_of_ne_nil (debugTv_ne y)
    rw [e] at this
    injection this with h1 _
    exact debugTv_bracket y (by rw [e, h1]; simp)
  | x :: l, [], r, s, h => by
    exfalso
    simp only [cellsText, List.flatMap_nil, List.nil_append, List.flatMap_cons, List.append_assoc, padLeft] at h
    have h := List.append_cancel_left (as := [' ']) h.symm
    have := spaces_cancel (m := 0) (x := ']' :: s) (by simp) (head_app fun c hc e => debugTv_space x (e ▸ hc)) h
    obtain ⟨d, l, e⟩ := List.exists_cons_of_ne_nil (debugTv_ne x)
    rw [e] at this
    injection this with h1 _
    exact debugTv_bracket x (by rw [e, h1]; simp)
  | x :: l, y :: m, r, s, h => by
    have e : ∀ (x : Int) (l : List Int) (r : List Char), cellsText (x :: l) ++ (" ]".toList ++ r) =
        [' '] ++ (List.replicate (7 - (debugTv x).length) ' ' ++ (debugTv x ++ (cellsText l ++ (" ]".toList ++ r)))) := by
      intro x l r; simp [cellsText, padLeft]
    rw [e, e] at h
    have h := List.append_cancel_left h
    have h := spaces_cancel (head_app fun c hc e => debugTv_space x (e ▸ hc))
      (head_app fun c hc e => debugTv_space y (e ▸ hc)) h
    have sp : ∀ (l : List Int) (r : List Char), ∃ q, cellsText l ++ (" ]".toList ++ r) = ' ' :: q := by
      intro l r
      cases l with
      | nil => exact ⟨_, rfl⟩
      | cons x l => exact ⟨_, e x l r⟩
    obtain ⟨q, hq⟩ := sp l r
    obtain ⟨q', hq'⟩ := sp m s
    rw [hq, hq'] at h
    obtain ⟨h1, h2⟩ := split_at (debugTv_space x) (debugTv_space y) h
    rw [← h2, ← hq] at hq'
    obtain ⟨h3, h4⟩ := cells_inj hq'.symm
    exact ⟨by rw [debugTv_inj h1, h3], h4⟩

/-- the text of the rows of a matrix -/
def rowsText (l : List (List Int)) : List Char := l.flatMap fun r => ['['] ++ cellsText r ++ " ]\n".toList

theorem rows_inj : ∀ {l m : List (List Int)}, rowsText l = rowsText m → l = m
  | [], [], _ => rfl
  | [], y :: m, h => by simp [rowsText] at h
  | x :: l, [], h => by simp [rowsText] at h
  | x :: l, y :: m, h => by
    have e : ∀ (x : List Int) (l : List (List Int)), rowsText (x :: l) =
        ['['] ++ (cellsText x ++ (" ]".toList ++ (['\n'] ++ rowsText l))) := by
      intro x l; simp [rowsText]
    rw [e, e] at h
    obtain ⟨h1, h2⟩ := cells_inj (List.append_cancel_left h)
    rw [h1, rows_inj (List.append_cancel_left h2)]

theorem mapM_eq {α β : Type} {f : α → Res β} {g : α → β} : ∀ {l : List α}, (∀ x ∈ l, f x = .ok (g x)) →
    l.mapM f = .ok (l.map g)
  | [], _ => rfl
  | x :: l, h => by
    rw [List.mapM_cons, h x (by simp), ok_bind, mapM_eq (fun y hy => h y (by simp [hy]))]
    rfl

/-- the lower bounds as a matrix -/
def rows (g : Graph) : List (List Int) := (List.range g.size).map fun i => (List.range g.size).map fun j => mat g i j

theorem graphDebug_eq {g : Graph} (hv : Valid g) : g.debugText = .ok (['\n'] ++ rowsText (rows g)) := by
  unfold Graph.debugText
  have h : ∀ i ∈ List.range g.size, (do
      let cells ← (List.range g.size).mapM fun j => do
        return [' '] ++ padLeft 7 (debugTv (← g.lower i j))
      return ['['] ++ cells.flatten ++ " ]\n".toList : Res (List Char)) =
      .ok (['['] ++ cellsText ((List.range g.size).map fun j => mat g i j) ++ " ]\n".toList) := by
    intro i hi
    rw [mapM_eq (g := fun j => [' '] ++ padLeft 7 (debugTv (mat g i j))) (fun j hj => by
      rw [lower_eq hv (List.mem_range.1 hi) (List.mem_range.1 hj)]; rfl), ok_bind]
    show Except.ok _ = _
    congr 3
    rw [cellsText, List.flatMap_map, List.flatMap_def]
  rw [mapM_eq h, ok_bind]
  show Except.ok _ = _
  rw [rowsText, rows, List.flatMap_map, List.flatMap_def]

theorem graphDebug_inj {g h : Graph} (hg : Valid g) (hh : Valid h) (e : g.debugText = h.debugText) :
    g.size = h.size ∧ ∀ i j, i < g.size → j < g.size → mat g i j = mat h i j := by
  rw [graphDebug_eq hg, graphDebug_eq hh] at e
  injection e with e
  have e := rows_inj (List.append_cancel_left e)
  have hs : g.size = h.size := by simpa [rows] using congrArg List.length e
  refine ⟨hs, fun i j hi hj => ?_⟩
  have h1 := congrArg (fun l => (l[i]?.bind fun r => r[j]?)) e
  simp only [rows, List.getElem?_map, List.getElem?_range hi, List.getElem?_range (hs ▸ hi), Option.map_some,
    Option.bind_some, List.getElem?_range hj, List.getElem?_range (hs ▸ hj)] at h1
  injection h1

/-! ## Lines -/

theorem lines_inj {α : Type} {f : α → List Char} (hn : ∀ a, '\n' ∉ f a) : ∀ {l m : List α} {r s : List Char},
    '\n' ∉ r → '\n' ∉ s →
    (l.flatMap fun a => f a ++ ['\n']) ++ r = (m.flatMap fun a => f a ++ ['\n']) ++ s → l.map f = m.map f ∧ r = s
  | [], [], r, s, _, _, h => by simpa using h
  | [], y :: m, r, s, hr, _, h => by
    exfalso
    simp only [List.flatMap_nil, List.nil_append] at h
    exact hr (by rw [h]; simp)
  | x :: l, [], r, s, _, hs, h => by
    exfalso
    simp only [List.flatMap_nil, List.nil_append] at h
    exact hs (by rw [← h]; simp)
  | x :: l, y :: m, r, s, hr, hs, h => by
    simp only [List.flatMap_cons, List.append_assoc, List.singleton_append] at h
    obtain ⟨h1, h2⟩ := split_at (hn x) (hn y) h
    obtain ⟨h3, h4⟩ := lines_inj hn hr hs h2
    exact ⟨by simp [h1, h3], h4⟩

/-! ## Characters of texts -/

/-- the characters of a displayed duration -/
def TvChar (c : Char) : Prop := c.isDigit = true ∨ c ∈ "+- ymodhinsu".toList

theorem partsText_chars : ∀ {l : Parts}, (∀ p ∈ l, p.2 ∈ timeUnits) → ∀ c ∈ partsText l, TvChar c := by
  intro l hl c hc
  by_cases h0 : l = []
  · subst h0; exact absurd hc (by simp [partsText])
  have hc : c ∈ spaced l := by rw [spaced_text l h0]; simp [hc]
  unfold spaced at hc
  simp only [List.mem_flatMap, List.mem_append] at hc
  obtain ⟨p, hp, (h | h) | h⟩ := hc
  · exact Or.inl (digit_char h)
  · have : ∀ u ∈ timeUnits, ∀ c ∈ u.name.toList, c ∈ "+- ymodhinsu".toList := by decide
    exact Or.inr (this _ (hl p hp) c h)
  · simp at h; subst h; exact Or.inr (by decide)

theorem displayTv_chars {t : Int} (h : -INF ≤ t ∧ t ≤ INF) {s : List Char} (hs : displayTv t = .ok s) :
    (∀ c ∈ s, TvChar c) ∧ s ≠ [] := by
  have pos : ∀ {t : Int} {s : List Char}, 0 < t → t < INF → displayTv t = .ok s → ∀ c ∈ s, TvChar c := by
    intro t s h0 h1 hs
    obtain ⟨p, ns, -, -, e, hne, ho, -⟩ := display_pos h0 h1
    rw [e] at hs
    injection hs with hs
    subst hs
    exact partsText_chars fun q hq => ho.2.subset (List.mem_map.2 ⟨q, hq, rfl⟩)
  cases shown h hs with
  | zero => exact ⟨fun c hc => Or.inl (by simp at hc; rw [hc]; decide), by simp⟩
  | top => exact ⟨fun c hc => Or.inr (by revert c; decide), by simp⟩
  | bot => exact ⟨fun c hc => Or.inr (by revert c; decide), by simp⟩
  | pos h0 h1 h2 h3 h4 =>
    obtain ⟨c, r, e, -⟩ := h3
    exact ⟨pos h0 h1 h2, by rw [e]; simp⟩
  | neg h0 h1 h2 =>
    refine ⟨fun c hc => ?_, by simp⟩
    simp only [List.mem_cons] at hc
    rcases hc with h | h | h
    · subst h; exact Or.inr (by decide)
    · subst h; exact Or.inr (by decide)
    · exact pos h0 h1 h2 c h

theorem legal_date {t : Int} (h : Date t) : -INF ≤ t ∧ t ≤ INF := ⟨by have := h.1; omega, by have := h.2; omega⟩

instance (c : Char) : Decidable (TvChar c) := inferInstanceAs (Decidable (_ ∨ _))

theorem displayIv_chars {i : Iv} (h : WF i) {s : List Char} (hs : displayIv displayTv i = .ok s) :
    ∀ c ∈ s, TvChar c ∨ c ∈ "{}[],".toList := by
  rcases displayIv_cases h with ⟨a, -, ha, e⟩ | ⟨a, b, -, ha, hb, -, e⟩ | ⟨a, -, ha, e⟩ | ⟨b, -, hb, e⟩ | ⟨-, e⟩ <;>
    rw [e] at hs
  · obtain ⟨x, hx⟩ := displayTv_date ha
    have hc := (displayTv_chars (legal_date ha) hx).1
    rw [hx] at hs
    have hs := (Except.ok.inj hs).symm
    subst hs
    intro c h
    simp only [List.mem_append, List.mem_singleton] at h
    rcases h with (h | h) | h
    · subst h; exact Or.inr (by decide)
    · exact Or.inl (hc c h)
    · subst h; exact Or.inr (by decide)
  · obtain ⟨x, hx⟩ := displayTv_date ha
    obtain ⟨y, hy⟩ := displayTv_date hb
    have hc := (displayTv_chars (legal_date ha) hx).1
    have hd := (displayTv_chars (legal_date hb) hy).1
    rw [hx, hy] at hs
    have hs := (Except.ok.inj hs).symm
    subst hs
    intro c h
    simp only [List.mem_append, List.mem_singleton] at h
    rcases h with (((h | h) | h) | h) | h
    · subst h; exact Or.inr (by decide)
    · exact Or.inl (hc c h)
    · subst h; exact Or.inr (by decide)
    · exact Or.inl (hd c h)
    · subst h; exact Or.inr (by decide)
  · obtain ⟨x, hx⟩ := displayTv_date ha
    have hc := (displayTv_chars (legal_date ha) hx).1
    rw [hx] at hs
    have hs := (Except.ok.inj hs).symm
    subst hs
    intro c h
    simp only [List.mem_append, List.mem_singleton] at h
    rcases h with (h | h) | h
    · subst h; exact Or.inr (by decide)
    · exact Or.inl (hc c h)
    · revert c; decide
  · obtain ⟨x, hx⟩ := displayTv_date hb
    have hc := (displayTv_chars (legal_date hb) hx).1
    rw [hx] at hs
    have hs := (Except.ok.inj hs).symm
    subst hs
    intro c h
    simp only [List.mem_append, List.mem_singleton] at h
    rcases h with (h | h) | h
    · revert c; decide
    · exact Or.inl (hc c h)
    · subst h; exact Or.inr (by decide)
  · injection hs with hs
    subst hs
    decide

/-- two intervals with the same text have the same bounds to a tick -/
theorem displayIv_close {i j : Iv} (hi : WF i) (hj : WF j) {s : List Char} (h1 : displayIv displayTv i = .ok s)
    (h2 : displayIv displayTv j = .ok s) :
    (i.lower - j.lower ≤ 1 ∧ j.lower - i.lower ≤ 1) ∧ (i.upper - j.upper ≤ 1 ∧ j.upper - i.upper ≤ 1) ∧
    (i.lower = -INF ↔ j.lower = -INF) ∧ (i.upper = INF ↔ j.upper = INF) := by
  have nb : ∀ {t : Int} {s : List Char} {c : Char}, Date t → displayTv t = .ok s → ¬ TvChar c → c ∉ s :=
    fun ht hs hc h => hc ((displayTv_chars (legal_date ht) hs).1 _ h)
  have close : ∀ {a b : Int} {s : List Char}, Date a → Date b → displayTv a = .ok s → displayTv b = .ok s →
      a - b ≤ 1 ∧ b - a ≤ 1 := fun ha hb => display_close (legal_date ha) (legal_date hb)
  rcases displayIv_texts (fun _ => displayTv_date) hi with ⟨a, x, ei, hx, e⟩ | ⟨a, b, x, y, ei, ha, hab, hb, hx, hy, e⟩ |
    ⟨a, x, ei, ha, hx, e⟩ | ⟨b, y, ei, hb, hy, e⟩ | ⟨ei, e⟩ <;>
  rcases displayIv_texts (fun _ => displayTv_date) hj with ⟨a', x', ej, hx', e'⟩ |
    ⟨a', b', x', y', ej, ha', hab', hb', hx', hy', e'⟩ | ⟨a', x', ej, ha', hx', e'⟩ | ⟨b', y', ej, hb', hy', e'⟩ |
    ⟨ej, e'⟩ <;>
  rw [e] at h1 <;> rw [e'] at h2 <;> have h1 := Except.ok.inj h1 <;> have h2 := Except.ok.inj h2 <;>
  rw [← h2] at h1 <;> subst ei ej <;> obtain ⟨i1, i2, i3, i4, i5⟩ := hi <;> obtain ⟨j1, j2, j3, j4, j5⟩ := hj <;>
  simp only at i1 i2 i3 i4 i5 j1 j2 j3 j4 j5
  -- {a}
  · have := List.append_cancel_left (List.append_cancel_right h1)
    subst this
    exact ⟨close ⟨by omega, by omega⟩ ⟨by omega, by omega⟩ hx hx', close ⟨by omega, by omega⟩ ⟨by omega, by omega⟩ hx hx', by simp only; omega, by simp only; omega⟩
  · exact absurd (List.cons.inj h1).1 (by decide)
  · exact absurd (List.cons.inj h1).1 (by decide)
  · exact absurd (List.cons.inj h1).1 (by decide)
  · exact absurd (List.cons.inj h1).1 (by decide)
  -- [a,b]
  · exact absurd (List.cons.inj h1).1 (by decide)
  · have h1 : ['['] ++ (x ++ ',' :: (y ++ [']'])) = ['['] ++ (x' ++ ',' :: (y' ++ [']'])) := by simpa using h1
    obtain ⟨p, q⟩ := split_at (nb ⟨by omega, by omega⟩ hx (by decide)) (nb ⟨by omega, by omega⟩ hx' (by decide)) (List.append_cancel_left h1)
    have q := List.append_cancel_right q
    subst p q
    exact ⟨close ⟨by omega, by omega⟩ ⟨by omega, by omega⟩ hx hx', close ⟨by omega, by omega⟩ ⟨by omega, by omega⟩ hy hy', by simp only; omega, by simp only; omega⟩
  · have h1 : ['['] ++ (x ++ ',' :: (y ++ [']'])) = ['['] ++ (x' ++ ',' :: "+oo[".toList) := by simpa using h1
    obtain ⟨p, q⟩ := split_at (nb ⟨by omega, by omega⟩ hx (by decide)) (nb ⟨by omega, by omega⟩ hx' (by decide)) (List.append_cancel_left h1)
    have q : y ++ [']'] = "+oo".toList ++ ['['] := q
    exact absurd (List.append_inj' q rfl).2 (by decide)
  · exact absurd (List.cons.inj h1).1 (by decide)
  · exact absurd (List.cons.inj h1).1 (by decide)
  -- [a,+oo[
  · exact absurd (List.cons.inj h1).1 (by decide)
  · have h1 : ['['] ++ (x ++ ',' :: "+oo[".toList) = ['['] ++ (x' ++ ',' :: (y' ++ [']'])) := by simpa using h1
    obtain ⟨p, q⟩ := split_at (nb ⟨by omega, by omega⟩ hx (by decide)) (nb ⟨by omega, by omega⟩ hx' (by decide)) (List.append_cancel_left h1)
    have q : "+oo".toList ++ ['['] = y' ++ [']'] := q
    exact absurd (List.append_inj' q rfl).2 (by decide)
  · have := List.append_cancel_left (List.append_cancel_right h1)
    subst this
    exact ⟨close ⟨by omega, by omega⟩ ⟨by omega, by omega⟩ hx hx', by simp, by simp only; omega, by simp⟩
  · exact absurd (List.cons.inj h1).1 (by decide)
  · exact absurd (List.cons.inj h1).1 (by decide)
  -- ]-oo,b]
  · exact absurd (List.cons.inj h1).1 (by decide)
  · exact absurd (List.cons.inj h1).1 (by decide)
  · exact absurd (List.cons.inj h1).1 (by decide)
  · have := List.append_cancel_left (List.append_cancel_right h1)
    subst this
    exact ⟨by simp, close ⟨by omega, by omega⟩ ⟨by omega, by omega⟩ hy hy', by simp, by simp only; omega⟩
  · have h1 : "]-oo,".toList ++ (y ++ [']']) = "]-oo,".toList ++ ("+oo".toList ++ ['[']) := by simpa using h1
    exact absurd (List.append_inj' (List.append_cancel_left h1) rfl).2 (by decide)
  -- ]-oo,+oo[
  · exact absurd (List.cons.inj h1).1 (by decide)
  · exact absurd (List.cons.inj h1).1 (by decide)
  · exact absurd (List.cons.inj h1).1 (by decide)
  · have h1 : "]-oo,".toList ++ ("+oo".toList ++ ['[']) = "]-oo,".toList ++ (y' ++ [']']) := by simpa using h1
    exact absurd (List.append_inj' (List.append_cancel_left h1) rfl).2 (by decide)
  · exact ⟨by simp, by simp, by simp, by simp⟩

theorem lines_inj' : ∀ {l m : List (List Char)}, (∀ x ∈ l, '\n' ∉ x) → (∀ x ∈ m, '\n' ∉ x) →
    l.flatMap (· ++ ['\n']) = m.flatMap (· ++ ['\n']) → l = m
  | [], [], _, _, _ => rfl
  | [], y :: m, _, _, h => by simp at h
  | x :: l, [], _, _, h => by simp at h
  | x :: l, y :: m, hl, hm, h => by
    simp only [List.flatMap_cons, List.append_assoc, List.singleton_append] at h
    obtain ⟨h1, h2⟩ := split_at (hl x (by simp)) (hm y (by simp)) h
    rw [h1, lines_inj' (fun z hz => hl z (by simp [hz])) (fun z hz => hm z (by simp [hz])) h2]

theorem mapM_cons_ok {α β : Type} {f : α → Res β} {x : α} {l : List α} {t : List β} (h : (x :: l).mapM f = .ok t) :
    ∃ y t', f x = .ok y ∧ l.mapM f = .ok t' ∧ t = y :: t' := by
  rw [List.mapM_cons] at h
  cases hx : f x with
  | error e => rw [hx] at h; cases h
  | ok y =>
    rw [hx, ok_bind] at h
    cases hl : l.mapM f with
    | error e => rw [hl] at h; cases h
    | ok t' =>
      rw [hl, ok_bind] at h
      exact ⟨y, t', rfl, rfl, (Except.ok.inj h).symm⟩

theorem mapM_same {α β : Type} {f : α → Res β} : ∀ {l m : List α} {t : List β}, l.mapM f = .ok t → m.mapM f = .ok t →
    l.length = m.length ∧ ∀ (n : Nat) (x : α), l[n]? = some x → ∃ y s, m[n]? = some y ∧ f x = .ok s ∧ f y = .ok s
  | [], [], _, _, _ => ⟨rfl, fun n x h => by simp at h⟩
  | [], y :: m, t, h1, h2 => by
    obtain ⟨_, _, _, _, e⟩ := mapM_cons_ok h2
    injection h1 with h1
    rw [e] at h1; cases h1
  | x :: l, [], t, h1, h2 => by
    obtain ⟨_, _, _, _, e⟩ := mapM_cons_ok h1
    injection h2 with h2
    rw [e] at h2; cases h2
  | x :: l, y :: m, t, h1, h2 => by
    obtain ⟨a, t1, a1, a2, a3⟩ := mapM_cons_ok h1
    obtain ⟨b, t2, b1, b2, b3⟩ := mapM_cons_ok h2
    rw [a3] at b3
    injection b3 with e1 e2
    subst e1 e2
    obtain ⟨c, d⟩ := mapM_same a2 b2
    refine ⟨by simp [c], fun n z hz => ?_⟩
    cases n with
    | zero =>
      simp at hz
      subst hz
      exact ⟨y, a, by simp, a1, b1⟩
    | succ n =>
      simp at hz
      obtain ⟨w, s, p, q, r⟩ := d n z hz
      exact ⟨w, s, by simpa using p, q, r⟩

/-- the texts of the constraints of a list -/
theorem constr_texts {ks : List Constr} (h : ∀ k ∈ ks, WF k.span) : ∃ ts, ks.mapM Constr.displayText = .ok ts ∧
    (∀ t ∈ ts, '\n' ∉ t) := by
  induction ks with
  | nil => exact ⟨[], rfl, by simp⟩
  | cons k ks ih =>
    obtain ⟨ts, h1, h2⟩ := ih fun x hx => h x (by simp [hx])
    obtain ⟨s, hs⟩ := displayIv_total (fun _ => displayTv_date) (h k (by simp))
    have hd : k.displayText = .ok ("t".toList ++ natStr k.dst ++ " - t".toList ++ natStr k.src ++ " in ".toList ++ s) := by
      unfold Constr.displayText
      rw [show (⟨k.lower, k.upper⟩ : Iv) = k.span from rfl, hs]; rfl
    refine ⟨_ :: ts, by rw [List.mapM_cons, hd, ok_bind, h1]; rfl, fun t ht => ?_⟩
    rcases List.mem_cons.1 ht with rfl | ht
    · have n1 : ∀ n, '\n' ∉ natStr n := fun n h => absurd (natStr_chars h) (by decide)
      have n2 : '\n' ∉ s := fun hc => absurd (displayIv_chars (h k (by simp)) hs _ hc) (by decide)
      simp [n1, n2]
    · exact h2 t ht

theorem constr_close {k l : Constr} (hk : WF k.span) (hl : WF l.span) {s : List Char} (h1 : k.displayText = .ok s)
    (h2 : l.displayText = .ok s) : k.src = l.src ∧ k.dst = l.dst ∧
    (k.lower - l.lower ≤ 1 ∧ l.lower - k.lower ≤ 1) ∧ (k.upper - l.upper ≤ 1 ∧ l.upper - k.upper ≤ 1) ∧
    (k.lower = -INF ↔ l.lower = -INF) ∧ (k.upper = INF ↔ l.upper = INF) := by
  obtain ⟨x, hx⟩ := displayIv_total (fun _ => displayTv_date) hk
  obtain ⟨y, hy⟩ := displayIv_total (fun _ => displayTv_date) hl
  unfold Constr.displayText at h1 h2
  rw [show (⟨k.lower, k.upper⟩ : Iv) = k.span from rfl, hx] at h1
  rw [show (⟨l.lower, l.upper⟩ : Iv) = l.span from rfl, hy] at h2
  have h1 := Except.ok.inj h1
  have h2 := Except.ok.inj h2
  rw [← h2] at h1
  have sp : ∀ n, ' ' ∉ natStr n := fun n h => absurd (natStr_chars h) (by decide)
  have h1 : "t".toList ++ (natStr k.dst ++ ' ' :: ("- t".toList ++ (natStr k.src ++ ' ' :: ("in ".toList ++ x)))) =
      "t".toList ++ (natStr l.dst ++ ' ' :: ("- t".toList ++ (natStr l.src ++ ' ' :: ("in ".toList ++ y)))) := by
    simpa using h1
  obtain ⟨e1, e2⟩ := split_at (sp _) (sp _) (List.append_cancel_left h1)
  obtain ⟨e3, e4⟩ := split_at (sp _) (sp _) (List.append_cancel_left e2)
  have e4 := List.append_cancel_left e4
  subst e4
  exact ⟨natStr_inj e3, natStr_inj e1, displayIv_close hk hl hx hy⟩

theorem constr_debug_inj {k l : Constr} (hk : WF k.span) (hl : WF l.span) (h : k.debugText = l.debugText) :
    k.src = l.src ∧ k.dst = l.dst ∧ k.span = l.span := by
  unfold Constr.debugText at h
  have n1 : ∀ n, '-' ∉ natStr n := fun n h => absurd (natStr_chars h) (by decide)
  have n2 : ∀ n, ')' ∉ natStr n := fun n h => absurd (natStr_chars h) (by decide)
  have h : "(".toList ++ (natStr k.src ++ '-' :: (">".toList ++ (natStr k.dst ++ ')' :: ("=".toList ++ debugIv debugTv k.span)))) =
      "(".toList ++ (natStr l.src ++ '-' :: (">".toList ++ (natStr l.dst ++ ')' :: ("=".toList ++ debugIv debugTv l.span)))) := by
    simpa [Constr.span] using h
  obtain ⟨e1, e2⟩ := split_at (n1 _) (n1 _) (List.append_cancel_left h)
  obtain ⟨e3, e4⟩ := split_at (n2 _) (n2 _) (List.append_cancel_left e2)
  exact ⟨natStr_inj e1, natStr_inj e3, debugIv_inj debugTv_ok hk hl (List.append_cancel_left e4)⟩

/-- the text of a set has no line break -/
theorem debugSet_line {w : List Iv} (hw : ∀ i ∈ w, WF i) : '\n' ∉ debugSet debugTs w := by
  have ts : ∀ t, '\n' ∉ debugTs t := fun t h => by
    rcases List.mem_append.1 h with h | h
    · exact absurd h (by decide)
    · rcases debugTv_chars h with h | h | h | h <;> exact absurd h (by decide)
  have iv : ∀ i, WF i → '\n' ∉ debugIv debugTs i := fun i h => by
    rcases debugIv_cases debugTs h with ⟨a, -, ha, e⟩ | ⟨a, b, -, ha, hb, -, e⟩ | ⟨a, -, ha, e⟩ | ⟨b, -, hb, e⟩ | ⟨-, e⟩ <;>
      rw [e] <;> simp [ts]
  cases w with
  | nil => decide
  | cons x l =>
    rw [debugSet_cons]
    intro h
    rcases List.mem_append.1 h with h | h
    · exact iv x (hw x (by simp)) h
    · obtain ⟨i, hi, h⟩ := List.mem_flatMap.1 h
      rcases List.mem_cons.1 h with h | h
      · exact absurd h (by decide)
      · exact iv i (hw i (by simp [hi])) h

end Chrono
