import Verif.Lemmas.GraphFormat
import Verif.Lemmas.Iter

/-!
# Texts of sets which may contain empty intervals

The sets of a scheduler may contain intervals whose lower bound is one more than their upper bound.
These are the lemmas of `Lemmas/Format.lean` for such intervals.
-/

set_option linter.unusedSimpArgs false

namespace Chrono
open Spec

theorem debugIv_cases_loose (dbg : Int → List Char) {i : Iv} (h : LooseIv i) :
    (∃ a, i = ⟨a, a⟩ ∧ Date a ∧ debugIv dbg i = ['{'] ++ dbg a ++ ['}']) ∨
    (∃ a b, i = ⟨a, b⟩ ∧ Date a ∧ Date b ∧ a ≠ b ∧ debugIv dbg i = ['['] ++ dbg a ++ [','] ++ dbg b ++ [']']) ∨
    (∃ a, i = ⟨a, INF⟩ ∧ Date a ∧ debugIv dbg i = ['['] ++ dbg a ++ ",+oo[".toList) ∨
    (∃ b, i = ⟨-INF, b⟩ ∧ Date b ∧ debugIv dbg i = "]-oo,".toList ++ dbg b ++ [']']) ∨
    (i = ⟨-INF, INF⟩ ∧ debugIv dbg i = "]-oo,+oo[".toList) := by
  obtain ⟨h1, h2, h3, h4, h5⟩ := h
  obtain ⟨a, b⟩ := i
  simp only at h1 h2 h3 h4 h5
  unfold debugIv Iv.isLowBounded Iv.isUpBounded isPastInfinite isFutureInfinite
  by_cases c1 : a = -INF
  · by_cases c2 : b = INF
    · subst c1 c2
      exact Or.inr (Or.inr (Or.inr (Or.inr ⟨rfl, rfl⟩)))
    · refine Or.inr (Or.inr (Or.inr (Or.inl ⟨b, by rw [c1], ⟨h5, by omega⟩, ?_⟩)))
      simp [c1, c2]
  · by_cases c2 : b = INF
    · refine Or.inr (Or.inr (Or.inl ⟨a, by rw [c2], ⟨by omega, h4⟩, ?_⟩))
      simp [c1, c2]
    · by_cases c3 : a = b
      · refine Or.inl ⟨a, by rw [c3], ⟨by omega, h4⟩, ?_⟩
        subst c3
        simp [c1, c2]
      · refine Or.inr (Or.inl ⟨a, b, rfl, ⟨by omega, h4⟩, ⟨h5, by omega⟩, c3, ?_⟩)
        simp [c1, c2, c3]

theorem debugIv_u_loose {dbg : Int → List Char} (hd : DebugOk dbg) {i : Iv} (h : LooseIv i) : 'U' ∉ debugIv dbg i := by
  rcases debugIv_cases_loose dbg h with ⟨a, -, ha, e⟩ | ⟨a, b, -, ha, hb, -, e⟩ | ⟨a, -, ha, e⟩ | ⟨b, -, hb, e⟩ | ⟨-, e⟩ <;> rw [e]
  · have := hd.u a ha; simp [this]
  · have := hd.u a ha; have := hd.u b hb; simp [*]
  · have := hd.u a ha; simp [this]
  · have := hd.u b hb; simp [this]
  · decide

theorem debugIv_empty_loose {dbg : Int → List Char} (hd : DebugOk dbg) {i : Iv} (h : LooseIv i) : debugIv dbg i ≠ "{}".toList := by
  rcases debugIv_cases_loose dbg h with ⟨a, -, ha, e⟩ | ⟨a, b, -, ha, hb, -, e⟩ | ⟨a, -, ha, e⟩ | ⟨b, -, hb, e⟩ | ⟨-, e⟩ <;> rw [e]
  · have := hd.ne a ha
    intro h
    obtain ⟨c, l, e⟩ := List.exists_cons_of_ne_nil this
    rw [e] at h
    simp at h
  · simp
  · simp
  · simp
  · decide

theorem debugIv_inj_loose {dbg : Int → List Char} (hd : DebugOk dbg) {i j : Iv} (hi : LooseIv i) (hj : LooseIv j)
    (h : debugIv dbg i = debugIv dbg j) : i = j := by
  rcases debugIv_cases_loose dbg hi with ⟨a, hi, ha, e⟩ | ⟨a, b, hi, ha, hb, hab, e⟩ | ⟨a, hi, ha, e⟩ | ⟨b, hi, hb, e⟩ | ⟨hi, e⟩ <;>
  rcases debugIv_cases_loose dbg hj with ⟨a', hj, ha', e'⟩ | ⟨a', b', hj, ha', hb', hab', e'⟩ | ⟨a', hj, ha', e'⟩ | ⟨b', hj, hb', e'⟩ | ⟨hj, e'⟩ <;>
  rw [e, e'] at h <;> rw [hi, hj] <;>
  try (exfalso; simp at h; done)
  · have := hd.inj a a' ha ha' (List.append_cancel_left (List.append_cancel_right h))
    rw [this]
  · simp only [List.append_assoc, List.cons_append, List.nil_append, List.cons.injEq, true_and] at h
    obtain ⟨h1, h2⟩ := split_at (hd.comma a ha) (hd.comma a' ha') h
    rw [hd.inj a a' ha ha' h1, hd.inj b b' hb hb' (List.append_cancel_right h2)]
  · exfalso
    simp only [List.append_assoc, List.cons_append, List.nil_append, List.cons.injEq, true_and] at h
    have h : dbg a ++ ',' :: (dbg b ++ [']']) = dbg a' ++ ',' :: ['+', 'o', 'o', '['] := h
    obtain ⟨-, h2⟩ := split_at (hd.comma a ha) (hd.comma a' ha') h
    have := congrArg List.getLast? h2
    simp at this
  · exfalso
    simp only [List.append_assoc, List.cons_append, List.nil_append, List.cons.injEq, true_and] at h
    have h : dbg a ++ ',' :: ['+', 'o', 'o', '['] = dbg a' ++ ',' :: (dbg b' ++ [']']) := h
    obtain ⟨-, h2⟩ := split_at (hd.comma a ha) (hd.comma a' ha') h
    have := congrArg List.getLast? h2
    simp at this
  · have := hd.inj a a' ha ha' (List.append_cancel_left (List.append_cancel_right h))
    rw [this]
  · have := hd.inj b b' hb hb' (List.append_cancel_left (List.append_cancel_right h))
    rw [this]
  · exfalso
    have := congrArg List.getLast? h
    rw [List.getLast?_concat] at this
    exact absurd this (by decide)
  · exfalso
    have := congrArg List.getLast? h
    rw [List.getLast?_concat] at this
    exact absurd this (by decide)

theorem parts_inj_loose {dbg : Int → List Char} (hd : DebugOk dbg) : ∀ {l l' : List Iv}, (∀ i ∈ l, LooseIv i) → (∀ i ∈ l', LooseIv i) →
    l.flatMap (fun i => 'U' :: debugIv dbg i) = l'.flatMap (fun i => 'U' :: debugIv dbg i) → l = l'
  | [], [], _, _, _ => rfl
  | [], y :: l', _, _, h => by simp at h
  | x :: l, [], _, _, h => by simp at h
  | x :: l, y :: l', h1, h2, h => by
    simp only [List.flatMap_cons, List.cons_append, List.cons.injEq, true_and] at h
    have wx := h1 x (by simp)
    have wy := h2 y (by simp)
    obtain ⟨e1, e2⟩ := split_parts (debugIv_u_loose hd wx) (debugIv_u_loose hd wy) h
    rw [debugIv_inj_loose hd wx wy e1, parts_inj_loose hd (fun i hi => h1 i (by simp [hi])) (fun i hi => h2 i (by simp [hi])) e2]

theorem debugSet_inj_loose {dbg : Int → List Char} (hd : DebugOk dbg) {s r : List Iv} (hs : ∀ i ∈ s, LooseIv i) (hr : ∀ i ∈ r, LooseIv i)
    (h : debugSet dbg s = debugSet dbg r) : s = r := by
  have key : ∀ (x : Iv) (l : List Iv), (∀ i ∈ x :: l, LooseIv i) → debugSet dbg (x :: l) ≠ "{}".toList := by
    intro x l hl e
    rw [debugSet_cons] at e
    have e : debugIv dbg x ++ l.flatMap (fun i => 'U' :: debugIv dbg i) =
        "{}".toList ++ ([] : List Iv).flatMap (fun i => 'U' :: debugIv dbg i) := by rw [e]; simp
    exact debugIv_empty_loose hd (hl x (by simp)) (split_parts (debugIv_u_loose hd (hl x (by simp))) (by decide) e).1
  cases s with
  | nil =>
    cases r with
    | nil => rfl
    | cons y r => exact absurd h.symm (key y r hr)
  | cons x s =>
    cases r with
    | nil => exact absurd h (key x s hs)
    | cons y r =>
      rw [debugSet_cons, debugSet_cons] at h
      have wx := hs x (by simp)
      have wy := hr y (by simp)
      obtain ⟨e1, e2⟩ := split_parts (debugIv_u_loose hd wx) (debugIv_u_loose hd wy) h
      rw [debugIv_inj_loose hd wx wy e1, parts_inj_loose hd (fun i hi => hs i (by simp [hi])) (fun i hi => hr i (by simp [hi])) e2]

theorem displayIv_cases_loose {i : Iv} (h : LooseIv i) :
    (∃ a, i = ⟨a, a⟩ ∧ Date a ∧ ∀ disp, displayIv disp i = do return ['{'] ++ (← disp a) ++ ['}']) ∨
    (∃ a b, i = ⟨a, b⟩ ∧ Date a ∧ Date b ∧ a ≠ b ∧
      ∀ disp, displayIv disp i = do return ['['] ++ (← disp a) ++ [','] ++ (← disp b) ++ [']']) ∨
    (∃ a, i = ⟨a, INF⟩ ∧ Date a ∧ ∀ disp, displayIv disp i = do return ['['] ++ (← disp a) ++ ",+oo[".toList) ∨
    (∃ b, i = ⟨-INF, b⟩ ∧ Date b ∧ ∀ disp, displayIv disp i = do return "]-oo,".toList ++ (← disp b) ++ [']']) ∨
    (i = ⟨-INF, INF⟩ ∧ ∀ disp, displayIv disp i = .ok "]-oo,+oo[".toList) := by
  obtain ⟨h1, h2, h3, h4, h5⟩ := h
  obtain ⟨a, b⟩ := i
  simp only at h1 h2 h3 h4 h5
  have hemp : (a == INF) = false := by simp; omega
  unfold displayIv Iv.isEmpty Iv.isSingleton Iv.isLowBounded Iv.isUpBounded isPastInfinite isFutureInfinite
  rw [hemp]
  by_cases c1 : a = -INF
  · by_cases c2 : b = INF
    · subst c1 c2
      exact Or.inr (Or.inr (Or.inr (Or.inr ⟨rfl, fun _ => rfl⟩)))
    · refine Or.inr (Or.inr (Or.inr (Or.inl ⟨b, by rw [c1], ⟨h5, by omega⟩, fun disp => ?_⟩)))
      have c3 : ¬ (-INF = b) := by omega
      simp [c1, c2, c3]
  · by_cases c2 : b = INF
    · refine Or.inr (Or.inr (Or.inl ⟨a, by rw [c2], ⟨by omega, h4⟩, fun disp => ?_⟩))
      have c3 : ¬ (a = INF) := by omega
      simp [c1, c2, c3]
    · by_cases c3 : a = b
      · refine Or.inl ⟨a, by rw [c3], ⟨by omega, h4⟩, fun disp => ?_⟩
        subst c3
        simp
      · refine Or.inr (Or.inl ⟨a, b, rfl, ⟨by omega, h4⟩, ⟨h5, by omega⟩, c3, fun disp => ?_⟩)
        simp [c1, c2, c3]

theorem formatTimeslot_gen_loose {i : Iv} (h : LooseIv i) (fp : Int → Res (List Char)) : formatTimeslot fp i = displayIv fp i := by
  have hne : i.isEmpty = false := by
    unfold Iv.isEmpty isFutureInfinite
    have := h.lo_lt
    simp; omega
  unfold formatTimeslot displayIv
  rw [hne]
  rfl

theorem displayIv_congr_loose {i : Iv} (h : LooseIv i) {f g : Int → Res (List Char)} (hfg : ∀ t, Date t → f t = g t) :
    displayIv f i = displayIv g i := by
  rcases displayIv_cases_loose h with ⟨a, -, ha, e⟩ | ⟨a, b, -, ha, hb, -, e⟩ | ⟨a, -, ha, e⟩ | ⟨b, -, hb, e⟩ | ⟨-, e⟩
  · rw [e, e, hfg a ha]
  · rw [e, e, hfg a ha, hfg b hb]
  · rw [e, e, hfg a ha]
  · rw [e, e, hfg b hb]
  · rw [e, e]

theorem displayIv_texts_loose {disp : Int → Res (List Char)} (d : ∀ t, Date t → ∃ s, disp t = .ok s) {i : Iv} (h : LooseIv i) :
    (∃ a s, i = ⟨a, a⟩ ∧ disp a = .ok s ∧ displayIv disp i = .ok ("{".toList ++ s ++ "}".toList)) ∨
    (∃ a b s r, i = ⟨a, b⟩ ∧ -INF < a ∧ a ≠ b ∧ b < INF ∧ disp a = .ok s ∧ disp b = .ok r ∧
      displayIv disp i = .ok ("[".toList ++ s ++ ",".toList ++ r ++ "]".toList)) ∨
    (∃ a s, i = ⟨a, INF⟩ ∧ -INF < a ∧ disp a = .ok s ∧ displayIv disp i = .ok ("[".toList ++ s ++ ",+oo[".toList)) ∨
    (∃ b s, i = ⟨-INF, b⟩ ∧ b < INF ∧ disp b = .ok s ∧ displayIv disp i = .ok ("]-oo,".toList ++ s ++ "]".toList)) ∨
    (i = ⟨-INF, INF⟩ ∧ displayIv disp i = .ok "]-oo,+oo[".toList) := by
  rcases displayIv_cases_loose h with ⟨a, hi, ha, e⟩ | ⟨a, b, hi, ha, hb, hab, e⟩ | ⟨a, hi, ha, e⟩ | ⟨b, hi, hb, e⟩ | ⟨hi, e⟩
  · obtain ⟨s, hs⟩ := d a ha; exact Or.inl ⟨a, s, hi, hs, by rw [e, hs]; rfl⟩
  · obtain ⟨s, hs⟩ := d a ha; obtain ⟨r, hr⟩ := d b hb
    exact Or.inr (Or.inl ⟨a, b, s, r, hi, ha.1, hab, hb.2, hs, hr, by rw [e, hs, hr]; rfl⟩)
  · obtain ⟨s, hs⟩ := d a ha; exact Or.inr (Or.inr (Or.inl ⟨a, s, hi, ha.1, hs, by rw [e, hs]; rfl⟩))
  · obtain ⟨s, hs⟩ := d b hb; exact Or.inr (Or.inr (Or.inr (Or.inl ⟨b, s, hi, hb.2, hs, by rw [e, hs]; rfl⟩)))
  · exact Or.inr (Or.inr (Or.inr (Or.inr ⟨hi, e _⟩)))

theorem displayIv_total_loose {disp : Int → Res (List Char)} (d : ∀ t, Date t → ∃ s, disp t = .ok s) {i : Iv} (h : LooseIv i) :
    ∃ s, displayIv disp i = .ok s := by
  rcases displayIv_texts_loose d h with ⟨_, _, _, _, e⟩ | ⟨_, _, _, _, _, _, _, _, _, _, e⟩ | ⟨_, _, _, _, _, e⟩ | ⟨_, _, _, _, _, e⟩ | ⟨_, e⟩
  all_goals exact ⟨_, e⟩

theorem displaySet_words_loose {disp : Int → Res (List Char)} (d : ∀ t, Date t → ∃ s, disp t = .ok s) {s : List Iv} (hne : s ≠ []) (hs : ∀ i ∈ s, LooseIv i) : ∃ texts, s.mapM (displayIv disp) = .ok texts ∧
    displaySet disp s = .ok (['U'].intercalate texts) := by
  obtain ⟨ts, ht⟩ := mapM_total (fun i hi => displayIv_total_loose d (hs i hi))
  refine ⟨ts, ht, ?_⟩
  cases s with
  | nil => exact absurd rfl hne
  | cons x l =>
    obtain ⟨t, hx⟩ := displayIv_total_loose d (hs x (by simp))
    obtain ⟨ts', hl⟩ := mapM_total (l := l) (fun i hi => displayIv_total_loose d (hs i (by simp [hi])))
    rw [List.mapM_cons, hx, hl] at ht
    have ht : Except.ok (t :: ts') = Except.ok ts := ht
    injection ht with ht
    subst ht
    unfold displaySet
    simp only []
    rw [hx]
    show List.foldlM (fun s i => do return s ++ ['U'] ++ (← displayIv disp i)) t l = _
    rw [foldlM_texts _ l t ts' hl, intercalate_u]

theorem formatTimeset_eq_loose {fp disp : Int → Res (List Char)} (hf : ∀ t, Date t → fp t = disp t) {s : List Iv} (hne : s ≠ [])
    (hs : ∀ i ∈ s, LooseIv i) : formatTimeset fp s = displaySet disp s := by
  have e : ∀ i, LooseIv i → formatTimeslot fp i = displayIv disp i := fun i h => by
    rw [formatTimeslot_gen_loose h, displayIv_congr_loose h hf]
  cases s with
  | nil => exact absurd rfl hne
  | cons x l =>
    unfold formatTimeset displaySet
    simp only []
    rw [e x (hs x (by simp))]
    congr
    funext r
    exact foldlM_congr' r (fun i hi s => by rw [e i (hs i (by simp [hi]))])

theorem debugSet_line_loose {w : List Iv} (hw : ∀ i ∈ w, LooseIv i) : '\n' ∉ debugSet debugTs w := by
  have ts : ∀ t, '\n' ∉ debugTs t := fun t h => by
    rcases List.mem_append.1 h with h | h
    · exact absurd h (by decide)
    · rcases debugTv_chars h with h | h | h | h <;> exact absurd h (by decide)
  have iv : ∀ i, LooseIv i → '\n' ∉ debugIv debugTs i := fun i h => by
    rcases debugIv_cases_loose debugTs h with ⟨a, -, ha, e⟩ | ⟨a, b, -, ha, hb, -, e⟩ | ⟨a, -, ha, e⟩ | ⟨b, -, hb, e⟩ | ⟨-, e⟩ <;>
      rw [e] <;> simp [ts]
  cases w with
  | nil => decide
  | cons x l =>
    rw [debugSet_cons]
    intro h
    rcases List.mem_append.1 h with h | h
    · exact iv x (hw x (by simp)) h
    · obtain ⟨i, hi, h⟩ := List.mem_flatMap.1 h
      rcases List.mem_cons.1 h with h | h
      · exact absurd h (by decide)
      · exact iv i (hw i (by simp [hi])) h

end Chrono
