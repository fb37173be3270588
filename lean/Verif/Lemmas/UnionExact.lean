import Verif.Lemmas.Iter
import Verif.Spec.Set

set_option linter.unusedSimpArgs false

/-!
# What the union iterator reads of its first operand
-/

namespace Chrono
open Spec

namespace UnionIter

/-- How many intervals of `i` are read, `m` being the end of the pending interval, which is one of `j` (`true`) or of `i` (`false`). -/
def reads : Bool → Int → List Iv → List Iv → Nat
  | true, _, [], _ => 0
  | true, m, x :: xs, j => 1 + (if x.upper ≤ m then reads true m xs j else reads false x.upper xs j)
  | false, _, _, [] => 0
  | false, m, i, y :: ys => if y.upper ≤ m then reads false m i ys else reads true y.upper i ys
termination_by _ _ i j => i.length + j.length

theorem points_wait (n : Nat) : ∀ (i j : List Iv) (tmp : Iv), i.length + j.length ≤ n →
    (Canon i → Canon (tmp :: j) → ∀ t, InSet t (drain ⟨i, j, .waitI, tmp⟩) ↔
      InSet t (tmp :: j) ∨ InSet t (i.take (reads true tmp.upper i j))) ∧
    (Canon (tmp :: i) → Canon j → ∀ t, InSet t (drain ⟨i, j, .waitJ, tmp⟩) ↔
      InSet t (tmp :: j) ∨ InSet t (i.take (reads false tmp.upper i j))) := by
  induction n with
  | zero =>
    intro i j tmp hn
    have hi : i = [] := List.length_eq_zero_iff.1 (by omega)
    have hj : j = [] := List.length_eq_zero_iff.1 (by omega)
    subst hi hj
    refine ⟨fun _ _ t => ?_, fun _ _ t => ?_⟩
    · rw [drain_waitI_nil]; simp [InSet_nil]
    · rw [drain_waitJ_nil]; simp [InSet_nil]
  | succ n ih =>
    intro i j tmp hn
    constructor
    · intro hci hcj t
      cases i with
      | nil => rw [drain_waitI_nil]; simp [InSet_nil]
      | cons x xs =>
        obtain ⟨hx, hxs, hcxs⟩ := Canon_cons.1 hci
        obtain ⟨ht, htj, hcj'⟩ := Canon_cons.1 hcj
        have hlen : xs.length + j.length ≤ n := by simp at hn; omega
        have l1 := hx.le
        have l2 := ht.le
        rw [drain_waitI_cons _ _ hx ht, reads, Nat.add_comm 1, List.take_succ_cons]
        split
        · have := (ih xs j tmp hlen).1 hcxs hcj t
          rw [if_pos (by omega)]
          simp only [InSet_cons] at *
          grind
        · split
          · have := (ih xs j x hlen).2 hci hcj' t
            rw [if_neg (by omega)]
            simp only [InSet_cons] at *
            grind
          · split
            · rename_i hc1 hc2 hc
              have hw := wf_merge hx ht hc
              have hm := mem_merge hx ht hc hc1 t
              have := (ih xs j ⟨min tmp.lower x.lower, tmp.upper⟩ hlen).1 hcxs (Canon_cons.2 ⟨hw, htj, hcj'⟩) t
              simp only [InSet_cons] at *
              grind
            · rename_i hc1 hc2 hc
              have hw := wf_merge ht hx (by omega)
              have hm := mem_merge ht hx (by omega) hc2 t
              rw [Int.min_comm]
              have := (ih xs j ⟨min x.lower tmp.lower, x.upper⟩ hlen).2 (Canon_cons.2 ⟨hw, hxs, hcxs⟩) hcj' t
              simp only [InSet_cons] at *
              grind
    · intro hci hcj t
      obtain ⟨ht, htj, hcj'⟩ := Canon_cons.1 hci
      cases j with
      | nil => rw [drain_waitJ_nil, reads]; simp [InSet_nil]
      | cons x xs =>
        obtain ⟨hx, hxs, hcxs⟩ := Canon_cons.1 hcj
        have hlen : i.length + xs.length ≤ n := by simp at hn; omega
        have l1 := hx.le
        have l2 := ht.le
        rw [drain_waitJ_cons _ _ hx ht, reads]
        split
        · have := (ih i xs tmp hlen).2 hci hcxs t
          rw [if_pos (by omega)]
          simp only [InSet_cons] at *
          grind
        · split
          · have := (ih i xs x hlen).1 hcj' hcj t
            rw [if_neg (by omega)]
            simp only [InSet_cons] at *
            grind
          · split
            · rename_i hc1 hc2 hc
              have hw := wf_merge hx ht hc
              have hm := mem_merge hx ht hc hc1 t
              have := (ih i xs ⟨min tmp.lower x.lower, tmp.upper⟩ hlen).2 (Canon_cons.2 ⟨hw, htj, hcj'⟩) hcxs t
              simp only [InSet_cons] at *
              grind
            · rename_i hc1 hc2 hc
              have hw := wf_merge ht hx (by omega)
              have hm := mem_merge ht hx (by omega) hc2 t
              rw [Int.min_comm]
              have := (ih i xs ⟨min x.lower tmp.lower, x.upper⟩ hlen).1 hcj' (Canon_cons.2 ⟨hw, hxs, hcxs⟩) t
              simp only [InSet_cons] at *
              grind

/-- the union iterator yields the points of `j` and those of the intervals it reads of `i` -/
theorem points_new {i j : List Iv} {y : Iv} (hi : Canon i) (hj : Canon (y :: j)) (t : Int) :
    InSet t (new i (y :: j)).drain ↔ InSet t (y :: j) ∨ InSet t (i.take (reads true y.upper i j)) := by
  cases i with
  | nil => simp only [new, drain_init_nilI]; simp [InSet_nil]
  | cons x xs =>
    simp only [new, drain_init_waitI _ _ _ (Canon_cons.1 hi).1 (Canon_cons.1 hj).1]
    exact (points_wait _ (x :: xs) j y (Nat.le_refl _)).1 hi hj t

theorem reads_false_zero (j : List Iv) : ∀ (m : Int) (i : List Iv), (∀ y ∈ j, y.upper ≤ m) → reads false m i j = 0 := by
  induction j with
  | nil => intro m i _; rw [reads]
  | cons y ys ih =>
    intro m i h
    rw [reads, if_pos (h y (by simp))]
    exact ih m i fun z hz => h z (by simp [hz])

/-- the intervals of `i` which end before the end of `j` are all read, then `x`, which does not, and possibly the next one -/
theorem reads_wait (n : Nat) (x : Iv) (a2 : List Iv) : ∀ (a1 j : List Iv) (m : Int), a1.length + j.length ≤ n →
    ((a1 ++ x :: a2).Pairwise (fun a b => a.upper < b.upper) → j.Pairwise (fun a b => a.upper < b.upper) → (∀ y ∈ j, m < y.upper) →
      (∀ z ∈ a1, z.upper < m ∨ ∃ y ∈ j, z.upper < y.upper) → m ≤ x.upper → (∀ y ∈ j, y.upper ≤ x.upper) →
      ∃ k, reads true m (a1 ++ x :: a2) j = a1.length + 1 + k ∧ k ≤ 1 ∧ (m < x.upper → (∀ y ∈ j, y.upper < x.upper) → k = 0)) ∧
    ((a1 ++ x :: a2).Pairwise (fun a b => a.upper < b.upper) → j.Pairwise (fun a b => a.upper < b.upper) →
      (∀ z ∈ a1, m < z.upper) → (∃ y ∈ j, m < y.upper) →
      (∀ z ∈ a1, ∃ y ∈ j, z.upper < y.upper) → (∀ y ∈ j, y.upper ≤ x.upper) →
      ∃ k, reads false m (a1 ++ x :: a2) j = a1.length + 1 + k ∧ k ≤ 1 ∧ ((∀ y ∈ j, y.upper < x.upper) → k = 0)) := by
  induction n with
  | zero =>
    intro a1 j m hn
    have hi : a1 = [] := List.length_eq_zero_iff.1 (by omega)
    have hj : j = [] := List.length_eq_zero_iff.1 (by omega)
    subst hi hj
    refine ⟨fun hp _ _ _ hm _ => ?_, fun _ _ _ h => by simp at h⟩
    simp only [List.nil_append, List.length_nil]
    rw [reads]
    by_cases c : x.upper ≤ m
    · rw [if_pos c]
      cases a2 with
      | nil => rw [reads]; exact ⟨0, rfl, by omega, fun _ _ => rfl⟩
      | cons z zs =>
        have := (List.pairwise_cons.1 hp).1 z (by simp)
        rw [reads, if_neg (by omega), reads]
        exact ⟨1, rfl, by omega, fun h _ => by omega⟩
    · rw [if_neg c, reads]
      exact ⟨0, rfl, by omega, fun _ _ => rfl⟩
  | succ n ih =>
    intro a1 j m hn
    constructor
    · intro hi hj hmj h1 hx hjx
      cases a1 with
      | nil =>
        simp only [List.nil_append, List.length_nil]
        rw [List.nil_append] at hi
        rw [reads]
        by_cases c : x.upper ≤ m
        · have e : j = [] := List.eq_nil_iff_forall_not_mem.2 fun y hy => by have := hmj y hy; have := hjx y hy; omega
          subst e
          rw [if_pos c]
          cases a2 with
          | nil => rw [reads]; exact ⟨0, rfl, by omega, fun _ _ => rfl⟩
          | cons z zs =>
            have := (List.pairwise_cons.1 hi).1 z (by simp)
            rw [reads, if_neg (by omega), reads]
            exact ⟨1, rfl, by omega, fun h _ => by omega⟩
        · rw [if_neg c, reads_false_zero _ _ _ hjx]
          exact ⟨0, rfl, by omega, fun _ _ => rfl⟩
      | cons z zs =>
        rw [List.cons_append] at hi ⊢
        obtain ⟨hz, hi'⟩ := List.pairwise_cons.1 hi
        have hlen : zs.length + j.length ≤ n := by simp at hn; omega
        rw [reads]
        by_cases c : z.upper ≤ m
        · rw [if_pos c]
          obtain ⟨k, e, hk, hk'⟩ := (ih zs j m hlen).1 hi' hj hmj (fun w hw => h1 w (by simp [hw])) hx hjx
          exact ⟨k, by rw [e, List.length_cons]; omega, hk, hk'⟩
        · rw [if_neg c]
          have hw : ∀ w ∈ z :: zs, ∃ y ∈ j, w.upper < y.upper := fun w hw => by
            rcases h1 w hw with h | h
            · rcases List.mem_cons.1 hw with e | e
              · subst e; omega
              · have := hz w (by simp [e]); omega
            · exact h
          obtain ⟨k, e, hk, hk'⟩ := (ih zs j z.upper hlen).2 hi' hj (fun w hw' => hz w (by simp [hw'])) (hw z (by simp))
            (fun w hw' => hw w (by simp [hw'])) hjx
          exact ⟨k, by rw [e, List.length_cons]; omega, hk, fun _ => hk'⟩
    · intro hi hj hm hmj h1 hjx
      cases j with
      | nil => simp at hmj
      | cons y ys =>
        obtain ⟨hy, hj'⟩ := List.pairwise_cons.1 hj
        have hlen : a1.length + ys.length ≤ n := by simp at hn; omega
        rw [reads]
        by_cases c : y.upper ≤ m
        · rw [if_pos c]
          have hs : ∀ w, m ≤ w → (∃ v ∈ y :: ys, w < v.upper) → ∃ v ∈ ys, w < v.upper := by
            rintro w hw ⟨v, hv, h⟩
            rcases List.mem_cons.1 hv with e | e
            · subst e; omega
            · exact ⟨v, e, h⟩
          obtain ⟨k, e, hk, hk'⟩ := (ih a1 ys m hlen).2 hi hj' hm (hs m (Int.le_refl _) hmj)
            (fun w hw => hs _ (Int.le_of_lt (hm w hw)) (h1 w hw)) (fun v hv => hjx v (by simp [hv]))
          exact ⟨k, e, hk, fun h => hk' fun v hv => h v (by simp [hv])⟩
        · rw [if_neg c]
          obtain ⟨k, e, hk, hk'⟩ := (ih a1 ys y.upper hlen).1 hi hj' hy (fun w hw => by
              obtain ⟨v, hv, h⟩ := h1 w hw
              rcases List.mem_cons.1 hv with e | e
              · subst e; exact Or.inl h
              · exact Or.inr ⟨v, e, h⟩) (hjx y (by simp)) (fun v hv => hjx v (by simp [hv]))
          exact ⟨k, e, hk, fun h => hk' (h y (by simp)) fun v hv => h v (by simp [hv])⟩

theorem ahead_last {e : Int} (b : List Int) : b.Pairwise (· < ·) → (∀ y ∈ b, y ≤ e) → e ∈ b → ahead true [e] b = false := by
  induction b with
  | nil => intro _ _ h; cases h
  | cons y ys ih =>
    intro hp hy he
    obtain ⟨h1, h2⟩ := List.pairwise_cons.1 hp
    have hye := hy y (by simp)
    rw [ahead, if_neg (by omega)]
    rcases List.mem_cons.1 he with rfl | he
    · rw [if_neg (by omega)]
      have : ys = [] := List.eq_nil_iff_forall_not_mem.2 fun z hz => by have := h1 z hz; have := hy z (by simp [hz]); omega
      subst this
      simp [ahead]
    · have := h1 e he
      rw [if_pos (by omega)]
      exact ih h2 (fun z hz => hy z (by simp [hz])) he

theorem ahead_tie (e : Int) : ahead false [e] [e] = true := by
  rw [ahead, if_neg (by omega), if_neg (by omega), ahead]; rfl

theorem ahead_lt {x y : Int} (h : x < y) (s : Bool) (a b : List Int) : ahead s (x :: a) (y :: b) = ahead false a (y :: b) := by
  rw [ahead, if_pos h]
theorem ahead_gt {x y : Int} (h : y < x) (s : Bool) (a b : List Int) : ahead s (x :: a) (y :: b) = ahead true (x :: a) b := by
  rw [ahead, if_neg (by omega), if_pos h]
theorem ahead_eq {x y : Int} (h : y = x) (s : Bool) (a b : List Int) : ahead s (x :: a) (y :: b) = ahead (!s) a b := by
  rw [ahead, if_neg (by omega), if_neg (by omega)]

/-- how many intervals are read when both operands have a same end, the last one of the second operand -/
theorem reads_ahead (n : Nat) (x : Iv) (a2 : List Iv) (h2 : ∀ z ∈ a2, x.upper < z.upper) : ∀ (a1 j : List Iv) (m : Int), a1.length + j.length ≤ n →
    a1.Pairwise (fun a b => a.upper < b.upper) → (∀ z ∈ a1, z.upper < x.upper) →
    j.Pairwise (fun a b => a.upper < b.upper) → (∀ y ∈ j, y.upper ≤ x.upper) →
    ((∀ y ∈ j, m < y.upper) → (m = x.upper ∨ ∃ y ∈ j, y.upper = x.upper) → m ≤ x.upper →
      reads true m (a1 ++ x :: a2) j = a1.length + 1 +
        (if ahead false (a1.map Iv.upper ++ [x.upper]) (m :: j.map Iv.upper) then min 1 a2.length else 0)) ∧
    ((∀ z ∈ a1, m < z.upper) → m < x.upper → (∃ y ∈ j, y.upper = x.upper) →
      reads false m (a1 ++ x :: a2) j = a1.length + 1 +
        (if ahead true (m :: (a1.map Iv.upper ++ [x.upper])) (j.map Iv.upper) then min 1 a2.length else 0)) := by
  induction n with
  | zero =>
    intro a1 j m hn _ _ _ _
    have hi : a1 = [] := List.length_eq_zero_iff.1 (by omega)
    have hj : j = [] := List.length_eq_zero_iff.1 (by omega)
    subst hi hj
    refine ⟨fun _ h _ => ?_, fun _ _ h => by simp at h⟩
    have e : m = x.upper := by simpa using h
    subst e
    simp only [List.nil_append, List.length_nil, List.map_nil]
    rw [reads, if_pos (Int.le_refl _), ahead_tie]
    cases a2 with
    | nil => simp [reads]
    | cons z zs =>
      have := h2 z (by simp)
      rw [reads, if_neg (by omega), reads]
      simp
  | succ n ih =>
    intro a1 j m hn ha hax hj hjx
    have hjp : (j.map Iv.upper).Pairwise (· < ·) := List.pairwise_map.2 hj
    have hjx' : ∀ y ∈ j.map Iv.upper, y ≤ x.upper := fun y hy => by
      obtain ⟨v, hv, rfl⟩ := List.mem_map.1 hy; exact hjx v hv
    have hje : (∃ y ∈ j, y.upper = x.upper) → x.upper ∈ j.map Iv.upper := fun ⟨y, hy, e⟩ => List.mem_map.2 ⟨y, hy, e⟩
    constructor
    · intro hmj hE hmx
      cases a1 with
      | nil =>
        simp only [List.nil_append, List.length_nil, List.map_nil]
        rw [reads]
        by_cases c : m = x.upper
        · subst c
          have e : j = [] := List.eq_nil_iff_forall_not_mem.2 fun y hy => by have := hmj y hy; have := hjx y hy; omega
          subst e
          rw [if_pos (Int.le_refl _), List.map_nil, ahead_tie]
          cases a2 with
          | nil => simp [reads]
          | cons z zs =>
            have := h2 z (by simp)
            rw [reads, if_neg (by omega), reads]
            simp
        · rw [if_neg (by omega), reads_false_zero _ _ _ hjx, ahead_gt (by omega),
            ahead_last _ hjp hjx' (hje (by rcases hE with h | h; exact absurd h c; exact h))]
          simp
      | cons z zs =>
        obtain ⟨hz, ha'⟩ := List.pairwise_cons.1 ha
        have hzx := hax z (by simp)
        have hax' : ∀ w ∈ zs, w.upper < x.upper := fun w hw => hax w (by simp [hw])
        have hlen : zs.length + j.length ≤ n := by simp at hn; omega
        rw [List.cons_append, reads, List.map_cons, List.cons_append, List.length_cons]
        rcases Int.lt_trichotomy z.upper m with c | c | c
        · rw [if_pos (by omega), ahead_lt c, (ih zs j m hlen ha' hax' hj hjx).1 hmj hE hmx]
          omega
        · rw [if_pos (by omega), ahead_eq c.symm]
          have hE' : ∃ y ∈ j, y.upper = x.upper := by rcases hE with h | h; omega; exact h
          cases zs with
          | nil =>
            simp only [List.nil_append, List.map_nil]
            rw [reads, if_neg (by omega), reads_false_zero _ _ _ hjx, Bool.not_false, ahead_last _ hjp hjx' (hje hE')]
            simp
          | cons w ws =>
            obtain ⟨hw, ha''⟩ := List.pairwise_cons.1 ha'
            have hwz := hz w (by simp)
            rw [List.cons_append, reads, if_neg (by omega), List.map_cons, List.cons_append, Bool.not_false,
              (ih ws j w.upper (by simp at hlen; omega) ha'' (fun v hv => hax' v (by simp [hv])) hj hjx).2 hw (hax' w (by simp)) hE',
              List.length_cons]
            omega
        · have hE' : ∃ y ∈ j, y.upper = x.upper := by
            rcases hE with h | h
            · omega
            · exact h
          rw [if_neg (by omega), ahead_gt c, (ih zs j z.upper hlen ha' hax' hj hjx).2 hz hzx hE']
          omega
    · intro hm hmx hE
      cases j with
      | nil => simp at hE
      | cons y ys =>
        obtain ⟨hy, hj'⟩ := List.pairwise_cons.1 hj
        have hlen : a1.length + ys.length ≤ n := by simp at hn; omega
        have hyx := hjx y (by simp)
        have hjx'' : ∀ v ∈ ys, v.upper ≤ x.upper := fun v hv => hjx v (by simp [hv])
        have hE' : y.upper < x.upper → ∃ v ∈ ys, v.upper = x.upper := fun h => by
          obtain ⟨v, hv, e⟩ := hE
          rcases List.mem_cons.1 hv with rfl | hv
          · omega
          · exact ⟨v, hv, e⟩
        rw [reads, List.map_cons]
        rcases Int.lt_trichotomy y.upper m with c | c | c
        · rw [if_pos (by omega), ahead_gt c, (ih a1 ys m hlen ha hax hj' hjx'').2 hm hmx (hE' (by omega))]
        · rw [if_pos (by omega), ahead_eq c]
          have hE'' := hE' (by omega)
          cases ys with
          | nil => simp at hE''
          | cons v vs =>
            obtain ⟨hv, hj''⟩ := List.pairwise_cons.1 hj'
            have hvm := hy v (by simp)
            rw [reads, if_neg (by omega), List.map_cons, Bool.not_true,
              (ih a1 vs v.upper (by simp at hlen; omega) ha hax hj'' (fun w hw => hjx'' w (by simp [hw]))).1 hv (by
                obtain ⟨w, hw, e⟩ := hE''
                rcases List.mem_cons.1 hw with rfl | hw
                · exact Or.inl e
                · exact Or.inr ⟨w, hw, e⟩) (hjx'' v (by simp))]
        · rw [if_neg (by omega), ahead_lt c, (ih a1 ys y.upper hlen ha hax hj' hjx'').1 hy (by
              obtain ⟨w, hw, e⟩ := hE
              rcases List.mem_cons.1 hw with rfl | hw
              · exact Or.inl e
              · exact Or.inr ⟨w, hw, e⟩) hyx]

theorem ends_increase {l : List Iv} (h : Canon l) : l.Pairwise (fun a b => a.upper < b.upper) := by
  induction l with
  | nil => exact List.Pairwise.nil
  | cons x xs ih =>
    obtain ⟨-, h2, h3⟩ := Canon_cons.1 h
    exact List.pairwise_cons.2 ⟨fun y hy => by have := h2 y hy; have := (h3.wf y hy).le; omega, ih h3⟩

/-- what the union keeps of its first operand when one of its intervals, `x`, ends when the second operand ends or after -/
theorem points_exact {a1 a2 b : List Iv} {x : Iv} (ha : Canon (a1 ++ x :: a2)) (hb : Canon b) (hne : b ≠ [])
    (h1 : ∀ z ∈ a1, ∃ y ∈ b, z.upper < y.upper) (hx : ∀ y ∈ b, y.upper ≤ x.upper) :
    ∃ k, (k = if (∃ y ∈ b, y.upper = x.upper) ∧ ahead false (a1.map Iv.upper ++ [x.upper]) (b.map Iv.upper) = true then 1 else 0) ∧
      ∀ t, InSet t (new (a1 ++ x :: a2) b).drain ↔ InSet t b ∨ InSet t (a1 ++ x :: a2.take k) := by
  cases b with
  | nil => exact absurd rfl hne
  | cons y ys =>
    obtain ⟨hy, hys⟩ := List.pairwise_cons.1 (ends_increase hb)
    have hai := ends_increase ha
    have key : ∀ k, min (reads true y.upper (a1 ++ x :: a2) ys) (a1 ++ x :: a2).length = a1.length + 1 + min k a2.length →
        ∀ t, InSet t (new (a1 ++ x :: a2) (y :: ys)).drain ↔ InSet t (y :: ys) ∨ InSet t (a1 ++ x :: a2.take k) := fun k e t => by
      rw [points_new ha hb, List.take_eq_take_min, e, List.take_append, List.take_of_length_le (by omega)]
      have : a1.length + 1 + min k a2.length - a1.length = min k a2.length + 1 := by omega
      rw [this, List.take_succ_cons, ← List.take_eq_take_min]
    by_cases c : ∃ v ∈ y :: ys, v.upper = x.upper
    · refine ⟨_, rfl, key _ ?_⟩
      have e := (reads_ahead _ x a2 (fun z hz => (List.pairwise_cons.1 (List.pairwise_append.1 hai).2.1).1 z hz) a1 ys y.upper
        (Nat.le_refl _) (List.pairwise_append.1 hai).1 (fun z hz => (List.pairwise_append.1 hai).2.2 z hz x (by simp)) hys
        (fun v hv => hx v (by simp [hv]))).1 hy (by
          obtain ⟨v, hv, h⟩ := c
          rcases List.mem_cons.1 hv with rfl | hv
          · exact Or.inl h
          · exact Or.inr ⟨v, hv, h⟩) (hx y (by simp))
      rw [e, List.map_cons]
      simp only [c, true_and, List.length_append, List.length_cons]
      split <;> omega
    · refine ⟨0, by rw [if_neg fun h => c h.1], key _ ?_⟩
      have hlt : ∀ v ∈ y :: ys, v.upper < x.upper := fun v hv => by
        have := hx v hv
        have : v.upper ≠ x.upper := fun e => c ⟨v, hv, e⟩
        omega
      obtain ⟨k, e, hk, hk'⟩ := (reads_wait _ x a2 a1 ys y.upper (Nat.le_refl _)).1 hai hys hy (fun z hz => by
          obtain ⟨v, hv, h⟩ := h1 z hz
          rcases List.mem_cons.1 hv with e | e
          · subst e; exact Or.inl h
          · exact Or.inr ⟨v, e, h⟩) (hx y (by simp)) (fun v hv => hx v (by simp [hv]))
      have := hk' (hlt y (by simp)) fun v hv => hlt v (by simp [hv])
      rw [e, this]
      simp only [List.length_append, List.length_cons]
      omega

theorem kept_one (m : Int) {i : List Iv} (hi : i.Pairwise (fun a b => a.upper < b.upper)) (t : Int) :
    InSet t (i.take (reads true m i [])) ↔ ∃ z ∈ i, InIv t z ∧ ∀ x ∈ i, m < x.upper → z.upper ≤ x.upper := by
  induction i with
  | nil => simp [InSet_nil]
  | cons x xs ih =>
    obtain ⟨h1, h2⟩ := List.pairwise_cons.1 hi
    rw [reads, Nat.add_comm 1, List.take_succ_cons, InSet_cons]
    split
    · rename_i c
      rw [ih h2]
      constructor
      · rintro (h | ⟨z, hz, h, h'⟩)
        · refine ⟨x, by simp, h, fun y hy hm => ?_⟩
          rcases List.mem_cons.1 hy with e | e
          · subst e; omega
          · exact Int.le_of_lt (h1 y e)
        · refine ⟨z, by simp [hz], h, fun y hy hm => ?_⟩
          rcases List.mem_cons.1 hy with e | e
          · subst e; omega
          · exact h' y e hm
      · rintro ⟨z, hz, h, h'⟩
        rcases List.mem_cons.1 hz with e | e
        · subst e; exact Or.inl h
        · exact Or.inr ⟨z, e, h, fun y hy => h' y (by simp [hy])⟩
    · rename_i c
      rw [reads, List.take_zero]
      simp only [InSet_nil, or_false]
      constructor
      · intro h
        refine ⟨x, by simp, h, fun y hy hm => ?_⟩
        rcases List.mem_cons.1 hy with e | e
        · subst e; exact Int.le_refl _
        · exact Int.le_of_lt (h1 y e)
      · rintro ⟨z, hz, h, h'⟩
        rcases List.mem_cons.1 hz with e | e
        · subst e; exact h
        · have := h1 z e; have := h' x (by simp) (by omega); omega

/-- the union of a set and one interval -/
theorem points_one {i : List Iv} {y : Iv} (hi : Canon i) (hy : WF y) (t : Int) :
    InSet t (new i [y]).drain ↔ InIv t y ∨ ∃ z ∈ i, InIv t z ∧ ∀ x ∈ i, y.upper < x.upper → z.upper ≤ x.upper := by
  rw [points_new hi (Canon_cons.2 ⟨hy, by simp, Canon_nil⟩), kept_one _ (ends_increase hi), InSet_singleton]

end UnionIter

theorem first_split {α : Type} (p : α → Prop) : ∀ l : List α, (∃ x ∈ l, ¬ p x) →
    ∃ l1 x l2, l = l1 ++ x :: l2 ∧ (∀ z ∈ l1, p z) ∧ ¬ p x
  | [], ⟨_, h, _⟩ => (nomatch h)
  | a :: l, ⟨x, hx, h⟩ => by
    by_cases ha : p a
    · obtain ⟨l1, y, l2, e, h1, h2⟩ := first_split p l ⟨x, (List.mem_cons.1 hx).resolve_left (fun e => h (e ▸ ha)), h⟩
      exact ⟨a :: l1, y, l2, by rw [e]; rfl, fun z hz => by
        rcases List.mem_cons.1 hz with rfl | hz
        · exact ha
        · exact h1 z hz, h2⟩
    · exact ⟨[], a, l, rfl, fun _ h => (nomatch h), ha⟩

end Chrono
