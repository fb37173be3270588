import Verif.Spec.Graph
import Verif.Lemmas.Set
import Verif.Lemmas.Walk

/-!
# The storage of the graph as a matrix
-/

set_option linter.unusedSimpArgs false

namespace Chrono
open Spec

/-! ## Cells -/

/-- the number of the cell of `(i,j)` -/
def ix (i j : Nat) : Nat := if i ≥ j then i * i + j else j * (j + 2) - i

theorem ix_ge {i j : Nat} (h : j ≤ i) : ix i j = i * i + j := by unfold ix; rw [if_pos h]
theorem ix_lt' {i j : Nat} (h : i < j) : ix i j = j * (j + 2) - i := by unfold ix; rw [if_neg (by omega)]
theorem ix_lt'' {i j : Nat} (h : i < j) : ix i j = j * j + (2 * j - i) := by
  rw [ix_lt' h, Nat.mul_add]; omega

/-- the cells of the pairs whose greatest instant is `m` -/
theorem ix_shell (i j : Nat) : max i j * max i j ≤ ix i j ∧ ix i j ≤ max i j * max i j + 2 * max i j := by
  rcases Nat.lt_or_ge i j with h | h
  · rw [ix_lt'' h, Nat.max_eq_right (by omega)]; omega
  · rw [ix_ge h, Nat.max_eq_left h]; omega

theorem sq_mono {a b : Nat} (h : a ≤ b) : a * a ≤ b * b := Nat.mul_le_mul h h

theorem ix_lt {i j n : Nat} (hi : i < n) (hj : j < n) : ix i j < n * n := by
  have := ix_shell i j
  have h2 := sq_mono (a := max i j + 1) (b := n) (by omega)
  have h3 : (max i j + 1) * (max i j + 1) = max i j * max i j + 2 * max i j + 1 := by grind
  omega

theorem ix_ge_sq {i j n : Nat} (h : n ≤ i ∨ n ≤ j) : n * n ≤ ix i j := by
  have := ix_shell i j
  have h2 := sq_mono (a := n) (b := max i j) (by omega)
  omega

theorem ix_inj {i j a b : Nat} (h : ix i j = ix a b) : i = a ∧ j = b := by
  have h1 := ix_shell i j
  have h2 := ix_shell a b
  have hm : max i j = max a b := by
    rcases Nat.lt_trichotomy (max i j) (max a b) with c | c | c
    · exfalso
      have h3 := sq_mono (a := max i j + 1) (b := max a b) (by omega)
      have h4 : (max i j + 1) * (max i j + 1) = max i j * max i j + 2 * max i j + 1 := by grind
      omega
    · exact c
    · exfalso
      have h3 := sq_mono (a := max a b + 1) (b := max i j) (by omega)
      have h4 : (max a b + 1) * (max a b + 1) = max a b * max a b + 2 * max a b + 1 := by grind
      omega
  rcases Nat.lt_or_ge i j with c | c
  · rcases Nat.lt_or_ge a b with d | d
    · have : j = b := by omega
      subst this
      rw [ix_lt'' c, ix_lt'' d] at h
      omega
    · have : j = a := by omega
      subst this
      rw [ix_lt'' c, ix_ge d] at h
      omega
  · rcases Nat.lt_or_ge a b with d | d
    · have : i = b := by omega
      subst this
      rw [ix_ge c, ix_lt'' d] at h
      omega
    · have : i = a := by omega
      subst this
      rw [ix_ge c, ix_ge d] at h
      omega

theorem exists_sqrt (c : Nat) : ∃ m, m * m ≤ c ∧ c ≤ m * m + 2 * m := by
  induction c with
  | zero => exact ⟨0, by omega, by omega⟩
  | succ c ih =>
    obtain ⟨m, h1, h2⟩ := ih
    by_cases h : c + 1 ≤ m * m + 2 * m
    · exact ⟨m, by omega, h⟩
    · refine ⟨m + 1, ?_, ?_⟩ <;>
      · have : (m + 1) * (m + 1) = m * m + 2 * m + 1 := by grind
        omega

theorem ix_surj {c n : Nat} (h : c < n * n) : ∃ i j, i < n ∧ j < n ∧ ix i j = c := by
  obtain ⟨m, h1, h2⟩ := exists_sqrt c
  have hm : m < n := by
    rcases Nat.lt_or_ge m n with c | c
    · exact c
    · have := sq_mono c; omega
  by_cases c' : c ≤ m * m + m
  · exact ⟨m, c - m * m, hm, by omega, by rw [ix_ge (by omega)]; omega⟩
  · exact ⟨m * m + 2 * m - c, m, by omega, hm, by rw [ix_lt'' (by omega)]; omega⟩

theorem chkU32_ok {x : Int} (h1 : 0 ≤ x) (h2 : x ≤ 4294967295) : chkU32 x = .ok x.toNat := by
  unfold chkU32; rw [if_pos ⟨h1, h2⟩]

theorem sq_bound {i : Nat} (h : i ≤ 65535) : i * i ≤ 65535 * i := Nat.mul_le_mul_right i h

theorem cell_eq {i j : Nat} (hi : i ≤ 65535) (hj : j ≤ 65535) : Graph.cell i j = .ok (ix i j) := by
  unfold Graph.cell
  have b1 := sq_bound hi
  have b2 := sq_bound hj
  have e1 : (i : Int) * i = ((i * i : Nat) : Int) := by simp
  have e2 : (j : Int) * j = ((j * j : Nat) : Int) := by simp
  split
  · rename_i c
    rw [e1, chkU32_ok (by omega) (by omega), ok_bind, ix_ge c, chkU32_ok (by omega) (by omega)]
    congr 1
  · rename_i c
    have e3 : (j : Int) * (((j : Int) + 2).toNat : Nat) = ((j * j + 2 * j : Nat) : Int) := by
      have : (((j : Int) + 2).toNat : Int) = j + 2 := by omega
      rw [this]; grind
    rw [chkU32_ok (by omega) (by omega), ok_bind, e3, chkU32_ok (by omega) (by omega), ok_bind,
      ix_lt'' (by omega), chkU32_ok (by omega) (by omega)]
    congr 1; omega

/-! ## The matrix of a graph -/

/-- the bound stored for `(i,j)` -/
def mat (g : Graph) : Mat := fun i j => g.data.getD (ix i j) (-INF)

/-- write one bound -/
def put (g : Graph) (i j : Nat) (v : Int) : Graph := { g with data := g.data.set (ix i j) v }

@[simp] theorem put_size (g : Graph) (i j : Nat) (v : Int) : (put g i j v).size = g.size := rfl
@[simp] theorem put_len (g : Graph) (i j : Nat) (v : Int) : (put g i j v).data.length = g.data.length := by
  simp [put]

theorem Spec.Valid.ix_lt {g : Graph} (h : Valid g) {i j : Nat} (hi : i < g.size) (hj : j < g.size) :
    ix i j < g.data.length := by
  have := Chrono.ix_lt hi hj
  have := h.2
  omega

theorem Spec.Valid.put {g : Graph} (h : Valid g) (i j : Nat) (v : Int) : Valid (put g i j v) := by
  refine ⟨h.1, ?_⟩
  rw [put_len]; exact h.2

theorem mat_put {g : Graph} {i j : Nat} (v : Int) (h : ix i j < g.data.length) (a b : Nat) :
    mat (put g i j v) a b = if a = i ∧ b = j then v else mat g a b := by
  unfold mat put
  simp only [List.getD_eq_getElem?_getD, List.getElem?_set]
  split
  · rename_i c
    obtain ⟨rfl, rfl⟩ := ix_inj c
    rw [if_pos ⟨rfl, rfl⟩]
    first | rfl | (rw [if_pos h]; rfl)
  · rename_i c
    rw [if_neg]
    rintro ⟨rfl, rfl⟩
    exact c rfl

theorem put_self {g : Graph} {i j : Nat} : put g i j (mat g i j) = g := by
  unfold put mat
  congr 1
  rw [List.getD_eq_getElem?_getD]
  apply List.ext_getElem?
  intro k
  rw [List.getElem?_set]
  split
  · rename_i c
    subst c
    split
    · rename_i h; rw [List.getElem?_eq_getElem h]; rfl
    · rename_i h; rw [List.getElem?_eq_none (by omega)]
  · rfl

theorem vget_ok {d : List Int} {k : Nat} (h : k < d.length) : vget d k = .ok (d.getD k (-INF)) := by
  unfold vget
  rw [List.getD_eq_getElem?_getD, List.getElem?_eq_getElem h]; rfl

theorem vset_ok {d : List Int} {k : Nat} (h : k < d.length) (v : Int) : vset d k v = .ok (d.set k v) := by
  unfold vset; rw [if_pos h]

theorem lower_cell {g : Graph} {i j : Nat} (hi : i ≤ 65535) (hj : j ≤ 65535) (h : ix i j < g.data.length) :
    g.lower i j = .ok (mat g i j) := by
  unfold Graph.lower
  rw [cell_eq hi hj, ok_bind, vget_ok h]; rfl

theorem setLower_cell {g : Graph} {i j : Nat} (hi : i ≤ 65535) (hj : j ≤ 65535) (h : ix i j < g.data.length)
    (v : Int) : g.setLower i j v = .ok (put g i j v) := by
  unfold Graph.setLower
  rw [cell_eq hi hj, ok_bind, vset_ok h]; rfl

theorem lower_eq {g : Graph} (h : Valid g) {i j : Nat} (hi : i < g.size) (hj : j < g.size) :
    g.lower i j = .ok (mat g i j) := by
  have := h.1
  exact lower_cell (by omega) (by omega) (h.ix_lt hi hj)

theorem setLower_eq {g : Graph} (h : Valid g) {i j : Nat} (hi : i < g.size) (hj : j < g.size) (v : Int) :
    g.setLower i j v = .ok (put g i j v) := by
  have := h.1
  exact setLower_cell (by omega) (by omega) (h.ix_lt hi hj) v

theorem relax_eq {g : Graph} (h : Valid g) {i j : Nat} (hi : i < g.size) (hj : j < g.size) (v : Int) :
    g.relax i j v = .ok (put g i j (max (mat g i j) v)) := by
  unfold Graph.relax
  rw [lower_eq h hi hj, ok_bind]
  split
  · rename_i c
    rw [setLower_eq h hi hj, Int.max_eq_right (by omega)]
  · rename_i c
    rw [Int.max_eq_left (by omega), put_self]; rfl

theorem timespan_eq {g : Graph} (h : Valid g) {i j : Nat} (hi : i < g.size) (hj : j < g.size) :
    g.timespan i j = .ok ⟨mat g i j, -mat g j i⟩ := by
  have hs := h.1
  have key : ∀ {a b : Nat}, b ≤ a → a < g.size →
      chkU32 ((a : Int) * a) = .ok (a * a) ∧ chkU32 (((a * a : Nat) : Int) + b) = .ok (ix a b) ∧
      chkU32 ((a : Int) + 2) = .ok (a + 2) ∧ chkU32 ((a : Int) * ((a + 2 : Nat) : Int)) = .ok (a * (a + 2)) ∧
      chkU32 (((a * (a + 2) : Nat) : Int) - b) = .ok (ix b a) := by
    intro a b hab ha
    have b1 := sq_bound (i := a) (by omega)
    have e1 : (a : Int) * a = ((a * a : Nat) : Int) := by simp
    have e3 : (a : Int) * ((a + 2 : Nat) : Int) = ((a * a + 2 * a : Nat) : Int) := by
      rw [Int.natCast_add a 2]; grind
    have e4 : a * (a + 2) = a * a + 2 * a := by grind
    rw [e1, e3, e4, ix_ge hab]
    refine ⟨?_, ?_, ?_, ?_, ?_⟩
    · rw [chkU32_ok (by omega) (by omega)]; congr 1
    · rw [chkU32_ok (by omega) (by omega)]; congr 1
    · rw [chkU32_ok (by omega) (by omega)]; congr 1
    · rw [chkU32_ok (by omega) (by omega)]; congr 1
    · rw [chkU32_ok (by omega) (by omega)]; congr 1
      rcases Nat.lt_or_ge b a with c | c
      · rw [ix_lt'' c]; omega
      · have : b = a := by omega
        subst this; rw [ix_ge (Nat.le_refl _)]; omega
  unfold Graph.timespan
  split
  · rename_i c
    rw [if_neg (by omega)]
    obtain ⟨k1, k2, k3, k4, k5⟩ := key c hi
    rw [k1, ok_bind, k2, ok_bind, vget_ok (h.ix_lt hi hj), ok_bind, k3, ok_bind, k4, ok_bind, k5, ok_bind,
      vget_ok (h.ix_lt hj hi)]
    rfl
  · rename_i c
    rw [if_neg (by omega)]
    obtain ⟨k1, k2, k3, k4, k5⟩ := key (a := j) (b := i) (by omega) hj
    rw [k3, ok_bind, k4, ok_bind, k5, ok_bind, vget_ok (h.ix_lt hi hj), ok_bind, k1, ok_bind, k2, ok_bind,
      vget_ok (h.ix_lt hj hi)]
    rfl

theorem timespan_out {g : Graph} {i j : Nat} (h : g.size ≤ i ∨ g.size ≤ j) : g.timespan i j = .ok Iv.all := by
  unfold Graph.timespan
  split
  · rw [if_pos (by omega)]
  · rw [if_pos (by omega)]

/-! ## Loops -/

theorem foldlM_range_aux {α : Type} {f : α → Nat → Res α} (Inv : Nat → α → Prop) {n : Nat} : ∀ (m s : Nat) (a : α),
    s + m = n → Inv s a → (∀ k a, k < n → Inv k a → ∃ a', f a k = .ok a' ∧ Inv (k + 1) a') →
    ∃ a', (List.range' s m).foldlM f a = .ok a' ∧ Inv n a'
  | 0, s, a, e, h, _ => ⟨a, rfl, by have : s = n := by omega
                                    rw [← this]; exact h⟩
  | m + 1, s, a, e, h, st => by
    obtain ⟨a1, h1, h2⟩ := st s a (by omega) h
    obtain ⟨a2, h3, h4⟩ := foldlM_range_aux Inv m (s + 1) a1 (by omega) h2 st
    refine ⟨a2, ?_, h4⟩
    rw [List.range'_succ, List.foldlM_cons, h1, ok_bind]
    exact h3

theorem foldlM_range {α : Type} {f : α → Nat → Res α} (Inv : Nat → α → Prop) {n : Nat} {a : α} (h0 : Inv 0 a)
    (step : ∀ k a, k < n → Inv k a → ∃ a', f a k = .ok a' ∧ Inv (k + 1) a') :
    ∃ a', (List.range n).foldlM f a = .ok a' ∧ Inv n a' := by
  rw [List.range_eq_range']
  exact foldlM_range_aux Inv n 0 a (by omega) h0 step

/-! ## Addition of stored bounds -/

theorem tvAdd_small {A B a b : Int} (ha : Small A a) (hb : Small B b) (hA : A < INF) (hB : B < INF)
    (h : A + B < INF) : tvAdd a b = .ok (oadd a b) := by
  unfold Small at *
  have la : Legal a := by unfold Legal; unfold INF at *; omega
  have lb : Legal b := by unfold Legal; unfold INF at *; omega
  by_cases c1 : a = -INF
  · rw [oadd_bot (Or.inl c1)]
    have z : (-INF : Int) ≠ INF := by decide
    rw [tvAdd_eq la lb, if_neg (by omega), if_pos c1, if_neg (by omega)]
  · by_cases c2 : b = -INF
    · rw [oadd_bot (Or.inr c2)]
      have z : (-INF : Int) ≠ INF := by decide
      rw [tvAdd_eq la lb, if_neg (by omega), if_neg c1, if_neg (by omega), if_pos c2]
    · rw [oadd_ne c1 c2]
      exact tvAdd_exact (by unfold Date; omega) (by unfold Date; omega) (by unfold Date; omega)

end Chrono
