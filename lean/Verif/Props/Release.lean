import Verif.Model.Release
import Verif.Props.Duration
import Verif.Props.GraphSafe

set_option linter.unusedSimpArgs false

/-!
# Release builds (C106, C107), and `shrink_to` (C108)
-/

namespace Chrono
open Spec

theorem asI64_id {x : Int} (h1 : I64_MIN ≤ x) (h2 : x ≤ I64_MAX) : asI64 x = x := by
  simp only [asI64, Int.bmod, I64_MIN, I64_MAX] at *
  omega

theorem chk64_wrap {x y : Int} (h : chk64 x = .ok y) : asI64 x = y := by
  unfold chk64 at h
  split at h
  · rename_i c; cases h; exact asI64_id c.1 c.2
  · cases h

theorem chkU32_wrap {x : Int} {y : Nat} (h : chkU32 x = .ok y) : wrapU32 x = y := by
  unfold chkU32 at h
  split at h
  · cases h; unfold wrapU32; congr 1; omega
  · cases h

theorem bind_inv {α β : Type} {m : Res α} {f : α → Res β} {b : β} (h : (m >>= f) = .ok b) :
    ∃ a, m = .ok a ∧ f a = .ok b := by
  cases m with
  | error e => cases h
  | ok a => exact ⟨a, rfl, h⟩

/-! ## C107: rounding -/

/-- C107. Whatever `floor` and `ceil` return in a debug build, they return it in a release build as well. -/
theorem C107_same (t p m : Int) :
    (floorTo t p = .ok m → floorToR t p = .ok m) ∧ (ceilTo t p = .ok m → ceilToR t p = .ok m) := by
  constructor
  · unfold floorTo floorToR
    intro h
    split at h
    · rename_i c
      rw [if_pos c]
      obtain ⟨a, e, h⟩ := bind_inv h
      rw [e, ok_bind, chk64_wrap h]; rfl
    · rename_i c
      rw [if_neg c]
      obtain ⟨a, e1, h⟩ := bind_inv h
      obtain ⟨q, e2, h⟩ := bind_inv h
      obtain ⟨b, e3, h⟩ := bind_inv h
      rw [chk64_wrap e1, e2, ok_bind, chk64_wrap e3, chk64_wrap h]; rfl
  · unfold ceilTo ceilToR
    intro h
    split at h
    · rename_i c
      rw [if_pos c]
      obtain ⟨a, e1, h⟩ := bind_inv h
      obtain ⟨q, e2, h⟩ := bind_inv h
      obtain ⟨b, e3, h⟩ := bind_inv h
      rw [chk64_wrap e1, e2, ok_bind, chk64_wrap e3, chk64_wrap h]; rfl
    · rename_i c
      rw [if_neg c]
      obtain ⟨a, e1, h⟩ := bind_inv h
      obtain ⟨q, e2, h⟩ := bind_inv h
      rw [chk64_wrap e1, e2, ok_bind, chk64_wrap h]; rfl


theorem div_floor_neg {t p m : Int} (ht : t < 0) (hp : 0 < p) (hm : p ∣ m) (hle : m ≤ t) (hlt : t < m + p) :
    ((t + 1).tdiv p - 1) * p = m ∧ (t + 1).tdiv p ≤ 0 ∧ t + 1 ≤ (t + 1).tdiv p := by
  obtain ⟨k, rfl⟩ := hm
  have hk : k + 1 ≤ 0 := by
    rcases Int.lt_or_le k 0 with h | h
    · omega
    · have := Int.mul_nonneg (Int.le_of_lt hp) h; omega
  have e : (t + 1).tdiv p = k + 1 := by
    have h0 : (-(t + 1)).tdiv p = -(k + 1) := by
      rw [Int.tdiv_eq_ediv_of_nonneg (by omega)]
      have e2 : p * -(k + 1) = -(p * k) - p := by rw [Int.mul_neg, Int.mul_add, Int.mul_one]; omega
      apply Int.le_antisymm
      · exact Int.lt_add_one_iff.1 (Int.ediv_lt_of_lt_mul hp (by rw [Int.mul_comm, Int.mul_add, e2, Int.mul_one]; omega))
      · exact Int.le_ediv_of_mul_le hp (by rw [Int.mul_comm, e2]; omega)
    rw [Int.neg_tdiv] at h0
    omega
  rw [e]
  refine ⟨by rw [Int.add_sub_cancel, Int.mul_comm], hk, ?_⟩
  have h1 : p * (k + 1) ≤ 1 * (k + 1) := Int.mul_le_mul_of_nonpos_right (by omega) hk
  rw [Int.mul_add, Int.mul_one, Int.one_mul] at h1
  omega

/-- C107. In a release build, when the greatest multiple of the period before the date is not a 64-bit integer, `floor` answers
silently a date after it: the right one plus `2^64`. The debug build panics. -/
theorem C107_floor_violated {t p m : Int} (ht : Date t) (hp : 0 < p) (hpi : p ≤ INF) (hm : p ∣ m) (hle : m ≤ t) (hlt : t < m + p)
    (hrep : m < I64_MIN) :
    floorTo t p = .error .overflow ∧ floorToR t p = .ok (m + 18446744073709551616) ∧ t < m + 18446744073709551616 := by
  obtain ⟨ht1, ht2⟩ := ht
  have tn : t < 0 := by simp only [I64_MIN, INF] at *; omega
  obtain ⟨e, q0, q1⟩ := div_floor_neg tn hp hm hle hlt
  have c1 : I64_MIN ≤ t + 1 ∧ t + 1 ≤ I64_MAX := by simp only [I64_MIN, I64_MAX, INF] at *; omega
  have c2 : I64_MIN ≤ (t + 1).tdiv p ∧ (t + 1).tdiv p ≤ I64_MAX := by simp only [I64_MIN, I64_MAX, INF] at *; omega
  have c3 : I64_MIN ≤ (t + 1).tdiv p - 1 ∧ (t + 1).tdiv p - 1 ≤ I64_MAX := by simp only [I64_MIN, I64_MAX, INF] at *; omega
  have d : div64 (t + 1) p = .ok ((t + 1).tdiv p) := by
    unfold div64 chk64; rw [if_neg (by omega), if_pos c2]
  refine ⟨?_, ?_, ?_⟩
  · unfold floorTo
    rw [if_neg (by omega)]
    have x : chk64 (t + 1) = .ok (t + 1) := by unfold chk64; rw [if_pos c1]
    have y : chk64 ((t + 1).tdiv p - 1) = .ok ((t + 1).tdiv p - 1) := by unfold chk64; rw [if_pos c3]
    rw [x, ok_bind, d, ok_bind, y, ok_bind, e]
    unfold chk64
    rw [if_neg (by omega)]
  · unfold floorToR
    rw [if_neg (by omega), asI64_id c1.1 c1.2, d, ok_bind, asI64_id c3.1 c3.2, e]
    show Except.ok _ = _
    congr 1
    simp only [asI64, Int.bmod, I64_MIN, INF] at *
    omega
  · simp only [I64_MIN, INF] at *; omega

/-- C107. The same with `ceil`: it answers a date before, less by `2^64`. -/
theorem C107_ceil_violated {t p m : Int} (ht : Date t) (hp : 0 < p) (hpi : p ≤ INF) (hm : p ∣ m) (hge : t ≤ m) (hgt : m < t + p)
    (hrep : I64_MAX < m) :
    ceilTo t p = .error .overflow ∧ ceilToR t p = .ok (m - 18446744073709551616) ∧ m - 18446744073709551616 < t := by
  obtain ⟨ht1, ht2⟩ := ht
  have tn : 0 < t := by simp only [I64_MAX, INF] at *; omega
  obtain ⟨e, q0, q1⟩ := div_floor_neg (t := -t) (m := -m) (by omega) hp (Int.dvd_neg.2 hm) (by omega) (by omega)
  have e4 : (-t + 1).tdiv p = -((t - 1).tdiv p) := by rw [← Int.neg_tdiv]; congr 1; omega
  rw [e4] at e q0 q1
  have e' : ((t - 1).tdiv p + 1) * p = m := by
    have : -(t - 1).tdiv p - 1 = -((t - 1).tdiv p + 1) := by omega
    rw [this, Int.neg_mul] at e
    omega
  have c1 : I64_MIN ≤ t - 1 ∧ t - 1 ≤ I64_MAX := by simp only [I64_MIN, I64_MAX, INF] at *; omega
  have c2 : I64_MIN ≤ (t - 1).tdiv p ∧ (t - 1).tdiv p ≤ I64_MAX := by simp only [I64_MIN, I64_MAX, INF] at *; omega
  have c3 : I64_MIN ≤ (t - 1).tdiv p + 1 ∧ (t - 1).tdiv p + 1 ≤ I64_MAX := by simp only [I64_MIN, I64_MAX, INF] at *; omega
  have d : div64 (t - 1) p = .ok ((t - 1).tdiv p) := by
    unfold div64 chk64; rw [if_neg (by omega), if_pos c2]
  refine ⟨?_, ?_, ?_⟩
  · unfold ceilTo
    rw [if_pos (by omega)]
    have x : chk64 (t - 1) = .ok (t - 1) := by unfold chk64; rw [if_pos c1]
    have y : chk64 ((t - 1).tdiv p + 1) = .ok ((t - 1).tdiv p + 1) := by unfold chk64; rw [if_pos c3]
    rw [x, ok_bind, d, ok_bind, y, ok_bind, e']
    unfold chk64
    rw [if_neg (by omega)]
  · unfold ceilToR
    rw [if_pos (by omega), asI64_id c1.1 c1.2, d, ok_bind, asI64_id c3.1 c3.2, e']
    show Except.ok _ = _
    congr 1
    simp only [asI64, Int.bmod, I64_MAX, INF] at *
    omega
  · simp only [I64_MAX, INF] at *; omega

/-- C107. When the right multiple is a 64-bit integer, `floor` answers it in both builds. -/
theorem C107_floor_partial {t p m : Int} (ht : Date t) (hp : 0 < p) (hpi : p ≤ INF)
    (hm : p ∣ m) (hle : m ≤ t) (hlt : t < m + p) (hrep : -INF ≤ m) : floorTo t p = .ok m ∧ floorToR t p = .ok m :=
  ⟨C10_floor t p m ht hp hpi hm hle hlt hrep, (C107_same t p m).1 (C10_floor t p m ht hp hpi hm hle hlt hrep)⟩

/-- C107, partial: when the right multiple is a 64-bit integer, `ceil` answers it in both builds, unless the date is not positive and follows a
multiple of the period. Missing: that case, where both builds answer that multiple, which is before the date. -/
theorem C107_ceil_partial {t p m : Int} (ht : Date t) (hp : 0 < p)
    (hm : p ∣ m) (hge : t ≤ m) (hgt : m < t + p) (hrep : m ≤ INF) :
    (0 < t ∨ ¬ p ∣ t - 1 → ceilTo t p = .ok m ∧ ceilToR t p = .ok m) ∧
    (t ≤ 0 → p ∣ t - 1 → ceilTo t p = .ok (t - 1) ∧ ceilToR t p = .ok (t - 1)) := by
  have both : ∀ x, ceilTo t p = .ok x → ceilTo t p = .ok x ∧ ceilToR t p = .ok x := fun x h => ⟨h, (C107_same t p x).2 h⟩
  constructor
  · intro h
    apply both
    by_cases c : 0 < t
    · exact C11_ceil_positive_partial t p m ht c hp hm hge hgt hrep
    · have := C11_ceil_nonpositive_partial t p m ht (by omega) hp hm hge hgt
      rwa [if_neg (h.resolve_left c)] at this
  · intro h0 h
    exact both _ (C11_ceil_violated t p ht h0 hp h)

-- the first date, rounded before itself, becomes the last one
example : Date (-INF + 1) ∧ (10 : Int) ∣ -9223372036854775810 ∧ floorToR (-INF + 1) 10 = .ok (INF - 1) ∧
    floorTo (-INF + 1) 10 = .error .overflow ∧ floorToR (-14) 5 = .ok (-15) ∧
    ceilToR (INF - 1) 5 = .ok (-9223372036854775806) ∧ ceilToR 11 5 = .ok 15 := by decide +kernel


/-! ## C106: the graph -/

theorem cellR_of_cell {i j c : Nat} (h : Graph.cell i j = .ok c) : Graph.cellR i j = c := by
  unfold Graph.cell at h
  unfold Graph.cellR
  split at h
  · rename_i k
    rw [if_pos k]
    obtain ⟨a, e, h⟩ := bind_inv h
    rw [chkU32_wrap e, chkU32_wrap h]
  · rename_i k
    rw [if_neg k]
    obtain ⟨a, e, h⟩ := bind_inv h
    obtain ⟨b, e2, h⟩ := bind_inv h
    rw [chkU32_wrap e, chkU32_wrap e2, chkU32_wrap h]

theorem setLowerR_of {g g' : Graph} {i j : Nat} {v : Int} (h : g.setLower i j v = .ok g') : g.setLowerR i j v = .ok g' := by
  obtain ⟨c, e1, h⟩ := bind_inv h
  unfold Graph.setLowerR
  rw [cellR_of_cell e1]
  exact h

theorem diagR_of : ∀ {l : List Nat} {g g' : Graph}, l.foldlM (fun g i => g.setLower i i 0) g = .ok g' →
    l.foldlM (fun g i => g.setLowerR i i 0) g = .ok g'
  | [], _, _, h => h
  | i :: l, g, g', h => by
    rw [List.foldlM_cons] at h ⊢
    obtain ⟨g1, e, h⟩ := bind_inv h
    rw [setLowerR_of e, ok_bind]
    exact diagR_of h

/-- C106. Whatever the primitive operations of a graph answer in a debug build, they answer it in a release build as well. -/
theorem C106_same (g g' : Graph) (i j n : Nat) (v : Int) (r : Iv) :
    (g.lower i j = .ok v → g.lowerR i j = .ok v) ∧ (g.setLower i j v = .ok g' → g.setLowerR i j v = .ok g') ∧
    (g.timespan i j = .ok r → g.timespanR i j = .ok r) ∧ (g.resize n = .ok g' → g.resizeR n = .ok g') ∧
    (Graph.withSize n = .ok g' → Graph.withSizeR n = .ok g') := by
  have rs : ∀ {g : Graph}, g.resize n = .ok g' → g.resizeR n = .ok g' := by
    intro g h
    obtain ⟨m, e, h⟩ := bind_inv h
    obtain ⟨g1, e1, h⟩ := bind_inv h
    unfold Graph.resizeR
    rw [chkU32_wrap e, diagR_of e1]
    exact h
  refine ⟨fun h => ?_, setLowerR_of, fun h => ?_, rs, rs⟩
  · obtain ⟨c, e, h⟩ := bind_inv h
    unfold Graph.lowerR
    rw [cellR_of_cell e]; exact h
  · unfold Graph.timespan at h
    unfold Graph.timespanR
    split at h
    · rename_i k
      rw [if_pos k]
      split at h
      · rename_i k2; rw [if_pos k2]; exact h
      · rename_i k2
        rw [if_neg k2]
        obtain ⟨a, e1, h⟩ := bind_inv h
        obtain ⟨b, e2, h⟩ := bind_inv h
        obtain ⟨l, e3, h⟩ := bind_inv h
        obtain ⟨c, e4, h⟩ := bind_inv h
        obtain ⟨d, e5, h⟩ := bind_inv h
        obtain ⟨e, e6, h⟩ := bind_inv h
        rw [chkU32_wrap e1, chkU32_wrap e2, e3, chkU32_wrap e4, chkU32_wrap e5, chkU32_wrap e6]
        exact h
    · rename_i k
      rw [if_neg k]
      split at h
      · rename_i k2; rw [if_pos k2]; exact h
      · rename_i k2
        rw [if_neg k2]
        obtain ⟨a, e1, h⟩ := bind_inv h
        obtain ⟨b, e2, h⟩ := bind_inv h
        obtain ⟨c, e3, h⟩ := bind_inv h
        obtain ⟨l, e4, h⟩ := bind_inv h
        obtain ⟨d, e5, h⟩ := bind_inv h
        obtain ⟨e, e6, h⟩ := bind_inv h
        rw [chkU32_wrap e1, chkU32_wrap e2, chkU32_wrap e3, e4, chkU32_wrap e5, chkU32_wrap e6]
        exact h

/-- C106. Up to 65535 instants, a release build creates, enlarges and reads graphs as a debug build does, within the memory
of the graph. -/
theorem C106_small_partial {g : Graph} (hv : Valid g) {n : Nat} (hn : n ≤ 65535) (i j : Nat) :
    (∃ r, g.timespanR i j = .ok r ∧ g.timespan i j = .ok r) ∧
    (Clean g → ∃ g', g.resizeR n = .ok g' ∧ g.resize n = .ok g' ∧ Valid g') ∧
    (∃ g', Graph.withSizeR n = .ok g' ∧ Graph.withSize n = .ok g' ∧ Valid g') := by
  refine ⟨?_, fun hc => ?_, ?_⟩
  · obtain ⟨r, h⟩ := (C59_queries hv i j).1
    exact ⟨r, (C106_same g g i j n 0 r).2.2.1 h, h⟩
  · obtain ⟨g', h, -, h2, -⟩ := C58_resize hv hc hn
    exact ⟨g', (C106_same g g' i j n 0 Iv.all).2.2.2.1 h, h, h2⟩
  · obtain ⟨g', h, h2⟩ := C59_start.2 n hn
    exact ⟨g', (C106_same g g' i j n 0 Iv.all).2.2.2.2 h, h, h2⟩

theorem setLowerR_cases (g : Graph) (i j : Nat) (v : Int) :
    g.setLowerR i j v = .error .outOfBounds ∨
    (Graph.cellR i j < g.data.length ∧ g.setLowerR i j v = .ok { g with data := g.data.set (Graph.cellR i j) v }) := by
  unfold Graph.setLowerR vset
  split
  · rename_i h; exact Or.inr ⟨h, rfl⟩
  · exact Or.inl rfl

theorem diagR_keep : ∀ {l : List Nat} {g : Graph} {c : Nat}, g.data[c]? = some 0 →
    l.foldlM (fun g i => g.setLowerR i i 0) g = .error .outOfBounds ∨
    ∃ g', l.foldlM (fun g i => g.setLowerR i i 0) g = .ok g' ∧ g'.data[c]? = some 0
  | [], g, _, h => Or.inr ⟨g, rfl, h⟩
  | i :: l, g, c, h => by
    rw [List.foldlM_cons]
    rcases setLowerR_cases g i i 0 with e | ⟨hl, e⟩
    · left; rw [e]; rfl
    · rw [e, ok_bind]
      apply diagR_keep
      simp only [List.getElem?_set]
      split
      · rfl
      · exact h

theorem diagR_cases : ∀ {l : List Nat} {g : Graph} {i : Nat}, i ∈ l →
    l.foldlM (fun g i => g.setLowerR i i 0) g = .error .outOfBounds ∨
    (Graph.cellR i i < g.data.length ∧
      ∃ g', l.foldlM (fun g i => g.setLowerR i i 0) g = .ok g' ∧ g'.data[Graph.cellR i i]? = some 0)
  | [], _, _, h => nomatch h
  | k :: l, g, i, h => by
    rw [List.foldlM_cons]
    rcases setLowerR_cases g k k 0 with e | ⟨hl, e⟩
    · left; rw [e]; rfl
    · rw [e, ok_bind]
      rcases List.mem_cons.1 h with rfl | h
      · rcases diagR_keep (l := l) (g := { g with data := g.data.set (Graph.cellR i i) 0 }) (c := Graph.cellR i i)
          (by simp only [List.getElem?_set, if_true]; rw [if_pos hl]) with e | e
        · exact Or.inl e
        · exact Or.inr ⟨hl, e⟩
      · rcases diagR_cases (g := { g with data := g.data.set (Graph.cellR k k) 0 }) h with e | ⟨h1, e⟩
        · exact Or.inl e
        · exact Or.inr ⟨by simpa only [List.length_set] using h1, e⟩

theorem resizeR_cases {g : Graph} {n i : Nat} (h1 : g.size ≤ i) (h2 : i < n) :
    g.resizeR n = .error .outOfBounds ∨
    (Graph.cellR i i < (Graph.vresize g.data (wrapU32 ((n : Int) * n)) (-INF)).length ∧
      ∃ g', g.resizeR n = .ok g' ∧ g'.size = n ∧ g'.lowerR i i = .ok 0) := by
  have hm : i ∈ List.range' g.size (n - g.size) := by rw [List.mem_range'_1]; omega
  unfold Graph.resizeR
  rcases diagR_cases (g := { g with data := Graph.vresize g.data (wrapU32 ((n : Int) * n)) (-INF) }) hm with e | ⟨hl, g', e, h⟩
  · left; rw [e]; rfl
  · right
    refine ⟨hl, { g' with size := n }, ?_, rfl, ?_⟩
    · rw [e]; rfl
    · unfold Graph.lowerR vget; simp only [h]

theorem vresize_length (d : List Int) (m : Nat) (v : Int) : (Graph.vresize d m v).length = m := by
  unfold Graph.vresize
  rw [List.length_append, List.length_take, List.length_replicate]; omega

/-- C106. From 65536 instants on, a release build never does the right thing. Enlarging a graph to `n` instants writes out of
its memory, or lets the program run with a graph in which the bound between the instants 256 and 0 was overwritten. The first case
is certain when `n² mod 2^32 ≤ 4294901760`, for instance for 65536 instants. -/
theorem C106_limit_violated {g : Graph} (hs : g.size ≤ 65535) {n : Nat} (hn : 65536 ≤ n) :
    (n * n % 4294967296 ≤ 4294901760 → g.resizeR n = .error .outOfBounds) ∧
    (g.resizeR n = .error .outOfBounds ∨
      ∃ g', g.resizeR n = .ok g' ∧ g'.size = n ∧ g'.lowerR 256 0 = .ok 0) := by
  have w : wrapU32 ((n : Int) * n) = n * n % 4294967296 := by
    unfold wrapU32; rw [← Int.natCast_mul]; omega
  have a : n * n % 4294967296 ≤ 4294901760 → g.resizeR n = .error .outOfBounds := by
    intro h
    rcases resizeR_cases (g := g) (n := n) (i := 65535) (by omega) (by omega) with e | ⟨hl, -⟩
    · exact e
    · rw [vresize_length, w, show Graph.cellR 65535 65535 = 4294901760 by decide +kernel] at hl
      omega
  refine ⟨a, ?_⟩
  by_cases c : n = 65536
  · subst c; exact Or.inl (a (by decide))
  · rcases resizeR_cases (g := g) (n := n) (i := 65536) (by omega) (by omega) with e | ⟨-, g', e1, e2, e3⟩
    · exact Or.inl e
    · refine Or.inr ⟨g', e1, e2, ?_⟩
      unfold Graph.lowerR at e3 ⊢
      rw [show Graph.cellR 256 0 = Graph.cellR 65536 65536 by decide +kernel]
      exact e3

example : Graph.withSizeR 65536 = .error .outOfBounds ∧ Graph.withSizeR 65537 = .error .outOfBounds ∧
    Graph.withSizeR 70000 = .error .outOfBounds ∧ Graph.withSizeR 100000 = .error .outOfBounds :=
  ⟨(C106_limit_violated (by decide) (by decide)).1 (by decide), (C106_limit_violated (by decide) (by decide)).1 (by decide),
    (C106_limit_violated (by decide) (by decide)).1 (by decide), (C106_limit_violated (by decide) (by decide)).1 (by decide)⟩

/-! ## C108: `shrink_to` -/

/-- C108. `shrink_to(n)` changes nothing, for `n ≤ 65535`. -/
theorem C108_shrink_to_partial (g : Graph) {n : Nat} (hn : n ≤ 65535) : g.shrinkTo n = .ok g := by
  unfold Graph.shrinkTo chkU32
  have : n * n ≤ 65535 * 65535 := Nat.mul_le_mul hn hn
  rw [if_pos (by rw [← Int.natCast_mul]; omega)]
  rfl

/-- C108. Beyond, whatever the graph, it panics in a debug build. -/
theorem C108_shrink_to_violated (g : Graph) {n : Nat} (hn : 65536 ≤ n) : g.shrinkTo n = .error .overflow := by
  unfold Graph.shrinkTo chkU32
  have : 65536 * 65536 ≤ n * n := Nat.mul_le_mul hn hn
  rw [if_neg (by rw [← Int.natCast_mul]; omega)]
  rfl

example : (⟨1, [0]⟩ : Graph).shrinkTo 3 = .ok ⟨1, [0]⟩ ∧ (⟨1, [0]⟩ : Graph).shrinkTo 65536 = .error .overflow := by decide +kernel

end Chrono
