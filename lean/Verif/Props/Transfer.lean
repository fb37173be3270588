import Verif.Props.GraphIter

/-!
# Merging a graph is adding its constraints (C144)
-/

namespace Chrono
open Spec

/-- Two minimal graphs with the same solutions announce the same delays, even if one of them has more instants. -/
theorem spans_of_sat {a g : Graph} (va : Valid a) (ka : CleanMem a) (ca : Closed a.size (mat a)) (hv : Valid g) (hC : Closed g.size (mat g))
    (sz : a.size ≤ g.size) (e : ∀ τ, MSat a.size (mat a) τ ↔ MSat g.size (mat g) τ) {i j : Nat} (hij : i ≠ j) :
    a.timespan i j = g.timespan i j := by
  obtain ⟨b, z1, z2, z3, z4, z5⟩ := grow ka (n := g.size) hv.1
  have same : SameGraph b g := by
    refine same_of_sat z3 hv z2 (by rw [z2]; exact grow_closed z5 ca) hC (fun τ => ?_)
    rw [z2, grow_sat sz z5, e]
  rw [← same.2 i j]
  by_cases c : i < a.size ∧ j < a.size
  · rw [timespan_eq va c.1 c.2, timespan_eq z3 (by omega) (by omega), z5 i j (by omega) (by omega),
      z5 j i (by omega) (by omega), if_pos c, if_pos ⟨c.2, c.1⟩]
  · rw [timespan_out (g := a) (by omega)]
    by_cases d : i < g.size ∧ j < g.size
    · rw [timespan_eq z3 (by omega) (by omega), z5 i j d.1 d.2, z5 j i d.2 d.1, if_neg c,
        if_neg hij, if_neg (fun h : j < a.size ∧ i < a.size => c ⟨h.2, h.1⟩), if_neg (Ne.symm hij)]
      decide
    · rw [timespan_out (by omega)]

/-- C144. `g.merge(h)` and `g.extend(h.iter())` fail in the same cases. Otherwise they announce the same delay between any two instants; the
second one may leave out the last instants of `h`, if nothing is known about them, and if `h` has no more instants than `g` the results are the
same. -/
theorem C144_merge_is_extend {g h : Graph} (hg : Valid g) (hh : Valid h) (cg : Clean g) (tg : Tidy g) (th : Tidy h) (mg : Minimal g)
    (mh : Minimal h) {W : Int} (hW : 0 ≤ W) (wg : Within W g) (wh : Within W h)
    (hB : 3 * ((max g.size h.size : Nat) : Int) * W < INF) :
    ∃ ks hint g1 o1 g2 o2, h.iterAll = .ok ks ∧ h.graphSizeHint Graph.iterInit = .ok hint ∧
      g.merge h = .ok (g1, o1) ∧ g.extend (some hint) ks = .ok (g2, o2) ∧ (o1 = .fatal ↔ o2 = .fatal) ∧
      (o1 ≠ .fatal → g2.size ≤ g1.size ∧ ∀ i j, i ≠ j → g1.timespan i j = g2.timespan i j) ∧
      (h.size ≤ g.size → SameGraph g1 g2) := by
  have Cg := (minimal_iff hg).1 mg
  have Ch := (minimal_iff hh).1 mh
  have zg := Cg.zeroDiag hg
  have zh := Ch.zeroDiag hh
  have hle : h.size ≤ max g.size h.size := Nat.le_max_right _ _
  have gle : g.size ≤ max g.size h.size := Nat.le_max_left _ _
  obtain ⟨ks, i1, -, i3, -⟩ := iterAll_spec hh
  have hk := iter_batchable hh wh i1
  have ih := iter_holds hh Ch.diag i1
  obtain ⟨g1, o1, a1, a2, a3, a4, a5, a6⟩ := C67_merge hg hh tg th zg zh mg.1 mh.1 hW wg wh hB
  have fin : ∀ (g2 : Graph) (o2 : Outcome), (o2 = .fatal ↔ ¬ ∃ τ, Sat τ g ∧ Sat τ h) → (o2 = .fatal → g2.size = 0) →
      (o2 ≠ .fatal → Valid g2 ∧ CleanMem g2 ∧ Minimal g2 ∧ (∀ τ, Sat τ g2 ↔ Sat τ g ∧ Sat τ h) ∧ g.size ≤ g2.size ∧
        g2.size ≤ max g.size h.size) →
      (o1 = .fatal ↔ o2 = .fatal) ∧
      (o1 ≠ .fatal → g2.size ≤ g1.size ∧ ∀ i j, i ≠ j → g1.timespan i j = g2.timespan i j) ∧ (h.size ≤ g.size → SameGraph g1 g2) := by
    intro g2 o2 b1 b2 b3
    have e : o1 = .fatal ↔ o2 = .fatal := by rw [a3, b1]
    refine ⟨e, fun c => ?_, fun hs => ?_⟩
    · obtain ⟨l1, l2, l3, l4, l5⟩ := a6 c
      obtain ⟨r1, r2, r3, r4, r5, r6⟩ := b3 (fun h => c (e.2 h))
      refine ⟨by omega, fun i j hij => (spans_of_sat r1 r2 ((minimal_iff r1).1 r3) l2 ((minimal_iff l2).1 (l5 mg mh)) (by omega) (fun τ => ?_) hij).symm⟩
      rw [← sat_iff r1, ← sat_iff l2, r4, l4]
    · by_cases c : o1 = .fatal
      · have s1 := a4 c
        have s2 := b2 (e.1 c)
        exact ⟨by omega, fun i j => by rw [timespan_out (by omega), timespan_out (by omega)]⟩
      · obtain ⟨l1, l2, l3, l4, l5⟩ := a6 c
        obtain ⟨r1, r2, r3, r4, r5, r6⟩ := b3 (fun h => c (e.2 h))
        refine same_of_sat l2 r1 (by omega) ((minimal_iff l2).1 (l5 mg mh)) ((minimal_iff r1).1 r3) (fun τ => ?_)
        rw [← sat_iff r1, ← sat_iff l2, r4, l4]
  rcases Nat.lt_or_ge h.size 2 with hs | hs
  · have hnil : ks = [] := by
      cases ks with
      | nil => rfl
      | cons k l => have := i3 k (by simp); omega
    subst hnil
    have hint : h.graphSizeHint Graph.iterInit = .ok 1 := by
      have : h.size = 0 ∨ h.size = 1 := by omega
      unfold Graph.graphSizeHint
      rcases this with e | e <;> rw [e] <;> decide
    have all : ∀ τ, Sat τ h := fun τ => (sat_iff hh τ).2 ((ih τ).1 (fun k hk => nomatch hk))
    refine ⟨[], 1, g1, o1, g, .unchanged, i1, hint, a1, rfl, fin g .unchanged ?_ (by simp) (fun _ => ?_)⟩
    · obtain ⟨τ, t⟩ := mg.1
      exact ⟨fun h => (nomatch h), fun h => absurd ⟨τ, t, all τ⟩ h⟩
    · exact ⟨hg, clean_iff.1 cg, mg, fun τ => ⟨fun t => ⟨t, all τ⟩, fun t => t.1⟩, Nat.le_refl _, gle⟩
  · obtain ⟨hint, e1, -, -⟩ := graphSizeHint_eq hh (i := 0) (j := 0) (by omega) (by omega)
    obtain ⟨p1, p2⟩ := iter_hint hh e1 hs
    have hk' : ∀ k ∈ ks, Batchable (max g.size h.size) W k := fun k m => by
      obtain ⟨q1, q2, q3⟩ := hk k m
      exact ⟨by omega, by omega, q3⟩
    have mx : max g.size h.size ≤ 65535 := Nat.max_le.2 ⟨hg.1, hh.1⟩
    obtain ⟨g2, o2, b1, b2, b3, b4, b5⟩ := C65_extend hg cg zg hW wg (n := max g.size h.size) (by omega) gle mx hB hk' p1 p2
    have hs2 : ∀ τ, (Sat τ g ∧ ∀ k ∈ ks, Holds τ k) ↔ Sat τ g ∧ Sat τ h := fun τ => by rw [ih, ← sat_iff hh]
    refine ⟨ks, hint, g1, o1, g2, o2, i1, e1, a1, b1, fin g2 o2 ?_ b5 (fun c => ?_)⟩
    · have : o2 = .fatal ↔ ¬ o2 = .propagated := by rcases b2 with h | h <;> rw [h] <;> simp
      rw [this, b3]
      exact not_congr ⟨fun ⟨τ, t⟩ => ⟨τ, (hs2 τ).1 t⟩, fun ⟨τ, t⟩ => ⟨τ, (hs2 τ).2 t⟩⟩
    · obtain ⟨r1, r2, r3, r4, r5, r6, -⟩ := b4 (by rcases b2 with h | h; exact h; exact absurd h c)
      exact ⟨r1, clean_iff.1 r2, r3, fun τ => by rw [r4, hs2], r5, r6⟩

/-- C144. So does giving the constraints of `h` to `propagate` one by one, if `h` has no more instants than `g`: they are all accepted if and only
if the merge is, and then the results are the same. -/
theorem C144_one_by_one {g h : Graph} (hg : Valid g) (hh : Valid h) (tg : Tidy g) (th : Tidy h) (mg : Minimal g)
    (mh : Minimal h) {W : Int} (hW : 0 ≤ W) (wg : Within W g) (wh : Within W h) (hs : h.size ≤ g.size)
    (hB : 3 * (g.size : Int) * W < INF) :
    ∃ ks g1 o1 g2 acc, h.iterAll = .ok ks ∧ g.merge h = .ok (g1, o1) ∧ propagateAll g ks = .ok (g2, acc) ∧
      (o1 = .fatal ↔ acc ≠ ks) ∧ (o1 ≠ .fatal → SameGraph g1 g2) := by
  have Cg := (minimal_iff hg).1 mg
  have Ch := (minimal_iff hh).1 mh
  obtain ⟨ks, i1, -, i3, -⟩ := iterAll_spec hh
  have hk := iter_batchable hh wh i1
  have ih := iter_holds hh Ch.diag i1
  have hmax : max g.size h.size = g.size := Nat.max_eq_left hs
  obtain ⟨g1, o1, a1, a2, a3, a4, a5, a6⟩ := C67_merge hg hh tg th (Cg.zeroDiag hg) (Ch.zeroDiag hh) mg.1 mh.1 hW wg wh (by rw [hmax]; exact hB)
  have use : ∀ k ∈ ks, Usable g.size W k := by
    intro k m
    obtain ⟨q1, q2, q3, q4⟩ := hk k m
    obtain ⟨e, l1, l2, -⟩ := i3 k m
    refine ⟨by omega, by omega, fun _ => ⟨?_, q3⟩⟩
    have hWi : W < INF := by
      have : W * 1 ≤ W * (3 * (g.size : Int)) := Int.mul_le_mul_of_nonneg_left (by omega) hW
      rw [Int.mul_comm W (3 * _)] at this
      omega
    have an := Ch.anti (i := k.src) (j := k.dst) (by omega) l2
    have el : k.lower = mat h k.src k.dst := by rw [e]; rfl
    have eu : k.upper = -mat h k.dst k.src := by rw [e]; rfl
    obtain ⟨w1, w2⟩ := q3
    constructor <;> simp only <;> ticks
  obtain ⟨g2, acc, e, sub, sz, v, m, -, -, sol, all⟩ := C63_from_minimal hg mg hW wg hB use
  have hs2 : ∀ τ, (Sat τ g ∧ ∀ k ∈ ks, Holds τ k) ↔ Sat τ g ∧ Sat τ h := fun τ => by rw [ih, ← sat_iff hh]
  have key : o1 = .fatal ↔ acc ≠ ks := by
    rw [a3]
    refine not_congr ⟨fun ⟨τ, t⟩ => all ⟨τ, (hs2 τ).2 t⟩, fun ea => ?_⟩
    obtain ⟨τ, t⟩ := m.1
    rw [sol, ea] at t
    exact ⟨τ, (hs2 τ).1 t⟩
  refine ⟨ks, g1, o1, g2, acc, i1, a1, e, key, fun c => ?_⟩
  obtain ⟨l1, l2, l3, l4, l5⟩ := a6 c
  have ea : acc = ks := Classical.byContradiction (fun n => c (key.2 n))
  refine same_of_sat l2 v (by omega) ((minimal_iff l2).1 (l5 mg mh)) ((minimal_iff v).1 m) (fun τ => ?_)
  rw [← sat_iff l2, ← sat_iff v, l4, sol, ea, hs2]

example : Valid exGraph ∧ Clean exGraph ∧ Tidy exGraph ∧ Minimal exGraph ∧ Within 26 exGraph ∧
    3 * ((max exGraph.size exGraph.size : Nat) : Int) * 26 < INF ∧
    exGraph2.merge exGraph = .ok (⟨3, [0, -20, 0, 15, -26, -6, 0, 5, 20]⟩, .propagated) ∧
    exGraph2.extend (some 4) [⟨0, 1, false, 10, 20⟩, ⟨0, 2, false, 15, 26⟩, ⟨1, 2, false, 5, 6⟩] =
      .ok (⟨3, [0, -20, 0, 15, -26, -6, 0, 5, 20]⟩, .propagated) :=
  ⟨exGraph_valid, exGraph_clean, tidy_of_len (by decide), exGraph_minimal, exGraph_within, by decide, by decide, by decide +kernel⟩

end Chrono
