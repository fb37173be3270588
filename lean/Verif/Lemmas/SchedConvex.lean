import Verif.Lemmas.SchedLoose

/-!
# Schedules made of one interval for each instant
-/

set_option linter.unusedSimpArgs false

namespace Chrono
open Spec

/-- the intervals `[lo j, hi j]` are consistent with the closed system `M` -/
structure Arc (n : Nat) (M : Mat) (lo hi : Nat → Int) : Prop where
  wf : ∀ j, j < n → WF ⟨lo j, hi j⟩
  low : ∀ j, j < n → ∀ k, k < n → lo j ≠ -INF → M j k ≠ -INF → lo k ≠ -INF ∧ lo j + M j k ≤ lo k
  high : ∀ j, j < n → ∀ k, k < n → hi k ≠ INF → M j k ≠ -INF → hi j ≠ INF ∧ hi j + M j k ≤ hi k

theorem Arc.attain {n : Nat} {M : Mat} {lo hi : Nat → Int} (h : Closed n M) (ha : Arc n M lo hi) {j : Nat} (hj : j < n)
    {t : Int} (ht : InExt t ⟨lo j, hi j⟩) : ∃ τ, MSat n M τ ∧ τ j = t ∧ ∀ k, k < n → InExt (τ k) ⟨lo k, hi k⟩ := by
  have key : ∀ m, m ≤ n → ∃ τ : Nat → Int, τ j = t ∧
      (∀ a, a < n → (a = j ∨ a < m) → InExt (τ a) ⟨lo a, hi a⟩) ∧
      ∀ a, a < n → (a = j ∨ a < m) → ∀ b, b < n → (b = j ∨ b < m) → M a b = -INF ∨ M a b ≤ τ b - τ a := by
    intro m
    induction m with
    | zero =>
      intro _
      refine ⟨fun _ => t, rfl, ?_, ?_⟩
      · rintro a ha' (rfl | h'); exact ht; omega
      · rintro a ha' (rfl | h') b hb' (rfl | h') <;> try omega
        right; rw [h.diag _ ha']; omega
    | succ m ih =>
      intro hm
      obtain ⟨τ, h0, h1, h2⟩ := ih (by omega)
      by_cases c : m = j
      · exact ⟨τ, h0, fun a ha ha' => h1 a ha (by omega), fun a ha ha' b hb hb' => h2 a ha (by omega) b hb (by omega)⟩
      · obtain ⟨x, hx⟩ := exists_between
          (fun s => if s = n then (if lo m ≠ -INF then some (lo m) else none) else
            if (s = j ∨ s < m) ∧ M s m ≠ -INF then some (τ s + M s m) else none)
          (fun s => if s = n then (if hi m ≠ INF then some (hi m) else none) else
            if (s = j ∨ s < m) ∧ M m s ≠ -INF then some (τ s - M m s) else none) (n + 1) (by
            intro s hs s' hs' a ea b eb
            have wm := (ha.wf m (by omega)).le
            by_cases cs : s = n
            · rw [if_pos cs] at ea
              split at ea
              · injection ea with ea
                by_cases cs' : s' = n
                · rw [if_pos cs'] at eb
                  split at eb
                  · injection eb with eb
                    simp only at wm
                    omega
                  · cases eb
                · rw [if_neg cs'] at eb
                  split at eb
                  · injection eb with eb
                    rename_i p q
                    have := ha.low m (by omega) s' (by omega) p q.2
                    have := (h1 s' (by omega) q.1).1
                    simp only at this
                    omega
                  · cases eb
              · cases ea
            · rw [if_neg cs] at ea
              split at ea
              · injection ea with ea
                rename_i p
                by_cases cs' : s' = n
                · rw [if_pos cs'] at eb
                  split at eb
                  · injection eb with eb
                    rename_i q
                    have := ha.high s (by omega) m (by omega) q p.2
                    have := (h1 s (by omega) p.1).2
                    simp only at this
                    omega
                  · cases eb
                · rw [if_neg cs'] at eb
                  split at eb
                  · injection eb with eb
                    rename_i q
                    have t := h.tri s (by omega) m (by omega) s' (by omega) p.2 q.2
                    rcases h2 s (by omega) p.1 s' (by omega) q.1 with e | e
                    · exact absurd e t.1
                    · omega
                  · cases eb
              · cases ea)
        refine ⟨fun k => if k = m then x else τ k, ?_, ?_, ?_⟩
        · simp only [if_neg (fun e : j = m => c e.symm)]; exact h0
        · intro a ha1 ha2
          by_cases cm : a = m
          · simp only [if_pos cm]
            obtain ⟨p, q⟩ := hx n (by omega)
            simp only [if_true] at p q
            rw [cm]
            constructor
            · by_cases c1 : lo m = -INF
              · exact Or.inl c1
              · exact Or.inr (p (lo m) (by rw [if_pos c1]))
            · by_cases c1 : hi m = INF
              · exact Or.inl c1
              · exact Or.inr (q (hi m) (by rw [if_pos c1]))
          · simp only [if_neg cm]
            exact h1 a ha1 (by omega)
        · intro a ha1 ha2 b hb1 hb2
          by_cases ca : a = m
          · by_cases cb : b = m
            · right; rw [ca, cb, h.diag m (by omega)]; simp
            · simp only [if_pos ca, if_neg cb]
              by_cases c1 : M a b = -INF
              · exact Or.inl c1
              · right
                have := (hx b (by omega)).2 (τ b - M m b) (by
                  rw [if_neg (by omega), if_pos ⟨by omega, by rw [← ca]; exact c1⟩])
                rw [ca]; omega
          · by_cases cb : b = m
            · simp only [if_neg ca, if_pos cb]
              by_cases c1 : M a b = -INF
              · exact Or.inl c1
              · right
                have := (hx a (by omega)).1 (τ a + M a m) (by
                  rw [if_neg (by omega), if_pos ⟨by omega, by rw [← cb]; exact c1⟩])
                rw [cb]; omega
            · simp only [if_neg ca, if_neg cb]
              exact h2 a ha1 (by omega) b hb1 (by omega)
  obtain ⟨τ, h0, h1, h2⟩ := key n (Nat.le_refl _)
  exact ⟨τ, fun a ha b hb => h2 a ha (Or.inr ha) b hb (Or.inr hb), h0, fun k hk => h1 k hk (Or.inr hk)⟩

/-- the common part of two intervals -/
def meetIv (p q : Iv) : Iv := ⟨max p.lower q.lower, min p.upper q.upper⟩

theorem inExt_meet {p q : Iv} (hp : WF p) (hq : WF q) (t : Int) : InExt t (meetIv p q) ↔ InExt t p ∧ InExt t q := by
  obtain ⟨a1, a2, a3, a4, a5⟩ := hp
  obtain ⟨b1, b2, b3, b4, b5⟩ := hq
  simp only [InExt, meetIv]
  omega

theorem meet_wf {p q : Iv} (hp : WF p) (hq : WF q) {t : Int} (h1 : InExt t p) (h2 : InExt t q) : WF (meetIv p q) := by
  obtain ⟨a1, a2, a3, a4, a5⟩ := hp
  obtain ⟨b1, b2, b3, b4, b5⟩ := hq
  simp only [InExt] at h1 h2
  constructor <;> simp only [meetIv] <;> omega

theorem meet_noTouch {p q : Iv} (hp : WF p) (hq : WF q) {t : Int} (h1 : InExt t p) (h2 : InExt t q) : NoTouch [p] [q] := by
  obtain ⟨a1, a2, a3, a4, a5⟩ := hp
  obtain ⟨b1, b2, b3, b4, b5⟩ := hq
  simp only [InExt] at h1 h2
  intro i hi j hj
  rw [List.mem_singleton.1 hi, List.mem_singleton.1 hj]
  omega

/-- the span from `i` to `j` -/
def spanOf (M : Mat) (i j : Nat) : Iv := ⟨M i j, -M j i⟩

/-- the interval of `j` after instant `i` has been restricted to `x` -/
def newIv (M : Mat) (lo hi : Nat → Int) (i : Nat) (x : Iv) (j : Nat) : Iv :=
  if j = i then x else meetIv ⟨lo j, hi j⟩ (sumIv x (spanOf M i j))

theorem spanOf_wf {n : Nat} {M : Mat} (hC : Closed n M) {B : Int} (hS : SmallMat B n M) (hB : B < INF) {i j : Nat} (hi : i < n)
    (hj : j < n) : WF (spanOf M i j) := by
  have s1 := hS i hi j hj
  have s2 := hS j hj i hi
  have := fun h1 h2 => hC.anti hi hj h1 h2
  have : (0 : Int) < INF := by decide
  simp only [Small] at s1 s2
  constructor <;> simp only [spanOf] <;> omega

theorem sumIv_span_wf {n : Nat} {M : Mat} (hC : Closed n M) {B V : Int} (hS : SmallMat B n M) (hB : V + B < INF) (hV0 : 0 ≤ V)
    {i j : Nat} (hi : i < n) (hj : j < n) {x : Iv} (hx : WF x)
    (hV : (x.lower = -INF ∨ (-V ≤ x.lower ∧ x.lower ≤ V)) ∧ (x.upper = INF ∨ (-V ≤ x.upper ∧ x.upper ≤ V))) :
    WF (sumIv x (spanOf M i j)) ∧ ∀ t, InExt t (sumIv x (spanOf M i j)) ↔ ∃ a, InExt a x ∧ InExt (t - a) (spanOf M i j) := by
  have s1 := hS i hi j hj
  have s2 := hS j hj i hi
  obtain ⟨-, h1, h2⟩ := addSpan_sum false hx (spanOf_wf hC hS (by omega) hi hj) (fits_of_within hB hV (by
    simp only [spanOf, Small] at *; omega))
  refine ⟨h1, fun t => (h2 t).trans ⟨?_, ?_⟩⟩
  · rintro ⟨a, b, ha, hb, rfl⟩; exact ⟨a, ha, by rwa [show a + b - a = b by omega]⟩
  · rintro ⟨a, ha, hb⟩; exact ⟨a, t - a, ha, hb, by omega⟩

theorem newIv_eq {n : Nat} {M : Mat} {lo hi : Nat → Int} (hC : Closed n M) {i : Nat} (hi' : i < n) {x : Iv}
    (hx1 : lo i ≤ x.lower) (hx2 : x.upper ≤ hi i) (j : Nat) :
    newIv M lo hi i x j = meetIv ⟨lo j, hi j⟩ (sumIv x (spanOf M i j)) := by
  unfold newIv
  split
  · rename_i e
    have : spanOf M i j = ⟨0, 0⟩ := by
      rw [e]; simp only [spanOf, hC.diag i hi']; rfl
    rw [this, sumIv_zero, e]
    cases x
    simp only [meetIv, Iv.mk.injEq] at *
    omega
  · rfl

theorem sumLo (M : Mat) (i j : Nat) (x : Iv) :
    ((x.lower = -INF ∨ M i j = -INF) ∧ (sumIv x (spanOf M i j)).lower = -INF) ∨
    (¬ (x.lower = -INF ∨ M i j = -INF) ∧ (sumIv x (spanOf M i j)).lower = x.lower + M i j) := by
  by_cases c : x.lower = -INF ∨ M i j = -INF
  · exact Or.inl ⟨c, if_pos c⟩
  · exact Or.inr ⟨c, if_neg c⟩

theorem sumHi (M : Mat) (i j : Nat) (x : Iv) :
    ((x.upper = INF ∨ M j i = -INF) ∧ (sumIv x (spanOf M i j)).upper = INF) ∨
    (¬ (x.upper = INF ∨ M j i = -INF) ∧ (sumIv x (spanOf M i j)).upper = x.upper - M j i) := by
  by_cases c : x.upper = INF ∨ M j i = -INF
  · exact Or.inl ⟨c, if_pos (c.imp id (fun e => by show -M j i = INF; rw [e]; rfl))⟩
  · refine Or.inr ⟨c, (if_neg ?_).trans ?_⟩
    · rintro (h | h)
      · exact c (Or.inl h)
      · exact c (Or.inr (by have : -M j i = INF := h; omega))
    · show x.upper + -M j i = _; omega

theorem Arc.update {n : Nat} {M : Mat} {lo hi : Nat → Int} (hC : Closed n M) (ha : Arc n M lo hi) {B V : Int}
    (hS : SmallMat B n M) (hB : V + B < INF) (hV0 : 0 ≤ V) {i : Nat} (hi' : i < n) {x : Iv} (hx : WF x)
    (hx1 : lo i ≤ x.lower) (hx2 : x.upper ≤ hi i)
    (hV : (x.lower = -INF ∨ (-V ≤ x.lower ∧ x.lower ≤ V)) ∧ (x.upper = INF ∨ (-V ≤ x.upper ∧ x.upper ≤ V))) :
    Arc n M (fun j => (newIv M lo hi i x j).lower) (fun j => (newIv M lo hi i x j).upper) := by
  obtain ⟨t0, ht0, hin⟩ := hx.exists_date
  have hin' : InExt t0 ⟨lo i, hi i⟩ := ⟨Or.inr (by simp only [InIv] at *; omega), Or.inr (by simp only [InIv] at *; omega)⟩
  have hin'' : InExt t0 x := ⟨Or.inr hin.1, Or.inr hin.2⟩
  obtain ⟨τ, hτ, hτi, hτk⟩ := ha.attain hC hi' hin'
  have hcom : ∀ j, j < n → InExt (τ j) (sumIv x (spanOf M i j)) := by
    intro j hj
    refine ((sumIv_span_wf hC hS hB hV0 hi' hj hx hV).2 _).2 ⟨t0, hin'', ?_⟩
    have a1 := hτ i hi' j hj
    have a2 := hτ j hj i hi'
    simp only [InExt, spanOf]
    rw [hτi] at a1 a2
    omega
  have eq := newIv_eq (M := M) (lo := lo) (hi := hi) hC hi' hx1 hx2
  constructor
  · intro j hj
    show WF (newIv M lo hi i x j)
    rw [eq]
    exact meet_wf (ha.wf j hj) (sumIv_span_wf hC hS hB hV0 hi' hj hx hV).1 (hτk j hj) (hcom j hj)
  · intro j hj k hk
    simp only [eq, meetIv]
    intro h1 h2
    have l := fun h => ha.low j hj k hk h h2
    have t := fun h => hC.tri i hi' j hj k hk h h2
    have s1 := hS i hi' j hj
    have s2 := hS i hi' k hk
    have b := (ha.wf j hj).lo
    have b' := (ha.wf k hk).lo
    have u1 := sumLo M i j x
    have u2 := sumLo M i k x
    simp only [Small] at s1 s2 b b'
    generalize (sumIv x (spanOf M i j)).lower = p1 at *
    generalize (sumIv x (spanOf M i k)).lower = p2 at *
    clear hτ hcom hτk eq hin hin' hin'' hτi ht0
    rcases u1 with ⟨c1, u1⟩ | ⟨c1, u1⟩
    · have := l (by omega)
      omega
    · have t := t (by omega)
      have u2 : p2 = x.lower + M i k := by omega
      by_cases c2 : lo j = -INF
      · omega
      · have := l c2; omega
  · intro j hj k hk
    simp only [eq, meetIv]
    intro h1 h2
    have l := fun h => ha.high j hj k hk h h2
    have t := fun h => hC.tri j hj k hk i hi' h2 h
    have s1 := hS k hk i hi'
    have s2 := hS j hj i hi'
    have b := (ha.wf j hj).hi
    have b' := (ha.wf k hk).hi
    have u1 := sumHi M i k x
    have u2 := sumHi M i j x
    simp only [Small] at s1 s2 b b'
    generalize (sumIv x (spanOf M i j)).upper = p1 at *
    generalize (sumIv x (spanOf M i k)).upper = p2 at *
    clear hτ hcom hτk eq hin hin' hin'' hτi ht0
    rcases u1 with ⟨c1, u1⟩ | ⟨c1, u1⟩
    · have := l (by omega)
      omega
    · have t := t (by omega)
      have u2 : p1 = x.upper - M j i := by omega
      by_cases c2 : hi k = INF
      · omega
      · have := l c2; omega

theorem newIv_small {n : Nat} {M : Mat} {lo hi : Nat → Int} (hC : Closed n M) (ha : Arc n M lo hi) {B W : Int}
    (hS : SmallMat B n M) (hB0 : 0 ≤ B) {i j : Nat} (hi' : i < n) (hj : j < n) {x : Iv}
    (hx1 : lo i ≤ x.lower) (hx2 : x.upper ≤ hi i)
    (h3 : x.lower = lo i ∨ x.lower = -INF ∨ (-W ≤ x.lower ∧ x.lower ≤ W))
    (h4 : x.upper = hi i ∨ x.upper = INF ∨ (-W ≤ x.upper ∧ x.upper ≤ W)) (b : WithinSet (W + B) [⟨lo j, hi j⟩]) :
    WithinSet (W + B) [newIv M lo hi i x j] := by
  intro y hy
  rw [List.mem_singleton.1 hy, newIv_eq hC hi' hx1 hx2]
  have b1 := b _ (List.mem_singleton.2 rfl)
  have u1 := sumLo M i j x
  have u2 := sumHi M i j x
  have s1 := hS i hi' j hj
  have s2 := hS j hj i hi'
  have l := ha.low i hi' j hj
  have l' := ha.high j hj i hi'
  obtain ⟨g1, g2, g3, g4, g5⟩ := ha.wf j hj
  clear ha hC hS b hy
  simp only [Small] at *
  simp only [meetIv]
  generalize (sumIv x (spanOf M i j)).lower = p1 at *
  generalize (sumIv x (spanOf M i j)).upper = p2 at *
  constructor
  · rcases u1 with ⟨-, u1⟩ | ⟨c, u1⟩
    · clear u2 l l' s1 s2 h3 h4; omega
    · rcases h3 with q | q
      · have := l (by clear u2 l' s1 s2 h4 b1; omega) (by clear u2 l' s2 h4 b1; omega)
        clear u2 l l' s1 s2 h4; omega
      · clear u2 l l' s2 h4; omega
  · rcases u2 with ⟨-, u2⟩ | ⟨c, u2⟩
    · clear u1 l l' s1 s2 h3 h4; omega
    · rcases h4 with q | q
      · have := l' (by clear u1 l l' s1 s2 h3 b1; omega) (by clear u1 l l' s1 h3 b1; omega)
        clear u1 l l' s1 s2 h3; omega
      · clear u1 l l' s1 h3; omega

/-! ## Schedules -/

/-- a schedule made of one interval for each instant, consistent with the graph -/
structure ConvSched (V : Int) (s : Sched) (lo hi : Nat → Int) : Prop where
  len : s.schedule.length = s.graph.size
  get : ∀ j, j < s.graph.size → s.schedule[j]? = some [⟨lo j, hi j⟩]
  arc : Arc s.graph.size (mat s.graph) lo hi
  small : ∀ j, j < s.graph.size → WithinSet V [⟨lo j, hi j⟩]

theorem ConvSched.slot {V : Int} {s : Sched} {lo hi : Nat → Int} (h : ConvSched V s lo hi) {j : Nat} (hj : j < s.graph.size)
    (t : Int) : Slot s j t ↔ InExt t ⟨lo j, hi j⟩ := by
  rw [slot_get (h.get j hj), extSet_one]

theorem ConvSched.canon {V : Int} {s : Sched} {lo hi : Nat → Int} (h : ConvSched V s lo hi) : CanonSched s := by
  refine ⟨h.len, fun w hw => ?_⟩
  obtain ⟨j, hj⟩ := List.mem_iff_getElem?.1 hw
  have hl : j < s.graph.size := by
    rw [List.getElem?_eq_some_iff] at hj
    rw [← h.len]; exact hj.1
  rw [h.get j hl] at hj
  cases hj
  exact canon_one (h.arc.wf j hl)

theorem ConvSched.within {V : Int} {s : Sched} {lo hi : Nat → Int} (h : ConvSched V s lo hi) : WithinSched V s := by
  intro w hw
  obtain ⟨j, hj⟩ := List.mem_iff_getElem?.1 hw
  have hl : j < s.graph.size := by
    rw [List.getElem?_eq_some_iff] at hj
    rw [← h.len]; exact hj.1
  rw [h.get j hl] at hj
  cases hj
  exact h.small j hl

theorem ConvSched.attain {V : Int} {s : Sched} {lo hi : Nat → Int} (h : ConvSched V s lo hi) (hv : Valid s.graph)
    (hm : Minimal s.graph) {j : Nat} (hj : j < s.graph.size) {t : Int} (ht : Slot s j t) : ∃ τ, Feasible τ s ∧ τ j = t := by
  rw [h.slot hj] at ht
  obtain ⟨τ, h1, h2, h3⟩ := h.arc.attain ((minimal_iff hv).1 hm) hj ht
  exact ⟨τ, ⟨(sat_iff hv τ).2 h1, fun k hk => (h.slot hk _).2 (h3 k hk)⟩, h2⟩

theorem retain_conv (dbg : Bool) {s : Sched} (hv : Valid s.graph) (hm : Minimal s.graph) {B W : Int} (hg : Within B s.graph)
    (hB0 : 0 ≤ B) (hW0 : 0 ≤ W) (hB : W + 2 * B < INF) {lo hi : Nat → Int} (hc : ConvSched (W + B) s lo hi) {i : Nat} {w : Convex}
    (hu : (PlanCall.retain i w).Ok s.graph.size W) :
    ∃ s' o, s.retain dbg i (.conv w) = .ok (s', o) ∧ s'.graph = s.graph ∧ (∃ lo' hi', ConvSched (W + B) s' lo' hi') ∧
      ((o = .recovered ∧ s' = s ∧ ¬ ∃ t, Slot s i t ∧ InExtConvex t w) ∨
       ((o = .unchanged ∨ o = .propagated) ∧ (∃ t, Slot s i t ∧ InExtConvex t w) ∧ (∀ t, Slot s' i t → InExtConvex t w))) := by
  obtain ⟨hi', hp, hne, hww⟩ := hu
  have hC := (minimal_iff hv).1 hm
  have hS := small_of_within hv hg
  have hcan := hc.canon
  have hwin := hc.within
  have e := hc.get i hi'
  have wi := hc.arc.wf i hi'
  have ci : Canon [⟨lo i, hi i⟩] := canon_one wi
  have hcon := contains_ext (w := .conv w) hp ci
  have hov := overlaps_ext (w := .conv w) hp ci (fun v e => by cases e; exact Or.inl hne)
  have conv : (∃ t, Slot s i t ∧ InExtConvex t w) ↔ ∃ t, InExtSet t [⟨lo i, hi i⟩] ∧ InExtWindow t (.conv w) := by
    constructor
    · rintro ⟨t, h1, h2⟩; exact ⟨t, (slot_get e t).1 h1, h2⟩
    · rintro ⟨t, h1, h2⟩; exact ⟨t, (slot_get e t).2 h1, h2⟩
  rw [conv]
  by_cases c1 : Window.containsSet (.conv w) [⟨lo i, hi i⟩] = true
  · refine ⟨s, .unchanged, by rw [retain_test dbg e, if_pos c1], rfl, ⟨lo, hi, hc⟩, Or.inr ⟨Or.inl rfl, ?_, ?_⟩⟩
    · obtain ⟨t, -, ht⟩ := canon_nonempty ci (by simp)
      exact ⟨t, ht, hcon.1 c1 t ht⟩
    · intro t ht; exact hcon.1 c1 t ((slot_get e t).1 ht)
  by_cases c2 : Window.overlapsSet (.conv w) [⟨lo i, hi i⟩] = true
  · have hin := (not_congr hcon).1 c1
    obtain ⟨s', r, a1, a2, a3, a4, a5, a6, a7, a8⟩ := retain_ext dbg hv (hC.zeroDiag hv) (spanned_of_sat hm.1 (by omega) hg) hcan hg hwin
      (by omega) hi' e (w := .conv w) hp (withinWindow_mono (by omega) hww) trivial hin (hov.1 c2)
    refine ⟨s', _, a1, a2, ?_, Or.inr ⟨Or.inr rfl, hov.1 c2, fun t ht => ((a7 t).1 ((slot_get a4 t).1 ht)).2⟩⟩
    rcases extConvex_cases hp with ⟨-, -, -, f4⟩ | ⟨f1, f2, f3, f4⟩
    · obtain ⟨t, ht⟩ := hne; exact absurd ht (f4 t)
    obtain ⟨t1, ht1, ht2⟩ := hov.1 c2
    rw [extSet_one] at ht1
    have ht2 := (f3 t1).1 ht2
    have wx := meet_wf wi f2 ht1 ht2
    have er : r = [meetIv ⟨lo i, hi i⟩ ⟨w.lower, w.upper⟩] := canon_extSet a5 (canon_one wx) (fun t => by
      rw [a7, extSet_one, extSet_one, inExt_meet wi f2]
      exact and_congr_right fun _ => f3 t)
    have ww := f4 W hww _ (List.mem_singleton.2 rfl)
    generalize hx : meetIv ⟨lo i, hi i⟩ ⟨w.lower, w.upper⟩ = x at *
    have hx1 : lo i ≤ x.lower ∧ x.upper ≤ hi i ∧ (x.lower = lo i ∨ x.lower = w.lower) ∧ (x.upper = hi i ∨ x.upper = w.upper) := by
      rw [← hx]; simp only [meetIv]; omega
    have hV : (x.lower = -INF ∨ (-(W + B) ≤ x.lower ∧ x.lower ≤ W + B)) ∧ (x.upper = INF ∨ (-(W + B) ≤ x.upper ∧ x.upper ≤ W + B)) := by
      have := hc.small i hi' _ (List.mem_singleton.2 rfl)
      simp only at this ww
      omega
    have harc := hc.arc.update hC hS (V := W + B) (by omega) (by omega) hi' wx hx1.1 hx1.2.1 hV
    refine ⟨_, _, ⟨by rw [a3, a2]; exact hc.len, fun j hj => ?_, by rw [a2]; exact harc, fun j hj => ?_⟩⟩
    · rw [a2] at hj
      show _ = some [newIv (mat s.graph) lo hi i x j]
      by_cases cj : j = i
      · rw [cj, a4, er, newIv, if_pos rfl]
      · obtain ⟨v, v', sp, e1, e2, e3, e4⟩ := a8 j hj cj
        rw [hc.get j hj] at e1
        cases e1
        rw [e2]
        rw [timespan_eq hv hi' hj] at e3
        cases e3
        rw [newIv_eq hC hi' hx1.1 hx1.2.1]
        have wj := hc.arc.wf j hj
        obtain ⟨k1, k2⟩ := sumIv_span_wf hC hS (V := W + B) (by omega) (by omega) hi' hj wx hV
        have hr : ∀ a, InExtSet a r ↔ InExt a x := fun a => by rw [er, extSet_one]
        have wn := harc.wf j hj
        have wn : WF (newIv (mat s.graph) lo hi i x j) := wn
        rw [newIv_eq hC hi' hx1.1 hx1.2.1] at wn
        obtain ⟨t2, ht2, hin2⟩ := wn.exists_date
        have hin2 : InExt t2 (meetIv ⟨lo j, hi j⟩ (sumIv x (spanOf (mat s.graph) i j))) := ⟨Or.inr hin2.1, Or.inr hin2.2⟩
        rw [inExt_meet wj k1] at hin2
        have cv : Canon v' := e4.canon [sumIv x (spanOf (mat s.graph) i j)] (canon_one k1) (fun t => by
          rw [extSet_one, k2]
          exact exists_congr fun a => and_congr_left fun _ => (hr a).symm) (meet_noTouch wj k1 hin2.1 hin2.2)
        refine congrArg some (canon_extSet cv (canon_one wn) (fun t => ?_))
        rw [e4.pts, extSet_one, extSet_one, inExt_meet wj k1, k2]
        exact and_congr_right fun _ => exists_congr fun a => and_congr_left fun _ => hr a
    · rw [a2] at hj
      show WithinSet _ [newIv (mat s.graph) lo hi i x j]
      exact newIv_small hC hc.arc hS hB0 hi' hj hx1.1 hx1.2.1
        (hx1.2.2.1.imp id fun q => by rw [q]; exact ww.1) (hx1.2.2.2.imp id fun q => by rw [q]; exact ww.2) (hc.small j hj)
  · refine ⟨s, .recovered, by rw [retain_test dbg e, if_neg c1, if_pos (by simpa using c2)], rfl, ⟨lo, hi, hc⟩, Or.inl ⟨rfl, rfl, ?_⟩⟩
    rw [← hov]; exact c2

/-! ## Feasible assignments -/

theorem ConvSched.exists_feasible {V : Int} {s : Sched} {lo hi : Nat → Int} (h : ConvSched V s lo hi) (hv : Valid s.graph)
    (hm : Minimal s.graph) : ∃ τ, Feasible τ s := by
  rcases Nat.eq_zero_or_pos s.graph.size with h0 | h0
  · exact ⟨fun _ => 0, fun i j hi => by omega, fun i hi => by omega⟩
  · obtain ⟨t, -, ht⟩ := (h.arc.wf 0 h0).exists_date
    obtain ⟨τ, h1, -⟩ := h.attain hv hm h0 (t := t) ((h.slot h0 t).2 ⟨Or.inr ht.1, Or.inr ht.2⟩)
    exact ⟨τ, h1⟩

/-- one of two points -/
theorem inExt_either {i : Iv} {a b c : Int} (ha : InExt a i) (hb : InExt b i) (h : c = a ∨ c = b) : InExt c i := by
  rcases h with rfl | rfl <;> assumption

theorem feasible_min {V : Int} {s : Sched} {lo hi : Nat → Int} (h : ConvSched V s lo hi) (hv : Valid s.graph) {σ τ : Nat → Int}
    (hσ : Feasible σ s) (hτ : Feasible τ s) : Feasible (fun j => min (σ j) (τ j)) s := by
  constructor
  · have a := (sat_iff hv σ).1 hσ.1
    have b := (sat_iff hv τ).1 hτ.1
    refine (sat_iff hv _).2 (fun i hi j hj => ?_)
    have a := a i hi j hj
    have b := b i hi j hj
    omega
  · intro j hj
    rw [h.slot hj]
    exact inExt_either ((h.slot hj _).1 (hσ.2 j hj)) ((h.slot hj _).1 (hτ.2 j hj)) (by simp only; omega)

theorem feasible_max {V : Int} {s : Sched} {lo hi : Nat → Int} (h : ConvSched V s lo hi) (hv : Valid s.graph) {σ τ : Nat → Int}
    (hσ : Feasible σ s) (hτ : Feasible τ s) : Feasible (fun j => max (σ j) (τ j)) s := by
  constructor
  · have a := (sat_iff hv σ).1 hσ.1
    have b := (sat_iff hv τ).1 hτ.1
    refine (sat_iff hv _).2 (fun i hi j hj => ?_)
    have a := a i hi j hj
    have b := b i hi j hj
    omega
  · intro j hj
    rw [h.slot hj]
    exact inExt_either ((h.slot hj _).1 (hσ.2 j hj)) ((h.slot hj _).1 (hτ.2 j hj)) (by simp only; omega)

/-- if each instant can be scheduled by `d`, all can be together -/
theorem common_deadline {V : Int} {s : Sched} {lo hi : Nat → Int} (h : ConvSched V s lo hi) (hv : Valid s.graph)
    (hm : Minimal s.graph) {d : Int} (hd : ∀ j, j < s.graph.size → ∃ t, Slot s j t ∧ t ≤ d) :
    ∃ τ, Feasible τ s ∧ ∀ j, j < s.graph.size → τ j ≤ d := by
  have key : ∀ m, m ≤ s.graph.size → ∃ τ, Feasible τ s ∧ ∀ j, j < m → τ j ≤ d := by
    intro m
    induction m with
    | zero =>
      intro _
      obtain ⟨τ, h1⟩ := h.exists_feasible hv hm
      exact ⟨τ, h1, fun j hj => by omega⟩
    | succ m ih =>
      intro hm'
      obtain ⟨τ, h1, h2⟩ := ih (by omega)
      obtain ⟨t, ht, htd⟩ := hd m (by omega)
      obtain ⟨σ, h3, h4⟩ := h.attain hv hm (by omega) ht
      refine ⟨_, feasible_min h hv h1 h3, fun j hj => ?_⟩
      by_cases c : j = m
      · subst c; omega
      · have := h2 j (by omega); omega
  exact key _ (Nat.le_refl _)

theorem common_startline {V : Int} {s : Sched} {lo hi : Nat → Int} (h : ConvSched V s lo hi) (hv : Valid s.graph)
    (hm : Minimal s.graph) {d : Int} (hd : ∀ j, j < s.graph.size → ∃ t, Slot s j t ∧ d ≤ t) :
    ∃ τ, Feasible τ s ∧ ∀ j, j < s.graph.size → d ≤ τ j := by
  have key : ∀ m, m ≤ s.graph.size → ∃ τ, Feasible τ s ∧ ∀ j, j < m → d ≤ τ j := by
    intro m
    induction m with
    | zero =>
      intro _
      obtain ⟨τ, h1⟩ := h.exists_feasible hv hm
      exact ⟨τ, h1, fun j hj => by omega⟩
    | succ m ih =>
      intro hm'
      obtain ⟨τ, h1, h2⟩ := ih (by omega)
      obtain ⟨t, ht, htd⟩ := hd m (by omega)
      obtain ⟨σ, h3, h4⟩ := h.attain hv hm (by omega) ht
      refine ⟨_, feasible_max h hv h1 h3, fun j hj => ?_⟩
      by_cases c : j = m
      · subst c; omega
      · have := h2 j (by omega); omega
  exact key _ (Nat.le_refl _)

/-- what a call does to a schedule of intervals -/
structure PlanStep (V : Int) (s : Sched) (A : (Nat → Int) → Prop) (s' : Sched) (o : Outcome) : Prop where
  graph : s'.graph = s.graph
  conv : ∃ lo hi, ConvSched V s' lo hi
  result : (o = .recovered ∧ s' = s ∧ ¬ ∃ τ, Feasible τ s ∧ A τ) ∨
    ((o = .unchanged ∨ o = .propagated) ∧ (o = .unchanged → s' = s) ∧ (∃ τ, Feasible τ s ∧ A τ) ∧
      ∀ τ, Feasible τ s' ↔ Feasible τ s ∧ A τ)

theorem retain_plan (dbg : Bool) {s : Sched} (hv : Valid s.graph) (hm : Minimal s.graph) {B W : Int} (hg : Within B s.graph)
    (hB0 : 0 ≤ B) (hW0 : 0 ≤ W) (hB : W + 2 * B < INF) {lo hi : Nat → Int} (hc : ConvSched (W + B) s lo hi) {i : Nat} {w : Convex}
    (hu : (PlanCall.retain i w).Ok s.graph.size W) :
    ∃ s' o, s.retain dbg i (.conv w) = .ok (s', o) ∧ PlanStep (W + B) s (fun τ => InExtConvex (τ i) w) s' o := by
  obtain ⟨s', o, h1, h2, h3, h4⟩ := retain_conv dbg hv hm hg hB0 hW0 hB hc hu
  refine ⟨s', o, h1, h2, h3, ?_⟩
  obtain ⟨hi', hp, hne, hww⟩ := hu
  rcases h4 with ⟨e1, e2, e3⟩ | ⟨e1, ⟨t, ht1, ht2⟩, e3⟩
  · refine Or.inl ⟨e1, e2, ?_⟩
    rintro ⟨τ, hτ, hw⟩
    exact e3 ⟨τ i, hτ.2 i hi', hw⟩
  · right
    obtain ⟨τ, hτ, ht⟩ := hc.attain hv hm hi' ht1
    rcases retain_loose dbg hv ((minimal_iff hv).1 hm |>.zeroDiag hv) (spanned_of_sat hm.1 (by omega) hg) (s := s)
      ⟨hc.len, fun w h => (hc.canon.2 w h).loose⟩ hg hc.within (by omega) hB0 hi' (w := .conv w) hp
      (withinWindow_mono (by omega) hww) with ⟨s1, o1, a1, a2, a3, a4, a5, a6, a7, a8, a9⟩ | ⟨-, h⟩
    · rw [h1] at a1
      cases a1
      refine ⟨e1, fun e => a6 (Or.inr e), ⟨τ, hτ, by simp only [ht]; exact ht2⟩, fun σ => ⟨fun hσ => ?_, fun hσ => ?_⟩⟩
      · refine ⟨⟨by rw [← h2]; exact hσ.1, fun j hj => a7 j _ (hσ.2 j (by rw [h2]; exact hj))⟩, ?_⟩
        exact e3 _ (hσ.2 i (by rw [h2]; exact hi'))
      · refine ⟨by rw [h2]; exact hσ.1.1, fun j hj => ?_⟩
        rw [h2] at hj
        exact a9 σ hσ.1.1 hσ.1.2 hσ.2 j hj
    · rw [h1] at h; cases h

/-- the loop of `set_deadline` and `set_startline` -/
theorem retainAll_plan (dbg : Bool) {B W : Int} (hB0 : 0 ≤ B) (hW0 : 0 ≤ W) (hB : W + 2 * B < INF) {w : Convex}
    (hp : Proper w) (hne : ∃ t, InExtConvex t w) (hww : WithinConvex W w) : ∀ (l : List Nat) (s : Sched) (o : Outcome),
    Valid s.graph → Minimal s.graph → Within B s.graph → (∃ lo hi, ConvSched (W + B) s lo hi) → (∀ i ∈ l, i < s.graph.size) →
    (∃ τ, Feasible τ s ∧ ∀ i ∈ l, InExtConvex (τ i) w) →
    ∃ s' o', l.foldlM (fun (p : Sched × Outcome) i => do
        match ← Sched.retain dbg p.1 i (.conv w) with
        | (s, .unchanged) => return (s, p.2)
        | (s, .propagated) => return (s, .propagated)
        | _ => .error .unwrapNone) (s, o) = .ok (s', o') ∧ s'.graph = s.graph ∧ (∃ lo hi, ConvSched (W + B) s' lo hi) ∧
      (o' = o ∧ s' = s ∨ o' = .propagated) ∧
      ∀ τ, Feasible τ s' ↔ Feasible τ s ∧ ∀ i ∈ l, InExtConvex (τ i) w
  | [], s, o, _, _, _, hc, _, _ => ⟨s, o, rfl, rfl, hc, Or.inl ⟨rfl, rfl⟩, fun τ => by simp⟩
  | i :: l, s, o, hv, hm, hg, hc, hl, ⟨τ, hτ, hτl⟩ => by
    obtain ⟨lo, hi, hc⟩ := hc
    obtain ⟨s1, o1, h1, h2, h3, h4⟩ := retain_plan dbg hv hm hg hB0 hW0 hB hc (i := i) (w := w) ⟨hl i (by simp), hp, hne, hww⟩
    rcases h4 with ⟨-, -, h⟩ | ⟨e1, e2, -, e4⟩
    · exact absurd ⟨τ, hτ, hτl i (by simp)⟩ h
    · have hτ1 : Feasible τ s1 := (e4 τ).2 ⟨hτ, hτl i (by simp)⟩
      have rest := fun o => retainAll_plan dbg hB0 hW0 hB hp hne hww l s1 o (by rw [h2]; exact hv) (by rw [h2]; exact hm)
        (by rw [h2]; exact hg) h3 (fun j hj => by rw [h2]; exact hl j (by simp [hj]))
        ⟨τ, hτ1, fun j hj => hτl j (by simp [hj])⟩
      have fin : ∀ τ, (Feasible τ s1 ∧ ∀ i ∈ l, InExtConvex (τ i) w) ↔ Feasible τ s ∧ ∀ j ∈ i :: l, InExtConvex (τ j) w := by
        intro τ
        rw [e4, List.forall_mem_cons, and_assoc]
      rcases e1 with e1 | e1
      · obtain ⟨s2, o2, g1, g2, g3, g4, g5⟩ := rest o
        refine ⟨s2, o2, ?_, by rw [g2, h2], g3, ?_, fun τ => (g5 τ).trans (fin τ)⟩
        · subst e1
          rw [List.foldlM_cons]
          simp only [h1, ok_bind]
          exact g1
        · rw [← e2 e1]; exact g4
      · obtain ⟨s2, o2, g1, g2, g3, g4, g5⟩ := rest .propagated
        refine ⟨s2, o2, ?_, by rw [g2, h2], g3, Or.inr ?_, fun τ => (g5 τ).trans (fin τ)⟩
        · subst e1
          rw [List.foldlM_cons]
          simp only [h1, ok_bind]
          exact g1
        · rcases g4 with ⟨h, -⟩ | h <;> exact h

theorem any_schedule {V : Int} {s : Sched} {lo hi : Nat → Int} (h : ConvSched V s lo hi) (p : TSet → Bool) :
    s.schedule.any p = true ↔ ∃ j, j < s.graph.size ∧ p [⟨lo j, hi j⟩] = true := by
  rw [List.any_eq_true]
  constructor
  · rintro ⟨x, hx, hp⟩
    obtain ⟨j, hj⟩ := List.mem_iff_getElem?.1 hx
    have hl : j < s.graph.size := by
      rw [List.getElem?_eq_some_iff] at hj
      rw [← h.len]; exact hj.1
    rw [h.get j hl] at hj
    cases hj
    exact ⟨j, hl, hp⟩
  · rintro ⟨j, hj, hp⟩
    exact ⟨_, List.mem_of_getElem? (h.get j hj), hp⟩

theorem deadline_plan (dbg : Bool) {s : Sched} (hv : Valid s.graph) (hm : Minimal s.graph) {B W : Int} (hg : Within B s.graph)
    (hB0 : 0 ≤ B) (hW0 : 0 ≤ W) (hB : W + 2 * B < INF) {lo hi : Nat → Int} (hc : ConvSched (W + B) s lo hi) {d : Int}
    (hu : d = INF ∨ (-W ≤ d ∧ d ≤ W)) :
    ∃ s' o, s.setDeadline dbg d = .ok (s', o) ∧
      PlanStep (W + B) s (fun τ => ∀ j, j < s.graph.size → d = INF ∨ τ j ≤ d) s' o := by
  have hd : -INF < d := by omega
  unfold Sched.setDeadline
  split
  · rename_i h
    rw [any_schedule hc] at h
    obtain ⟨j, hj, h⟩ := h
    have h : d < lo j := by simpa [TSet.lowerBound] using h
    refine ⟨s, .recovered, rfl, rfl, ⟨lo, hi, hc⟩, Or.inl ⟨rfl, rfl, ?_⟩⟩
    rintro ⟨τ, h1, h2⟩
    have h2 := h2 j hj
    have h1 := ((hc.slot hj _).1 (h1.2 j hj)).1
    have := (hc.arc.wf j hj).lo_lt
    simp only at h1 this
    omega
  · rename_i h
    rw [any_schedule hc] at h
    have h : ∀ j, j < s.graph.size → lo j ≤ d := by
      intro j hj
      have : ¬ (d < lo j) := fun hlt => h ⟨j, hj, by simpa [TSet.lowerBound] using hlt⟩
      omega
    have hτ : ∃ τ, Feasible τ s ∧ ∀ j, j < s.graph.size → d = INF ∨ τ j ≤ d := by
      rcases hu with hu | hu
      · obtain ⟨τ, h1⟩ := hc.exists_feasible hv hm
        exact ⟨τ, h1, fun _ _ => Or.inl hu⟩
      · obtain ⟨τ, h1, h2⟩ := common_deadline hc hv hm (d := d) (by
          intro j hj
          have wf := hc.arc.wf j hj
          have a := wf.le; have b := wf.lo; have c := wf.hi; have e := wf.lo_lt; have f := wf.lt_hi
          simp only at a b c e f
          have := h j hj
          by_cases c : lo j = -INF
          · refine ⟨min (hi j) d, (hc.slot hj _).2 ⟨Or.inl c, Or.inr (by simp only; omega)⟩, by omega⟩
          · exact ⟨lo j, (hc.slot hj _).2 ⟨Or.inr (by simp only; omega), Or.inr (by simp only; omega)⟩, this⟩)
        exact ⟨τ, h1, fun j hj => Or.inr (h2 j hj)⟩
    have hmem : ∀ i, i ∈ List.range s.schedule.length ↔ i < s.graph.size := by
      intro i; rw [List.mem_range, hc.len]
    obtain ⟨s', o, g1, g2, g3, g4, g5⟩ := retainAll_plan dbg hB0 hW0 hB (w := .rangeToIncl d) (by
        show -INF < d ∧ d ≤ INF
        omega) ⟨d, Or.inr (Int.le_refl _)⟩ (by
        show d = INF ∨ _
        omega) (List.range s.schedule.length) s .unchanged hv hm hg ⟨lo, hi, hc⟩ (fun i hi => (hmem i).1 hi) (by
        obtain ⟨τ, h1, h2⟩ := hτ
        exact ⟨τ, h1, fun i hi => h2 i ((hmem i).1 hi)⟩)
    refine ⟨s', o, g1, g2, g3, Or.inr ⟨?_, ?_, hτ, fun τ => (g5 τ).trans ?_⟩⟩
    · rcases g4 with ⟨h, -⟩ | h
      · exact Or.inl h
      · exact Or.inr h
    · rintro rfl
      rcases g4 with ⟨-, h⟩ | h
      · exact h
      · cases h
    · simp only [hmem]
      exact Iff.rfl

theorem startline_plan (dbg : Bool) {s : Sched} (hv : Valid s.graph) (hm : Minimal s.graph) {B W : Int} (hg : Within B s.graph)
    (hB0 : 0 ≤ B) (hW0 : 0 ≤ W) (hB : W + 2 * B < INF) {lo hi : Nat → Int} (hc : ConvSched (W + B) s lo hi) {d : Int}
    (hu : d = -INF ∨ (-W ≤ d ∧ d ≤ W)) :
    ∃ s' o, s.setStartline dbg d = .ok (s', o) ∧
      PlanStep (W + B) s (fun τ => ∀ j, j < s.graph.size → d = -INF ∨ d ≤ τ j) s' o := by
  have hd : d < INF := by have : (0:Int) < INF := by decide
                          omega
  unfold Sched.setStartline
  split
  · rename_i h
    rw [any_schedule hc] at h
    obtain ⟨j, hj, h⟩ := h
    have h : hi j < d := of_decide_eq_true h
    refine ⟨s, .recovered, rfl, rfl, ⟨lo, hi, hc⟩, Or.inl ⟨rfl, rfl, ?_⟩⟩
    rintro ⟨τ, h1, h2⟩
    have h2 := h2 j hj
    have h1 := ((hc.slot hj _).1 (h1.2 j hj)).2
    have := (hc.arc.wf j hj).lt_hi
    simp only at h1 this
    omega
  · rename_i h
    rw [any_schedule hc] at h
    have h : ∀ j, j < s.graph.size → d ≤ hi j := by
      intro j hj
      have : ¬ (hi j < d) := fun hlt => h ⟨j, hj, decide_eq_true hlt⟩
      omega
    have hτ : ∃ τ, Feasible τ s ∧ ∀ j, j < s.graph.size → d = -INF ∨ d ≤ τ j := by
      rcases hu with hu | hu
      · obtain ⟨τ, h1⟩ := hc.exists_feasible hv hm
        exact ⟨τ, h1, fun _ _ => Or.inl hu⟩
      · obtain ⟨τ, h1, h2⟩ := common_startline hc hv hm (d := d) (by
          intro j hj
          have wf := hc.arc.wf j hj
          have a := wf.le; have b := wf.lo; have c := wf.hi; have e := wf.lo_lt; have f := wf.lt_hi
          simp only at a b c e f
          have := h j hj
          by_cases c : hi j = INF
          · refine ⟨max (lo j) d, (hc.slot hj _).2 ⟨Or.inr (by simp only; omega), Or.inl c⟩, by omega⟩
          · exact ⟨hi j, (hc.slot hj _).2 ⟨Or.inr (by simp only; omega), Or.inr (by simp only; omega)⟩, this⟩)
        exact ⟨τ, h1, fun j hj => Or.inr (h2 j hj)⟩
    have hmem : ∀ i, i ∈ List.range s.schedule.length ↔ i < s.graph.size := by
      intro i; rw [List.mem_range, hc.len]
    obtain ⟨s', o, g1, g2, g3, g4, g5⟩ := retainAll_plan dbg hB0 hW0 hB (w := .rangeFrom d) (by
        show -INF ≤ d ∧ d < INF
        omega) ⟨d, Or.inr (Int.le_refl _)⟩ (by
        show d = -INF ∨ _
        omega) (List.range s.schedule.length) s .unchanged hv hm hg ⟨lo, hi, hc⟩ (fun i hi => (hmem i).1 hi) (by
        obtain ⟨τ, h1, h2⟩ := hτ
        exact ⟨τ, h1, fun i hi => h2 i ((hmem i).1 hi)⟩)
    refine ⟨s', o, g1, g2, g3, Or.inr ⟨?_, ?_, hτ, fun τ => (g5 τ).trans ?_⟩⟩
    · rcases g4 with ⟨h, -⟩ | h
      · exact Or.inl h
      · exact Or.inr h
    · rintro rfl
      rcases g4 with ⟨-, h⟩ | h
      · exact h
      · cases h
    · simp only [hmem]
      exact Iff.rfl

theorem plan_step (dbg : Bool) {s : Sched} (hv : Valid s.graph) (hm : Minimal s.graph) {B W : Int} (hg : Within B s.graph)
    (hB0 : 0 ≤ B) (hW0 : 0 ≤ W) (hB : W + 2 * B < INF) {lo hi : Nat → Int} (hc : ConvSched (W + B) s lo hi) {c : PlanCall}
    (hu : c.Ok s.graph.size W) :
    ∃ s' o, c.run dbg s = .ok (s', o) ∧ PlanStep (W + B) s (fun τ => c.Allows s.graph.size τ) s' o := by
  cases c with
  | retain i w => exact retain_plan dbg hv hm hg hB0 hW0 hB hc hu
  | deadline d => exact deadline_plan dbg hv hm hg hB0 hW0 hB hc hu
  | startline d => exact startline_plan dbg hv hm hg hB0 hW0 hB hc hu

/-- an invariant of histories of convex constraints -/
theorem plan_history (dbg : Bool) {g : Graph} (hv : Valid g) (hm : Minimal g) {B W : Int} (hg : Within B g)
    (hB0 : 0 ≤ B) (hW0 : 0 ≤ W) (hB : W + 2 * B < INF) : ∀ (l : List PlanCall) (s : Sched), s.graph = g →
    (∃ lo hi, ConvSched (W + B) s lo hi) → (∀ c ∈ l, c.Ok g.size W) →
    ∃ s' acc, planAll dbg s l = .ok (s', acc) ∧ s'.graph = g ∧ (∃ lo hi, ConvSched (W + B) s' lo hi) ∧ (∀ c ∈ acc, c ∈ l) ∧
      ∀ τ, Feasible τ s' ↔ Feasible τ s ∧ ∀ c ∈ acc, c.Allows g.size τ
  | [], s, h, hc, _ => ⟨s, [], rfl, h, hc, by simp, fun τ => by simp⟩
  | c :: l, s, h, hc, hl => by
    obtain ⟨lo, hi, hc⟩ := hc
    subst h
    obtain ⟨s1, o, h1, h2, h3, h4⟩ := plan_step dbg hv hm hg hB0 hW0 hB hc (hl c (by simp))
    obtain ⟨s2, acc, g1, g2, g3, g4, g5⟩ := plan_history dbg hv hm hg hB0 hW0 hB l s1 h2 h3 (fun c hc => hl c (by simp [hc]))
    rcases h4 with ⟨e1, e2, -⟩ | ⟨e1, -, -, e4⟩
    · refine ⟨s2, acc, ?_, g2, g3, fun c hc => by simp [g4 c hc], fun τ => by rw [g5, e2]⟩
      subst e1
      unfold planAll
      simp only [h1, ok_bind, g1]
      rfl
    · refine ⟨s2, c :: acc, ?_, g2, g3, ?_, fun τ => by rw [g5, e4, List.forall_mem_cons, and_assoc]⟩
      · unfold planAll
        simp only [h1, ok_bind, g1]
        rcases e1 with rfl | rfl <;> rfl
      · intro x hx
        rcases List.mem_cons.1 hx with e | e
        · simp [e]
        · simp [g4 x e]

theorem new_conv (g : Graph) (V : Int) : ConvSched V (Sched.new g) (fun _ => -INF) (fun _ => INF) where
  len := (new_canon g).1
  get := fun j hj => by
    show (Sched.new g).schedule[j]? = some TSet.all
    simp only [Sched.new, List.getElem?_replicate]
    exact if_pos hj
  arc := {
    wf := fun j _ => by constructor <;> decide
    low := fun i j _ _ h => by simp at h
    high := fun i j _ _ h => by simp at h }
  small := fun j _ i hi => by
    have : i = ⟨-INF, INF⟩ := by simpa using hi
    rw [this]
    exact ⟨Or.inl rfl, Or.inl rfl⟩

theorem new_feasible (g : Graph) (τ : Nat → Int) : Feasible τ (Sched.new g) ↔ Sat τ g :=
  ⟨fun h => h.1, fun h => ⟨h, fun _ hj => new_slot g hj _⟩⟩

/-! ## Deadlines after windows of any kind -/

theorem callAll_within (dbg : Bool) {B W : Int} (hB0 : 0 ≤ B) : ∀ (calls : List Call) {s : Sched} {V : Int}, Valid s.graph →
    ZeroDiag s.graph → Spanned s.graph → LooseSched s → Within B s.graph → WithinSched V s → W ≤ V →
    V + calls.length * B < INF → (∀ c ∈ calls, c.Ok s.graph.size W) → ∀ {s' acc}, callAll dbg s calls = .ok (s', acc) →
    s'.graph = s.graph ∧ LooseSched s' ∧ WithinSched (V + calls.length * B) s'
  | [], s, V, _, _, _, hl, _, hV, _, _, _, s', acc, h => by
    cases h
    exact ⟨rfl, hl, by simpa using hV⟩
  | c :: calls, s, V, hv, hz, hs, hl, hg, hV, hWV, hB, hok, s', acc, h => by
    have e : V + ((c :: calls).length : Int) * B = V + B + calls.length * B := by
      rw [List.length_cons, Int.natCast_add, Int.add_mul]; omega
    rw [e] at hB ⊢
    have hn : 0 ≤ (calls.length : Int) * B := Int.mul_nonneg (by omega) hB0
    unfold callAll at h
    obtain ⟨⟨s1, o⟩, h1, h⟩ := bind_ok h
    obtain ⟨⟨s2, acc2⟩, h2, h⟩ := bind_ok h
    cases h
    rcases call_loose dbg hv hz hs hl hg hV hWV (by omega) hB0 (hok c (by simp)) with
      ⟨s1', o', a1, a2, a3, a4, -⟩ | ⟨-, h0⟩
    · rw [h1] at a1
      cases a1
      have := callAll_within dbg hB0 (W := W) calls (s := s1) (V := V + B) (by rw [a2]; exact hv) (by rw [a2]; exact hz)
        (by rw [a2]; exact hs) a3 (by rw [a2]; exact hg) a4 (by omega) hB
        (fun c' hc' => by rw [a2]; exact hok c' (by simp [hc'])) h2
      exact ⟨by rw [this.1, a2], this.2⟩
    · rw [h1] at h0; cases h0

theorem overlaps_loose {s : List Iv} (hs : Loose s) {w : Convex} (h : ∃ i ∈ s, i.upper ≥ w.lower ∧ i.lower ≤ w.upper) :
    TSet.overlaps s w = true := by
  induction s with
  | nil => obtain ⟨i, hi, -⟩ := h; simp at hi
  | cons x xs ih =>
    obtain ⟨hx, hcx, hxs⟩ := Loose_cons.1 hs
    obtain ⟨i, hi, h1, h2⟩ := h
    unfold TSet.overlaps
    rw [List.find?_cons]
    by_cases c : x.upper ≥ w.lower
    · simp only [c, decide_true]
      rcases List.mem_cons.1 hi with e | e
      · subst e; exact decide_eq_true h2
      · have := hcx i e
        have := hx.le
        exact decide_eq_true (by omega)
    · simp only [c, decide_false]
      rcases List.mem_cons.1 hi with e | e
      · subst e; exact absurd h1 c
      · exact ih hxs ⟨i, e, h1, h2⟩

theorem refuse_loose {dbg : Bool} {s s' : Sched} (hl : LooseSched s) {i : Nat} {w : Convex}
    (hp : Proper w) (h : s.retain dbg i (.conv w) = .ok (s', .recovered)) : ¬ ∃ t, Slot s i t ∧ InExtConvex t w := by
  rintro ⟨t, ⟨si, e, x, hx, h1⟩, h2⟩
  have e : s.schedule[i]? = some si := e
  rw [retain_test dbg e] at h
  have ls := hl.2 si (List.mem_of_getElem? e)
  have lx := ls.wf x hx
  have ov : (Window.conv w).overlapsSet si = true := by
    refine overlaps_loose ls ⟨x, hx, ?_⟩
    rcases extConvex_cases hp with ⟨-, -, -, e4⟩ | ⟨-, e2, e3, -⟩
    · exact absurd h2 (e4 t)
    · have h2 := (e3 t).1 h2
      obtain ⟨k1, k2, k3, k4, k5⟩ := lx
      obtain ⟨j1, j2, j3, j4, j5⟩ := e2
      simp only [InExt] at h1 h2
      simp only at j1 j2 j3 j4 j5
      constructor <;> omega
  split at h
  · cases h
  · rw [ov] at h
    simp only [Bool.not_true, Bool.false_eq_true, if_false] at h
    obtain ⟨a, -, h⟩ := bind_ok h
    obtain ⟨b, -, h⟩ := bind_ok h
    cases h

/-- the loop of `set_deadline` and `set_startline` on sets -/
theorem retainAll_loose (dbg : Bool) {B W : Int} (hB0 : 0 ≤ B) {w : Convex} (hp : Proper w) (hww : WithinConvex W w) :
    ∀ (l : List Nat) (s : Sched) (o : Outcome) {V : Int},
    Valid s.graph → ZeroDiag s.graph → Spanned s.graph → LooseSched s → Within B s.graph → WithinSched V s → W ≤ V →
    V + l.length * B < INF → (∀ i ∈ l, i < s.graph.size) → o ≠ .recovered → o ≠ .fatal →
    (∃ s' o', l.foldlM (fun (p : Sched × Outcome) i => do
        match ← Sched.retain dbg p.1 i (.conv w) with
        | (s, .unchanged) => return (s, p.2)
        | (s, .propagated) => return (s, .propagated)
        | _ => .error .unwrapNone) (s, o) = .ok (s', o') ∧ s'.graph = s.graph ∧ o' ≠ .recovered ∧ o' ≠ .fatal ∧
      (∀ j t, Slot s' j t → Slot s j t ∧ (j ∈ l → InExtConvex t w)) ∧
      (∀ τ, Feasible τ s → (∀ i ∈ l, InExtConvex (τ i) w) → Feasible τ s')) ∨
    (l.foldlM (fun (p : Sched × Outcome) i => do
        match ← Sched.retain dbg p.1 i (.conv w) with
        | (s, .unchanged) => return (s, p.2)
        | (s, .propagated) => return (s, .propagated)
        | _ => .error .unwrapNone) (s, o) = .error .unwrapNone ∧
      ¬ ∃ τ, Feasible τ s ∧ ∀ i ∈ l, InExtConvex (τ i) w) ∨
    (dbg = true ∧ l.foldlM (fun (p : Sched × Outcome) i => do
        match ← Sched.retain dbg p.1 i (.conv w) with
        | (s, .unchanged) => return (s, p.2)
        | (s, .propagated) => return (s, .propagated)
        | _ => .error .unwrapNone) (s, o) = .error .debugAssert)
  | [], s, o, V, _, _, _, _, _, _, _, _, _, h1, h2 =>
    Or.inl ⟨s, o, rfl, rfl, h1, h2, fun j t h => ⟨h, by simp⟩, fun τ h _ => h⟩
  | i :: l, s, o, V, hv, hz, hs, hl, hg, hV, hWV, hB, hi, ho1, ho2 => by
    have e : V + ((i :: l).length : Int) * B = V + B + l.length * B := by
      rw [List.length_cons, Int.natCast_add, Int.add_mul]; omega
    rw [e] at hB
    have hn : 0 ≤ (l.length : Int) * B := Int.mul_nonneg (by omega) hB0
    have hii := hi i (by simp)
    rcases retain_loose dbg hv hz hs hl hg hV (by omega) hB0 hii (w := .conv w) hp (withinWindow_mono hWV hww) with
      ⟨s1, o1, a1, a2, a3, a4, a5, a6, a7, a8, a9⟩ | ⟨h0, h1⟩
    · by_cases hr : o1 = .recovered
      · right; left
        subst hr
        constructor
        · rw [List.foldlM_cons]
          simp only [a1, ok_bind]
          rfl
        · rintro ⟨τ, hτ, hw⟩
          exact refuse_loose hl hp a1 ⟨τ i, hτ.2 i hii, hw i (by simp)⟩
      · have rest := fun o h1 h2 => retainAll_loose dbg hB0 hp hww l s1 o (V := V + B) (by rw [a2]; exact hv)
          (by rw [a2]; exact hz) (by rw [a2]; exact hs) a3 (by rw [a2]; exact hg) a4 (by omega) hB
          (fun i hi' => by rw [a2]; exact hi i (by simp [hi'])) h1 h2
        have a8 := a8 hr
        have feas : ∀ τ, Feasible τ s → InExtConvex (τ i) w → Feasible τ s1 := fun τ hτ hw =>
          ⟨by rw [a2]; exact hτ.1, by rw [a2]; exact a9 τ hτ.1 hτ.2 hw⟩
        have fold : ∃ o2, o2 ≠ .recovered ∧ o2 ≠ .fatal ∧ ∀ f : Sched × Outcome → Nat → Res (Sched × Outcome),
            f = (fun (p : Sched × Outcome) i => do
              match ← Sched.retain dbg p.1 i (.conv w) with
              | (s, .unchanged) => return (s, p.2)
              | (s, .propagated) => return (s, .propagated)
              | _ => .error .unwrapNone) → (i :: l).foldlM f (s, o) = l.foldlM f (s1, o2) := by
          cases o1 with
          | unchanged =>
            refine ⟨o, ho1, ho2, ?_⟩
            rintro f rfl
            rw [List.foldlM_cons]
            simp only [a1, ok_bind]
            rfl
          | propagated =>
            refine ⟨.propagated, by decide, by decide, ?_⟩
            rintro f rfl
            rw [List.foldlM_cons]
            simp only [a1, ok_bind]
            rfl
          | recovered => exact absurd rfl hr
          | fatal => exact absurd rfl a5
        obtain ⟨o2, k1, k2, k3⟩ := fold
        rw [k3 _ rfl]
        rcases rest o2 k1 k2 with ⟨s2, o3, b1, b2, b3, b4, b5, b6⟩ | ⟨b1, b2⟩ | ⟨b1, b2⟩
        · left
          refine ⟨s2, o3, b1, by rw [b2, a2], b3, b4, fun j t ht => ?_, fun τ hτ hw => ?_⟩
          · obtain ⟨c1, c2⟩ := b5 j t ht
            refine ⟨a7 j t c1, fun hj => ?_⟩
            rcases List.mem_cons.1 hj with e | e
            · subst e; exact a8 t c1
            · exact c2 e
          · exact b6 τ (feas τ hτ (hw i (by simp))) (fun j hj => hw j (by simp [hj]))
        · right; left
          refine ⟨b1, ?_⟩
          rintro ⟨τ, hτ, hw⟩
          exact b2 ⟨τ, feas τ hτ (hw i (by simp)), fun j hj => hw j (by simp [hj])⟩
        · exact Or.inr (Or.inr ⟨b1, b2⟩)
    · right; right
      refine ⟨h0, ?_⟩
      rw [List.foldlM_cons]
      simp only [h1]
      rfl

end Chrono
